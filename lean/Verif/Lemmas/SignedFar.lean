import Verif.Lemmas.Signed

/-!
# Lemmas on signed zeros and light
-/

namespace Snompy

/-- The quantity whose ratio is the interface factor, for any choice of the wavevector. -/
noncomputable def Medium.adm (pol : String) (m : Medium) : ℂ := if pol = "p" then m.eps / m.k else 1 / m.k

theorem stackMatrix_gen (pol : String) (a : Medium) (L : List (Medium × ℝ)) (b : Medium) :
    Medium.stackMatrix pol a L b = gen (a.adm pol) (L.map fun l => (l.1.adm pol, -Complex.I * (l.1.k * l.2))) (b.adm pol) := by
  have hT : ∀ x y : Medium, x.interfaceMatrix pol y = TM (x.adm pol / y.adm pol) := by
    intro x y
    have : x.ratio pol y = x.adm pol / y.adm pol := by
      unfold Medium.ratio Medium.adm
      split_ifs
      · rfl
      · rw [div_div_div_eq, one_mul, mul_one]
    unfold Medium.interfaceMatrix TM
    rw [this]
  have hP : ∀ (x : Medium) (t : ℝ), x.phaseMatrix t = PM (-Complex.I * (x.k * t)) := by
    intro x t
    unfold Medium.phaseMatrix PM
    simp
  induction L generalizing a with
  | nil => exact hT a b
  | cons l L ih =>
    obtain ⟨m, t⟩ := l
    rw [Medium.stackMatrix, List.map_cons, gen, hT, hP, ih, Matrix.mul_assoc]

/-- The matrix product of the far-field methods, for any choice of the wavevectors. -/
theorem farMatrix_media (pol : String) (a : Medium) (L : List (Medium × ℝ)) (b : Medium) (snu : Option ℝ)
    (hpol : pol = "p" ∨ pol = "s") (hp : pol = "p" → (∀ l ∈ L, l.1.eps ≠ 0) ∧ b.eps ≠ 0)
    (h0 : a.k ≠ 0) (hL : ∀ l ∈ L, l.1.k ≠ 0) :
    (do
      let tf ← Stack.farTransFactor ((layered a.eps (L.map fun l : Medium × ℝ => (l.1.eps, l.2)) b.eps snu).eps.zip
        (FP.num a.k :: ((L ++ [(b, (0 : ℝ))]).map fun l : Medium × ℝ => FP.num l.1.k))) pol
      (layered a.eps (L.map fun l : Medium × ℝ => (l.1.eps, l.2)) b.eps snu).farMatrix tf
        (FP.num a.k :: ((L ++ [(b, (0 : ℝ))]).map fun l : Medium × ℝ => FP.num l.1.k))) =
      .ok (toFP (Medium.stackMatrix pol a L b)) := by
  set f : Medium × ℝ → Medium × ℝ → FP ℂ := fun a b =>
    if pol = "p" then FP.num a.1.eps * FP.num b.1.k / (FP.num b.1.eps * FP.num a.1.k)
    else FP.num b.1.k / FP.num a.1.k with hf
  have hzip : (layered a.eps (L.map fun l : Medium × ℝ => (l.1.eps, l.2)) b.eps snu).eps.zip
      (FP.num a.k :: ((L ++ [(b, (0 : ℝ))]).map fun l : Medium × ℝ => FP.num l.1.k)) =
      (((a, 0) :: (L ++ [(b, 0)])).map fun l : Medium × ℝ => (FP.num l.1.eps, FP.num l.1.k)) := by
    have : (layered a.eps (L.map fun l : Medium × ℝ => (l.1.eps, l.2)) b.eps snu).eps =
        FP.num a.eps :: ((L ++ [(b, (0:ℝ))]).map fun l => FP.num l.1.eps) := by
      simp [layered]
    rw [this, List.zip_cons_cons, List.zip_map']
    rfl
  have hfac : Stack.farTransFactor ((layered a.eps (L.map fun l : Medium × ℝ => (l.1.eps, l.2)) b.eps snu).eps.zip
        (FP.num a.k :: ((L ++ [(b, (0 : ℝ))]).map fun l : Medium × ℝ => FP.num l.1.k))) pol =
      .ok (adj f (a, 0) (L ++ [(b, 0)])) := by
    rw [hzip]
    unfold Stack.farTransFactor
    rcases hpol with rfl | rfl
    · simp only [if_true]
      rw [List.map_cons, zipWith_adj,
        adj_map _ (fun l : Medium × ℝ => (FP.num l.1.eps, FP.num l.1.k))]
      simp [hf]
    · have : ("s" : String) ≠ "p" := by decide
      simp only [this, if_false, if_true]
      rw [List.map_cons, zipWith_adj,
        adj_map _ (fun l : Medium × ℝ => (FP.num l.1.eps, FP.num l.1.k))]
      simp [hf, this]
  have hadm : ∀ x : Medium × ℝ, x.1.k ≠ 0 → ∀ y ∈ L ++ [(b, (0:ℝ))],
      f x y = FP.num (x.1.adm pol / y.1.adm pol) := by
    intro x hx y hy
    rcases hpol with rfl | rfl
    · have hb0 : y.1.eps ≠ 0 := by
        simp only [List.mem_append, List.mem_singleton] at hy
        rcases hy with hy | rfl
        · exact (hp rfl).1 y hy
        · exact (hp rfl).2
      simp only [hf, if_true, FP.num_mul, Medium.adm]
      rw [FP.num_div _ (mul_ne_zero hb0 hx), div_div_div_eq, mul_comm (y.1.eps)]
    · have : ("s" : String) ≠ "p" := by decide
      simp only [hf, this, if_false, Medium.adm]
      rw [FP.num_div _ hx, div_div_div_eq, one_mul, mul_one]
  rw [hfac]
  simp only [PyM.ok_bind]
  unfold Stack.farMatrix
  rw [layered_multilayer, stackMatrix_gen]
  cases L with
  | nil =>
    simp only [List.nil_append, adj, List.map_cons, List.map_nil, ne_eq, not_true_eq_false,
      decide_false, Bool.false_eq_true, if_false]
    rw [hadm (a, 0) h0 (b, 0) (by simp), interface_num]
    rfl
  | cons l L =>
    simp only [List.cons_append, adj, List.map_cons]
    rw [hadm (a, 0) h0 l (by simp), interface_num]
    simp only [ne_eq, reduceCtorEq, not_false_eq_true, decide_true, if_true]
    have hc := chain_gen (fun l : Medium × ℝ => l.1.adm pol)
      (fun l => -Complex.I * (l.1.k * l.2)) f
      (fun l => Stack.propagation (-Complex.I) Complex.I (FP.num l.1.k * ofR (FP.num l.2)))
      l L (b, 0) ?_ ?_ (TM (a.adm pol / l.1.adm pol))
    · have hpf : List.zipWith (fun nz t => nz * ofR t)
          (FP.num a.k :: FP.num l.1.k :: ((L ++ [(b, (0 : ℝ))]).map fun l : Medium × ℝ => FP.num l.1.k)).dropLast.tail
          (layered a.eps ((l.1.eps, l.2) :: L.map fun l => (l.1.eps, l.2)) b.eps snu).t =
          (l :: L).map fun l => FP.num l.1.k * ofR (FP.num l.2) := by
        have : (FP.num a.k :: FP.num l.1.k :: ((L ++ [(b, (0 : ℝ))]).map fun l : Medium × ℝ => FP.num l.1.k)).dropLast.tail =
            (l :: L).map fun l => FP.num l.1.k := by
          rw [List.map_append, ← List.cons_append, ← List.cons_append]
          simp only [List.map_cons, List.map_nil, List.dropLast_concat, List.tail_cons]
        rw [this]
        have : (layered a.eps ((l.1.eps, l.2) :: L.map fun l => (l.1.eps, l.2)) b.eps snu).t = (l :: L).map fun l => FP.num l.2 := by
          simp [layered]
        rw [this, List.zipWith_map, List.zipWith_self]
      rw [hpf, List.map_map]
      simp only [Function.comp_def]
      rw [hc]
      rfl
    · intro x hx y hy
      exact hadm x (hL x hx) y (by simp only [List.cons_append, List.mem_cons]; tauto)
    · intro x _
      rw [sofR, FP.num_mul, propagation_num _ _ _ (neg_neg _).symm]

/-! ## The root -/

theorem SgC.sub_imNeg (x y : SgC) : (x - y).imNeg = (x.im - y.im).bit := rfl
theorem SgC.mul_imNeg (x y : SgC) : (x * y).imNeg = (x.re * y.im + x.im * y.re).bit := rfl
theorem SgC.add_imNeg (x y : SgC) : (x + y).imNeg = (x.im + y.im).bit := rfl

theorem SgR.bit_zero (n : Bool) : (⟨FP.num 0, n⟩ : SgR).bit = n := by simp [SgR.bit]
theorem SgR.bit_num {a : ℝ} (ha : a ≠ 0) (n : Bool) : (⟨FP.num a, n⟩ : SgR).bit = decide (a < 0) := by simp [SgR.bit, ha]

theorem SgR.eq_num {x : SgR} {a : ℝ} (h : x.val = .num a) : x = ⟨.num a, x.neg⟩ := by
  cases x
  cases h
  rfl

open Classical in
/-- The sign of the imaginary part below the root. -/
theorem arg_im (x : SgEps) (hx : x.eps ≠ 0) (hi : x.eps.im = 0) {nu q : SgR} {n k : ℝ} (hn : nu.val = .num n) (hn0 : n ≠ 0)
    (hq : q.val = .num k) :
    (x.num * ofR (RealOps.npow nu 2) - ofR (RealOps.npow q 2)).imNeg = (decide (x.eps.re < 0) && x.imNeg) := by
  have hre : x.eps.re ≠ 0 := fun h => hx (Complex.ext h hi)
  obtain ⟨e, a, b⟩ := x
  dsimp only at *
  have h1 : (SgEps.num ⟨e, a, b⟩).re = ⟨.num e.re, a⟩ := rfl
  have h2 : (SgEps.num ⟨e, a, b⟩).im = ⟨.num 0, b⟩ := by
    show (⟨.num e.im, b⟩ : SgR) = _
    rw [hi]
  have o1 : ∀ (y : SgR) (c : ℝ), y.val = .num c → (ofR y : SgC).re = ⟨.num c, y.bit⟩ := by
    intro y c hy
    show (⟨(y.val.map fun x : ℝ => (x : ℂ)).map Complex.re, y.bit⟩ : SgR) = _
    rw [hy]
    simp
  have o2 : ∀ (y : SgR) (c : ℝ), y.val = .num c → (ofR y : SgC).im = ⟨.num 0, false⟩ := by
    intro y c hy
    show (⟨(y.val.map fun x : ℝ => (x : ℂ)).map Complex.im, false⟩ : SgR) = _
    rw [hy]
    simp
  have n2 : (RealOps.npow nu 2).val = .num (n ^ 2) := by
    show RealOps.npow nu.val 2 = _
    rw [hn]
    rfl
  have q2 : (RealOps.npow q 2).val = .num (k ^ 2) := by
    show RealOps.npow q.val 2 = _
    rw [hq]
    rfl
  have hm : ∀ x y : SgC, (x * y).im = ⟨(x.val * y.val).map Complex.im, (x.re * y.im + x.im * y.re).bit⟩ := fun _ _ => rfl
  have m1 : ∀ (c d : ℝ) (s t : Bool), (⟨FP.num c, s⟩ * ⟨FP.num d, t⟩ : SgR) =
      ⟨FP.num (c * d), (⟨FP.num c, s⟩ : SgR).bit ^^ (⟨FP.num d, t⟩ : SgR).bit⟩ := fun _ _ _ _ => rfl
  have a1 : ∀ (c d : ℝ) (s t : Bool), (⟨FP.num c, s⟩ + ⟨FP.num d, t⟩ : SgR) =
      ⟨FP.num (c + d), (⟨FP.num c, s⟩ : SgR).bit && (⟨FP.num d, t⟩ : SgR).bit⟩ := fun _ _ _ _ => rfl
  have s1 : ∀ (c d : ℝ) (s t : Bool), (⟨FP.num c, s⟩ - ⟨FP.num d, t⟩ : SgR) =
      ⟨FP.num (c - d), (⟨FP.num c, s⟩ : SgR).bit && !(⟨FP.num d, t⟩ : SgR).bit⟩ := fun _ _ _ _ => rfl
  have hv : ((SgEps.num ⟨e, a, b⟩).val * (ofR (RealOps.npow nu 2) : SgC).val).map Complex.im = FP.num 0 := by
    show (FP.num e * (RealOps.npow nu 2).val.map _).map Complex.im = _
    rw [n2]
    simp [hi]
    exact .inr (by rw [← Complex.ofReal_pow]; exact Complex.ofReal_im _)
  have hn2 : ¬ (n ^ 2 < 0) := not_lt.2 (sq_nonneg n)
  rw [SgC.sub_imNeg, hm, hv, h1, h2, o2 _ _ n2, o2 _ _ q2, o1 _ _ n2, m1, m1, a1, s1, SgR.bit_num hre, SgR.bit_zero, SgR.bit_zero,
    SgR.bit_num (pow_ne_zero 2 hn0), mul_zero, zero_mul, add_zero, sub_zero]
  simp [SgR.bit_zero, hn2]

open Classical in
theorem nuZ_sg (x : SgEps) (hx : x.eps ≠ 0) {nu q : SgR} {n k : ℝ} (hn : nu.val = .num n) (hn0 : n ≠ 0) (hq : q.val = .num k) :
    (CplxOps.sqrt (x.num * ofR (RealOps.npow nu 2) - ofR (RealOps.npow q 2)) : SgC).val = .num (x.medium n k).k := by
  have hval : (x.num * ofR (RealOps.npow nu 2) - ofR (RealOps.npow q 2) : SgC).val = .num (x.eps * (n : ℂ) ^ 2 - (k : ℂ) ^ 2) := by
    show FP.num x.eps * ofR (RealOps.npow nu.val 2) - ofR (RealOps.npow q.val 2) = _
    rw [hn, hq, snpow, snpow, sofR, sofR]
    simp
  have him : (x.eps * (n : ℂ) ^ 2 - (k : ℂ) ^ 2).im = x.eps.im * n ^ 2 := by
    simp [← Complex.ofReal_pow]
  have hre : (x.eps * (n : ℂ) ^ 2 - (k : ℂ) ^ 2).re = x.eps.re * n ^ 2 - k ^ 2 := by
    simp [← Complex.ofReal_pow]
  have hn2 : 0 < n ^ 2 := by positivity
  show (SgC.root _).val = _
  unfold SgC.root SgEps.medium
  rw [hval]
  by_cases hb : x.Below
  · have h := arg_im x hx hb.2.1 hn hn0 hq
    rw [decide_eq_true hb.1, hb.2.2] at h
    rw [if_pos, if_pos hb]
    · rfl
    · refine ⟨_, rfl, ?_, ?_, by simpa using h⟩
      · rw [hre]
        nlinarith [hb.1, sq_nonneg k]
      · rw [him, hb.2.1, zero_mul]
  · rw [if_neg, if_neg hb]
    · rfl
    · rintro ⟨a, ha, h1, h2, h3⟩
      obtain rfl := FP.num.inj ha
      rw [him] at h2
      have hi : x.eps.im = 0 := by
        rcases mul_eq_zero.mp h2 with h | h
        · exact h
        · exact absurd h hn2.ne'
      rw [arg_im x hx hi hn hn0 hq] at h3
      simp only [Bool.and_eq_true, decide_eq_true_eq] at h3
      exact hb ⟨h3.1, hi, h3.2⟩

theorem farTransFactor_sg (l m : List SgC) (p : String) :
    View (List.map SgC.val) (Stack.farTransFactor (l.zip m) p) (Stack.farTransFactor ((l.map SgC.val).zip (m.map SgC.val)) p) := by
  have e : (l.map SgC.val).zip (m.map SgC.val) = (l.zip m).map (Prod.map SgC.val SgC.val) := List.zip_map
  rw [e]
  unfold Stack.farTransFactor
  rw [← List.map_dropLast, ← List.map_tail, List.zipWith_map, List.zipWith_map]
  split_ifs
  · exact View.ok (by rw [List.map_zipWith]; rfl)
  · exact View.ok (by rw [List.map_zipWith]; rfl)
  · exact View.error _

theorem farMatrix_sg (s : Stack SgR SgC) (l m : List SgC) :
    View Mat2.unsigned (s.farMatrix l m) (s.plain.farMatrix (l.map SgC.val) (m.map SgC.val)) := by
  unfold Stack.farMatrix
  rw [← interfaces_unsigned, plain_multilayer]
  generalize l.map Stack.interface = k
  cases k with
  | nil => exact View.error _
  | cons T0 Ts =>
    simp only [List.map_cons]
    split_ifs
    · refine View.ok ?_
      rw [chain_unsigned, zip_unsigned]
      congr 2
      rw [show s.plain.t = s.t.map SgR.val from rfl, ← List.map_dropLast, ← List.map_tail, List.zipWith_map, List.map_map,
        List.map_zipWith, List.map_zipWith]
      rfl
    · exact View.ok rfl

theorem transferMatrix_sg (env : SgEps) (L : List (SgEps × ℝ × Bool)) (sub : SgEps) (snu : Option SgR)
    (a : Stack.FarArgs SgR) (nu q : ℝ) (ha : a.Aims nu q) (hpol : a.polarization = "p" ∨ a.polarization = "s")
    (hn : nu ≠ 0) (he : env.eps ≠ 0) (hl : ∀ l ∈ L, l.1.eps ≠ 0) (hs : sub.eps ≠ 0)
    (h0 : (env.medium nu q).k ≠ 0) (hL : ∀ l ∈ L, (l.1.medium nu q).k ≠ 0) :
    View Mat2.unsigned ((signedLayers env L sub snu).transferMatrix a)
      (.ok (toFP (Medium.stackMatrix a.polarization (env.medium nu q) (L.map fun l => (l.1.medium nu q, l.2.1)) (sub.medium nu q)))) := by
  obtain ⟨⟨x, hx, hxn⟩, hq⟩ := ha
  have hQ : ∃ y : SgR, Stack.resolveQ x a.q a.thetaIn = .ok y ∧ y.val = .num q := by
    unfold Stack.resolveQ
    rcases hq with ⟨y, h1, h2, h3⟩ | ⟨y, th, h1, h2, h3, h4⟩
    · rw [h1, h3]
      exact ⟨y, rfl, h2⟩
    · rw [h1, h3]
      refine ⟨_, rfl, ?_⟩
      show x.val * RealOps.sin (RealOps.abs y.val) = _
      rw [hxn, h2, h4]
      rfl
  obtain ⟨y, hy, hyq⟩ := hQ
  unfold Stack.transferMatrix Stack.resolveNu
  rw [hx]
  simp only [PyM.ok_bind]
  rw [hy]
  simp only [PyM.ok_bind]
  have hm : ∀ z : SgEps, (z.medium nu q).eps = z.eps := fun _ => rfl
  have hz : ((signedLayers env L sub snu).nuZ x y).map SgC.val =
      FP.num (env.medium nu q).k :: (((L.map fun l => (l.1.medium nu q, l.2.1)) ++ [(sub.medium nu q, (0 : ℝ))]).map
        fun l => FP.num l.1.k) := by
    unfold Stack.nuZ signedLayers
    simp only [List.map_cons, List.map_append, List.map_map, List.map_nil]
    rw [nuZ_sg env he hxn hn hyq, nuZ_sg sub hs hxn hn hyq]
    congr 2
    refine List.map_congr_left fun l h => ?_
    exact nuZ_sg l.1 (hl l h) hxn hn hyq
  have hmed := farMatrix_media a.polarization (env.medium nu q) (L.map fun l => (l.1.medium nu q, l.2.1)) (sub.medium nu q)
    none hpol (fun _ => ⟨fun l h => by
      obtain ⟨l', h', rfl⟩ := List.mem_map.mp h
      exact hl l' h', hs⟩) h0 (fun l h => by
      obtain ⟨l', h', rfl⟩ := List.mem_map.mp h
      exact hL l' h')
  have hplain : ∃ p : Option (FP ℝ), (signedLayers env L sub snu).plain =
      ⟨(layered (env.medium nu q).eps ((L.map fun l => (l.1.medium nu q, l.2.1)).map fun l => (l.1.eps, l.2)) (sub.medium nu q).eps
        none).eps, (layered (env.medium nu q).eps ((L.map fun l => (l.1.medium nu q, l.2.1)).map fun l => (l.1.eps, l.2))
        (sub.medium nu q).eps none).t, p⟩ := by
    refine ⟨snu.map SgR.val, ?_⟩
    unfold Stack.plain signedLayers layered
    simp only [List.map_cons, List.map_append, List.map_map, List.map_nil]
    rfl
  obtain ⟨p, hplain⟩ := hplain
  have hfar : ∀ (s : Stack (FP ℝ) (FP ℂ)) (p : Option (FP ℝ)) l m, Stack.farMatrix ⟨s.eps, s.t, p⟩ l m = s.farMatrix l m := fun _ _ _ _ => rfl
  rw [← hmed]
  refine View.bind (v := List.map SgC.val) ?_ fun v _ => ?_
  · have := farTransFactor_sg (signedLayers env L sub snu).eps ((signedLayers env L sub snu).nuZ x y) a.polarization
    rw [hz] at this
    rw [show (signedLayers env L sub snu).eps.map SgC.val = (signedLayers env L sub snu).plain.eps from rfl, hplain] at this
    exact this
  · have := farMatrix_sg (signedLayers env L sub snu) v ((signedLayers env L sub snu).nuZ x y)
    rw [hz, hplain, hfar] at this
    exact this

/-! ## Real numbers -/

/-- `x` is the real number `v`, with the sign `i` of its imaginary part. -/
def IsReal (x : SgC) (v : ℝ) (i : Bool) : Prop := x.val = .num (v : ℂ) ∧ x.imNeg = i

theorem IsReal.re {x : SgC} {v : ℝ} {i : Bool} (h : IsReal x v i) : x.re = ⟨.num v, x.reNeg⟩ := by
  show (⟨x.val.map Complex.re, x.reNeg⟩ : SgR) = _
  rw [h.1]
  simp

theorem IsReal.im {x : SgC} {v : ℝ} {i : Bool} (h : IsReal x v i) : x.im = ⟨.num 0, i⟩ := by
  show (⟨x.val.map Complex.im, x.imNeg⟩ : SgR) = _
  rw [h.1, h.2]
  simp

theorem SgR.mk_mul (c d : ℝ) (s t : Bool) : (⟨FP.num c, s⟩ * ⟨FP.num d, t⟩ : SgR) =
    ⟨FP.num (c * d), (⟨FP.num c, s⟩ : SgR).bit ^^ (⟨FP.num d, t⟩ : SgR).bit⟩ := rfl
theorem SgR.mk_div (c : ℝ) {d : ℝ} (hd : d ≠ 0) (s t : Bool) : (⟨FP.num c, s⟩ / ⟨FP.num d, t⟩ : SgR) =
    ⟨FP.num (c / d), (⟨FP.num c, s⟩ : SgR).bit ^^ (⟨FP.num d, t⟩ : SgR).bit⟩ := by
  show (⟨FP.num c / FP.num d, _⟩ : SgR) = _
  rw [FP.num_div _ hd]
theorem SgR.mk_add (c d : ℝ) (s t : Bool) : (⟨FP.num c, s⟩ + ⟨FP.num d, t⟩ : SgR) =
    ⟨FP.num (c + d), (⟨FP.num c, s⟩ : SgR).bit && (⟨FP.num d, t⟩ : SgR).bit⟩ := rfl
theorem SgR.mk_sub (c d : ℝ) (s t : Bool) : (⟨FP.num c, s⟩ - ⟨FP.num d, t⟩ : SgR) =
    ⟨FP.num (c - d), (⟨FP.num c, s⟩ : SgR).bit && !(⟨FP.num d, t⟩ : SgR).bit⟩ := rfl

theorem isReal_one : IsReal (clit 1) 1 false := ⟨by show FP.num (1 : ℂ) = _; simp, rfl⟩

theorem IsReal.sub {x y : SgC} {v w : ℝ} {i j : Bool} (hx : IsReal x v i) (hy : IsReal y w j) : IsReal (x - y) (v - w) (i && !j) := by
  refine ⟨?_, ?_⟩
  · show x.val - y.val = _
    rw [hx.1, hy.1]
    simp
  · rw [SgC.sub_imNeg, hx.im, hy.im, SgR.mk_sub, sub_zero, SgR.bit_zero, SgR.bit_zero, SgR.bit_zero]

theorem IsReal.add {x y : SgC} {v w : ℝ} {i j : Bool} (hx : IsReal x v i) (hy : IsReal y w j) : IsReal (x + y) (v + w) (i && j) := by
  refine ⟨?_, ?_⟩
  · show x.val + y.val = _
    rw [hx.1, hy.1]
    simp
  · rw [SgC.add_imNeg, hx.im, hy.im, SgR.mk_add, add_zero, SgR.bit_zero, SgR.bit_zero, SgR.bit_zero]

open Classical in
theorem IsReal.mul {x y : SgC} {v w : ℝ} {i j : Bool} (hx : IsReal x v i) (hy : IsReal y w j) (hv : v ≠ 0) (hw : w ≠ 0) :
    IsReal (x * y) (v * w) ((decide (v < 0) ^^ j) && (i ^^ decide (w < 0))) := by
  refine ⟨?_, ?_⟩
  · show x.val * y.val = _
    rw [hx.1, hy.1]
    simp
  · rw [SgC.mul_imNeg, hx.im, hy.im, hx.re, hy.re, SgR.mk_mul, SgR.mk_mul, SgR.mk_add, mul_zero, zero_mul, add_zero,
      SgR.bit_num hv, SgR.bit_num hw]
    simp only [SgR.bit_zero]

open Classical in
theorem IsReal.div {x y : SgC} {v w : ℝ} {i j : Bool} (hx : IsReal x v i) (hy : IsReal y w j) (hv : v ≠ 0) (hw : w ≠ 0) :
    IsReal (x / y) (v / w) ((i && !(decide (v < 0) ^^ (j ^^ decide (w < 0)))) ^^ decide (w < 0)) := by
  refine ⟨?_, ?_⟩
  · show x.val / y.val = _
    rw [hx.1, hy.1, FP.num_div _ (by exact_mod_cast hw)]
    simp
  · show (SgC.divBits x y).2 = _
    unfold SgC.divBits
    rw [if_pos ⟨_, hy.1, by simp⟩]
    dsimp only
    have hl : (lit 1 : SgR) = ⟨FP.num 1, false⟩ := rfl
    have h1 : (1 : ℝ) / w < 0 ↔ w < 0 := by rw [one_div, inv_lt_zero]
    rw [hx.im, hy.im, hx.re, hy.re, hl, SgR.mk_div _ hw, zero_div, SgR.mk_mul, SgR.mk_mul, mul_zero, mul_zero, SgR.mk_add, add_zero,
      SgR.mk_div _ hw, SgR.mk_sub, sub_zero, SgR.mk_mul, zero_mul]
    simp only [SgR.bit_zero, SgR.bit_num hv, SgR.bit_num hw, SgR.bit_num (one_div_ne_zero hw), h1]

end Snompy
