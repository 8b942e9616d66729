import Verif.Model.Counts
import Verif.Props.Inversion

/-!
# C102: counts of points and terms that are not positive integers
-/

namespace Snompy.Props

variable {R J C : Type} [RealOps R] [CplxOps R J C]

/-- Python code passes the natural number `k`, as an integer of Python or numpy or a boolean. -/
def PassesNat (o : Order) (k : ℕ) : Prop := (∀ x, o ≠ .float x) ∧ o.val = k

/-- The same for an optional argument, with `none` for the default. -/
def PassesNatOpt : Option Order → Option ℕ → Prop
  | none, none => True
  | some o, some k => PassesNat o k
  | _, _ => False

/-- The numbers for which `demod` raises whatever function it is given, and the exception. -/
def BadTrapz (o : Order) (e : PyErr) : Prop :=
  ((∃ x, o = .float x) ∧ e = .typeError "'float' object cannot be interpreted as an integer") ∨
  ((∀ x, o ≠ .float x) ∧ o.val ≤ -2 ∧ e = .valueError "Number of samples must be non-negative.")

/-- The sampling angles for a natural number. -/
theorem linspacePi_succ (k : ℕ) : linspacePi (k + 1) = thetaGrid k := by
  unfold linspacePi thetaGrid
  congr 1
  funext j
  push_cast
  rw [add_sub_cancel_right]

/-- The number of points for a number that is not a float. -/
theorem linspaceNum_of {o : Order} (hf : ∀ x, o ≠ .float x) :
    o.linspaceNum = if ⌊o.val⌋ + 1 < 0 then .error (.valueError "Number of samples must be non-negative.")
      else .ok (⌊o.val⌋ + 1).toNat := by
  cases o with
  | float x => exact absurd rfl (hf x)
  | int m => rfl
  | npInt m => rfl
  | bool b => rfl

theorem PassesNat.num {o : Order} {k : ℕ} (h : PassesNat o k) : o.linspaceNum = .ok (k + 1) := by
  rw [linspaceNum_of h.1, h.2, Int.floor_natCast, if_neg (by omega)]
  rfl

/-- **Natural numbers.**  Whatever type carries the natural number, `demod` is the function of the model with
natural numbers, about which everything else is proved. -/
theorem C102_natural (env : Env) (f : R → PyM C) (x0 amp n : R) {o : Option Order} {k : Option ℕ}
    (h : PassesNatOpt o k) : demodO env f x0 amp n o = demod env f x0 amp n k := by
  have key : ∀ {o : Order} {k : ℕ}, PassesNat o k →
      demodO env f x0 amp n (some o) = demod env f x0 amp n (some k) := by
    intro o k h
    unfold demodO demod
    simp only [Option.getD_some]
    rw [h.num, h.2]
    simp only [PyM.ok_bind, linspacePi_succ, Rat.cast_natCast]
  match o, k, h with
  | none, none, _ =>
    have := key (o := .int env.defaults.nTrapz) (k := env.defaults.nTrapz)
      ⟨by simp, by simp [Order.val]⟩
    exact this
  | some o, some k, h => exact key h

example : PassesNatOpt (some (.bool true)) (some 1) ∧ PassesNatOpt (some (.npInt 32)) (some 32) ∧
    PassesNatOpt none none :=
  ⟨show PassesNat _ _ from ⟨by simp, by simp [Order.val]⟩,
    show PassesNat _ _ from ⟨by simp, by simp [Order.val]⟩, trivial⟩

/-- **Refused numbers.**  A float, even a whole one, raises `TypeError` and an integer below -1 `ValueError`; the function to
demodulate is not called, so its own exceptions do not show. -/
theorem C102_refused (env : Env) (f : R → PyM C) (x0 amp n : R) {o : Order} {e : PyErr}
    (h : BadTrapz o e) : demodO env f x0 amp n (some o) = .error e := by
  have key : o.linspaceNum = .error e := by
    rcases h with ⟨⟨x, rfl⟩, rfl⟩ | ⟨hf, hv, rfl⟩
    · rfl
    · have h1 : ⌊o.val⌋ + 1 < 0 := by
        have : (⌊o.val⌋ : ℚ) ≤ -2 := (Int.floor_le _).trans hv
        have : ⌊o.val⌋ ≤ -2 := by exact_mod_cast this
        omega
      rw [linspaceNum_of hf, if_pos h1]
  unfold demodO
  simp only [Option.getD_some, key]
  rfl

example : BadTrapz (.float 32) (.typeError "'float' object cannot be interpreted as an integer") ∧
    BadTrapz (.int (-2)) (.valueError "Number of samples must be non-negative.") :=
  ⟨.inl ⟨⟨_, rfl⟩, rfl⟩, .inr ⟨by simp, by norm_num [Order.val], rfl⟩⟩

/-- **Every number** is refused, natural, or minus one. -/
theorem C102_cases (o : Order) :
    (∃ e, BadTrapz o e) ∨ (∃ k, PassesNat o k) ∨ ((∀ x, o ≠ .float x) ∧ o.val = -1) := by
  have key : (∀ x, o ≠ .float x) → ∀ m : ℤ, o.val = m →
      (∃ e, BadTrapz o e) ∨ (∃ k, PassesNat o k) ∨ ((∀ x, o ≠ .float x) ∧ o.val = -1) := by
    intro hf m hm
    rcases lt_trichotomy m (-1) with h | h | h
    · refine .inl ⟨_, .inr ⟨hf, ?_, rfl⟩⟩
      rw [hm]
      exact_mod_cast (by omega : m ≤ -2)
    · exact .inr (.inr ⟨hf, by rw [hm, h]; norm_num⟩)
    · refine .inr (.inl ⟨m.toNat, hf, ?_⟩)
      rw [hm]
      exact_mod_cast (Int.toNat_of_nonneg (by omega)).symm
  cases o with
  | float x => exact .inl ⟨_, .inl ⟨⟨x, rfl⟩, rfl⟩⟩
  | int m => exact key (fun x hx => by cases hx) m rfl
  | npInt m => exact key (fun x hx => by cases hx) m rfl
  | bool b =>
    refine key (fun x hx => by cases hx) (if b then 1 else 0) ?_
    cases b <;> simp [Order.val]

/-- The claim one would like: a number which is not a positive integer is refused. -/
def RefusesNonPositive : Prop :=
  ∀ (env : Env) (f : FP ℝ → PyM (FP ℂ)) (x0 amp n : FP ℝ) (o : Order),
    (¬ ∃ k, 0 < k ∧ PassesNat o k) → ∃ e, demodO env f x0 amp n (some o) = .error e

/-- The number of points for minus one. -/
theorem linspaceNum_neg_one {o : Order} (hf : ∀ x, o ≠ .float x) (hv : o.val = -1) :
    o.linspaceNum = .ok 0 := by
  rw [linspaceNum_of hf, hv]
  norm_num

/-- **Minus one** silently gives zero at every harmonic for every function that does not raise at the
middle of the oscillation. -/
theorem C102_minus_one (env : Env) (f : FP ℝ → PyM (FP ℂ)) (x0 amp n : FP ℝ) {o : Order}
    (hf : ∀ x, o ≠ .float x) (hv : o.val = -1) {v : FP ℂ} (h : f (x0 + lit 0 * amp) = .ok v) :
    demodO env f x0 amp n (some o) = .ok (FP.num 0) := by
  unfold demodO
  simp only [Option.getD_some, linspaceNum_neg_one hf hv, PyM.ok_bind, h, hv]
  have e1 : FP.trapz [] = FP.num 0 := by simp [FP.trapz]
  simp only [CplxOps.trapz0, linspacePi, List.range_zero, List.map_nil, List.mapM_nil, PyM.pure_eq_ok, PyM.ok_bind, e1]
  rw [show (clit (((-1 : ℚ) : ℂ)) : FP ℂ) = FP.num (-1) by simp [CplxOps.clit], FP.num_div _ (by norm_num)]
  simp

/-- **Zero** never gives a number. -/
theorem C102_zero (env : Env) (f : FP ℝ → PyM (FP ℂ)) (x0 amp n : FP ℝ) {o : Order}
    (ho : PassesNat o 0) {v : FP ℂ} (h : demodO env f x0 amp n (some o) = .ok v) : v = FP.nan := by
  rw [C102_natural env f x0 amp n (o := some o) (k := some 0) ho] at h
  unfold demod at h
  simp only [Option.getD_some] at h
  cases hp : f (x0 + lit 0 * amp) with
  | error e => rw [hp] at h; cases h
  | ok p =>
    rw [hp] at h
    simp only [PyM.ok_bind] at h
    cases ht : (CplxOps.trapz0 (thetaGrid 0) [.inr p, .inl n] fun theta => do
        let fx ← f (x0 + RealOps.cos theta * amp)
        pure (fx * CplxOps.exp (clit (-Complex.I) * ofR n * ofR theta)) : PyM (FP ℂ)) with
    | error e => rw [ht] at h; cases h
    | ok w =>
      rw [ht] at h
      simp only [PyM.ok_bind, PyM.pure_eq_ok, Except.ok.injEq] at h
      rw [← h]
      cases w with
      | nan => rfl
      | num z => simp [CplxOps.clit]

/-- So the claim is false of the code. -/
theorem C102_not_refused : ¬ RefusesNonPositive := by
  intro h
  obtain ⟨e, he⟩ := h ⟨Defaults.initial, fun _ => []⟩ (fun _ => .ok (FP.num 1)) (FP.num 0) (FP.num 1) (FP.num 1) (.int (-1)) (by
    rintro ⟨k, hk, -, h⟩
    simp only [Order.val] at h
    have : (k : ℚ) = -1 := by rw [← h]; norm_num
    have : (0 : ℚ) ≤ k := Nat.cast_nonneg k
    linarith)
  rw [C102_minus_one _ _ _ _ _ (by simp) (by norm_num [Order.val]) rfl] at he
  cases he

/-- `demod` of an elementwise function that never raises is elementwise for every number. -/
theorem demodO_den (env : Env) (f : RArr → PyM CArr) (fS : (ℕ → ℕ) → FP ℝ → PyM (FP ℂ)) {sf : Shape}
    (hf : ∀ x sx X, Den x sx X → DenM (f x) (sx ⊔ᵇ sf) (fun i => fS i (X i)))
    (hok : ∀ i x, ∃ v, fS i x = .ok v)
    {x0 amp n : RArr} {s0 sa sn : Shape} {X0 Am N : (ℕ → ℕ) → FP ℝ}
    (h0 : Den x0 s0 X0) (ha : Den amp sa Am) (hn : Den n sn N) (o : Option Order) :
    DenM (demodO env f x0 amp n o) (s0 ⊔ᵇ sa ⊔ᵇ sn ⊔ᵇ sf)
      (fun i => demodO env (fS i) (X0 i) (Am i) (N i) o) := by
  have hdep := dep_of_elementwise hf
  unfold demodO
  cases hnum : (o.getD (.int env.defaults.nTrapz)).linspaceNum with
  | error e =>
    simp only [hnum, PyM.error_bind]
    exact DenM.err e _
  | ok num =>
  simp only [hnum, PyM.ok_bind]
  set u := s0 ⊔ᵇ sa ⊔ᵇ sn ⊔ᵇ sf with hu
  have l0 : s0 ≤ᵇ u := by
    rw [hu, Shape.join_assoc, Shape.join_assoc]; exact Shape.le_join_left _ _
  have la : sa ≤ᵇ u := by
    have : u = sa ⊔ᵇ (s0 ⊔ᵇ sn ⊔ᵇ sf) := by rw [hu]; shape_ac
    rw [this]; exact Shape.le_join_left _ _
  have ln : sn ≤ᵇ u := by
    have : u = sn ⊔ᵇ (s0 ⊔ᵇ sa ⊔ᵇ sf) := by rw [hu]; shape_ac
    rw [this]; exact Shape.le_join_left _ _
  have lf : sf ≤ᵇ u := Shape.le_join_right _ _
  have hprobe := hf _ _ _ (h0.radd ((Den.lit 0).rmul ha))
  simp only [Shape.unit_join] at hprobe
  refine DenM.seq hprobe (by
    exact Shape.join_le (Shape.join_le l0 la) lf) fun probe P hP => ?_
  refine DenM.seq (s := u) (DenM.trapz0 (shapes := [s0 ⊔ᵇ sa ⊔ᵇ sf, sn])
    (likesS := fun i => [.inr (P i), .inl (N i)])
    (bodyS := fun i theta => do
      let fx ← fS i (X0 i + RealOps.cos theta * Am i)
      pure (fx * CplxOps.exp (clit (-Complex.I) * ofR (N i) * ofR theta)))
    (linspacePi num) ?_ ?_ ?_ ?_ ?_)
    (Shape.le_refl _) ?_
  · exact List.Forall₂.cons ⟨P, hP⟩ (List.Forall₂.cons ⟨N, hn⟩ List.Forall₂.nil)
  · simp only [joinAll, Shape.join_unit, hu]; shape_ac
  · intro x sx X hx
    refine DenM.seq (hf _ _ _ (h0.radd (hx.cos.rmul ha))) ?_ fun y g hy => ?_
    · refine Shape.join_le (Shape.join_le (Shape.le_trans l0 (Shape.le_join_right _ _))
        (Shape.join_le (Shape.le_join_left _ _) (Shape.le_trans la (Shape.le_join_right _ _))))
        (Shape.le_trans lf (Shape.le_join_right _ _))
    · refine DenM.ok ((hy.cmul (((Den.clit _).cmul hn.ofR).cmul hx.ofR).exp).congr ?_ fun i => rfl)
      simp only [Shape.unit_join, hu]
      shape_ac
  · have d0 := Dep.of_den h0 l0
    have da := Dep.of_den ha la
    have dn := Dep.of_den hn ln
    have df : Dep u fS := by
      rintro w hw i j hij
      cases hsf : sf with
      | none => rw [hsf, hw] at lf; exact absurd (Shape.le_none lf) (by simp)
      | some v =>
        rw [hsf, hw] at lf
        exact hdep v hsf i j (canon_congr_of_le lf hij)
    intro w hw i j hij
    simp only [d0 w hw i j hij, da w hw i j hij, dn w hw i j hij, df w hw i j hij]
  · right
    intro i x
    obtain ⟨v, hv⟩ := hok i (X0 i + RealOps.cos x * Am i)
    exact ⟨_, by rw [hv]; rfl⟩
  · intro y g hy
    exact DenM.ok ((hy.cdiv (Den.clit _)).congr (by simp) fun i => rfl)

/-- **Minus one, arrays.**  An elementwise function that never raises gives an array of zeros of the
broadcast shape. -/
theorem C102_minus_one_arrays (env : Env) (f : RArr → PyM CArr) (fS : (ℕ → ℕ) → FP ℝ → PyM (FP ℂ)) (sf : Shape)
    (hf : ∀ x sx X, Den x sx X → DenM (f x) (sx ⊔ᵇ sf) (fun i => fS i (X i)))
    (hok : ∀ i x, ∃ v, fS i x = .ok v) (x0 amp n : NDArray (FP ℝ)) {o : Order}
    (ho : ∀ x, o ≠ .float x) (hv : o.val = -1) :
    DenM (demodO env f (.ok x0) (.ok amp) (.ok n) (some o))
      (joinAll [some x0.rshape, some amp.rshape, some n.rshape, sf]) (fun _ => .ok (FP.num 0)) := by
  refine (demodO_den env f fS hf hok (Den.leaf x0) (Den.leaf amp) (Den.leaf n) (some o)).congr ?_
    fun i => ?_
  · simp only [joinAll, Shape.join_unit]; shape_ac
  · obtain ⟨v, h⟩ := hok i (x0.get i + lit 0 * amp.get i)
    exact C102_minus_one env (fS i) _ _ _ ho hv h

example (env : Env) (x0 amp n : NDArray (FP ℝ)) (c : NDArray (FP ℂ)) :
    DenM (demodO env (fun x : RArr => .ok (ofR x * .ok c : CArr)) (.ok x0) (.ok amp) (.ok n) (some (.int (-1))))
      (joinAll [some x0.rshape, some amp.rshape, some n.rshape, some c.rshape])
      (fun _ => .ok (FP.num (0 : ℂ))) :=
  C102_minus_one_arrays env _ (fun i x => .ok (ofR x * c.get i)) _
    (fun _ _ _ h => DenM.ok (h.ofR.cmul (Den.leaf c))) (fun _ _ => ⟨_, rfl⟩) x0 amp n (by simp)
    (by norm_num [Order.val])

/-! ### The two models -/

/-- The effective polarisabilities for natural numbers. -/
theorem C102_eff_pol_n (env : Env) (s : Stack R C) (aTip n : R) (zTip : Option R) (a : FdmArgs R C)
    (b : PdmArgs R C) (nLag : Option ℕ) (method : Option String) {o : Option Order} {k : Option ℕ}
    (h : PassesNatOpt o k) :
    Fdm.effPolNO env s aTip n zTip o a nLag method = Fdm.effPolN env s aTip n zTip k a nLag method ∧
      Pdm.effPolNO env s aTip n zTip o b = Pdm.effPolN env s aTip n zTip k b := by
  unfold Fdm.effPolNO Fdm.effPolN Pdm.effPolNO Pdm.effPolN
  exact ⟨C102_natural _ _ _ _ _ h, C102_natural _ _ _ _ _ h⟩

/-- The effective polarisabilities for refused numbers: the sample, the method and the tip do not matter. -/
theorem C102_eff_pol_n_refused (env : Env) (s : Stack R C) (aTip n : R) (zTip : Option R) (a : FdmArgs R C)
    (b : PdmArgs R C) (nLag : Option ℕ) (method : Option String) {o : Order} {e : PyErr}
    (h : BadTrapz o e) :
    Fdm.effPolNO env s aTip n zTip (some o) a nLag method = .error e ∧
      Pdm.effPolNO env s aTip n zTip (some o) b = .error e := by
  unfold Fdm.effPolNO Pdm.effPolNO
  exact ⟨C102_refused _ _ _ _ _ h, C102_refused _ _ _ _ _ h⟩

/-- With minus one, every sample gives the signal zero, if the effective polarisability at the middle of the
oscillation does not raise. -/
theorem C102_eff_pol_n_minus_one (env : Env) (s : Stack (FP ℝ) (FP ℂ)) (aTip n z : FP ℝ)
    (a : FdmArgs (FP ℝ) (FP ℂ)) (b : PdmArgs (FP ℝ) (FP ℂ)) (nLag : Option ℕ) (method : Option String) {o : Order}
    (ho : ∀ x, o ≠ .float x) (hv : o.val = -1) :
    (∀ v, Fdm.effPol env s (some (z + aTip + lit 0 * aTip)) a nLag method = .ok v →
      Fdm.effPolNO env s aTip n (some z) (some o) a nLag method = .ok (FP.num 0)) ∧
    (∀ v, Pdm.effPol env s (some (z + aTip + lit 0 * aTip)) b = .ok v →
      Pdm.effPolNO env s aTip n (some z) (some o) b = .ok (FP.num 0)) := by
  unfold Fdm.effPolNO Pdm.effPolNO
  exact ⟨fun _ h => C102_minus_one _ _ _ _ _ ho hv h, fun _ h => C102_minus_one _ _ _ _ _ ho hv h⟩

/-- The Taylor coefficients. -/
theorem C102_taylor_coef (env : Env) (zTip : R) (j : J) (aTip n rTip lTip : R) (g al : C) (dQ0 dQ1 : R) :
    (∀ o k, PassesNatOpt o k →
      Fdm.taylorCoefO env zTip j aTip n rTip lTip g dQ0 dQ1 o =
        Fdm.taylorCoef env zTip j aTip n rTip lTip g dQ0 dQ1 k ∧
      Pdm.taylorCoefO env zTip j aTip n rTip al o = Pdm.taylorCoef env zTip j aTip n rTip al k) ∧
    ∀ o e, BadTrapz o e →
      Fdm.taylorCoefO env zTip j aTip n rTip lTip g dQ0 dQ1 (some o) = .error e ∧
      Pdm.taylorCoefO env zTip j aTip n rTip al (some o) = .error e := by
  unfold Fdm.taylorCoefO Fdm.taylorCoef Pdm.taylorCoefO Pdm.taylorCoef
  refine ⟨fun o k h => ⟨?_, C102_natural _ _ _ _ _ h⟩, fun o e h => ⟨?_, C102_refused _ _ _ _ _ h⟩⟩
  · simp only [C102_natural (R := R) (J := J) (C := C) _ _ _ _ _ h]
  · simp only [C102_refused (R := R) (J := J) (C := C) _ _ _ _ _ h]
    rfl

/-- The number of Taylor terms: `n_tayl` rounded up, and none for numbers that are not positive. -/
def TermsOf (d : ℕ) : Option Order → ℕ → Prop
  | none, m => m = d
  | some o, m => (o.val ≤ 0 ∧ m = 0) ∨ (0 < o.val ∧ o.val ≤ m ∧ (m : ℚ) < o.val + 1)

theorem arangeLen_of {d : ℕ} {o : Option Order} {m : ℕ} (h : TermsOf d o m) :
    (o.getD (.int d)).arangeLen = m := by
  cases o with
  | none =>
    have h : m = d := h
    subst h
    simp [Order.arangeLen, Order.val]
  | some o =>
    rw [Option.getD_some]
    unfold Order.arangeLen
    rcases h with ⟨h0, rfl⟩ | ⟨h0, h1, h2⟩
    · exact Int.toNat_of_nonpos (Int.ceil_le.2 (by simpa using h0))
    · have : ⌈o.val⌉ = (m : ℤ) := by
        rw [Int.ceil_eq_iff]
        exact ⟨by push_cast; linarith, by push_cast; exact h1⟩
      rw [this, Int.toNat_natCast]

/-- Every number of terms is covered. -/
theorem terms_exist (d : ℕ) (o : Option Order) : ∃ m, TermsOf d o m := by
  cases o with
  | none => exact ⟨d, rfl⟩
  | some o =>
    rcases le_or_gt o.val 0 with h | h
    · exact ⟨0, .inl ⟨h, rfl⟩⟩
    · refine ⟨⌈o.val⌉₊, .inr ⟨h, Nat.le_ceil _, Nat.ceil_lt_add_one h.le⟩⟩

/-- **The Taylor series** for natural `n_trapz` and any `n_tayl`: never refused, and the number of terms is
`n_tayl` rounded up, or zero. -/
theorem C102_taylor (env : Env) (s : Stack R C) (aTip n : R) (zTip : Option R) (a : FdmArgs R C)
    (b : PdmArgs R C) (nLag : Option ℕ) (method : Option String) {o t : Option Order} {k : Option ℕ} {m : ℕ}
    (h : PassesNatOpt o k) (ht : TermsOf env.defaults.nTayl t m) :
    Fdm.effPolNTaylorO env s aTip n zTip a nLag method o t =
      Fdm.effPolNTaylor env s aTip n zTip a nLag method k (some m) ∧
    Pdm.effPolNTaylorO env s aTip n zTip b o t = Pdm.effPolNTaylor env s aTip n zTip b k (some m) := by
  constructor
  · unfold Fdm.effPolNTaylorO Fdm.effPolNTaylor
    simp only [arangeLen_of ht, Option.getD_some, ((C102_taylor_coef env _ _ _ _ _ _ _ (clit 0) _ _).1 o k h).1]
  · unfold Pdm.effPolNTaylorO Pdm.effPolNTaylor
    simp only [arangeLen_of ht, Option.getD_some,
      ((C102_taylor_coef env _ _ _ _ _ (lit 0) (clit 0) _ (lit 0) (lit 0)).1 o k h).2]

example (d : ℕ) : TermsOf d (some (.float (5 / 2))) 3 ∧ TermsOf d (some (.int (-4))) 0 ∧ TermsOf d none d := by
  refine ⟨.inr ?_, .inl ?_, rfl⟩ <;> norm_num [Order.val]

/-- The array reading of the Taylor series raises for refused `n_trapz`, whatever `n_tayl`. -/
theorem C102_taylor_refused (env : Env) (s : Stack RArr CArr) (aTip n : RArr) (zTip : Option RArr)
    (a : FdmArgs RArr CArr) (b : PdmArgs RArr CArr) (nLag : Option ℕ) (method : Option String) {o : Order}
    (t : Option Order) {e : PyErr} (h : BadTrapz o e) :
    (∀ r, Fdm.effPolNTaylorO env s aTip n zTip a nLag method (some o) t ≠ .ok r) ∧
    ∀ r, Pdm.effPolNTaylorO env s aTip n zTip b (some o) t ≠ .ok r := by
  constructor
  · intro r hr
    unfold Fdm.effPolNTaylorO at hr
    simp only [((C102_taylor_coef (R := RArr) (J := JArr) (C := CArr) env _ _ _ _ _ _ _ (clit 0) _ _).2 o e h).1] at hr
    cases hb : Fdm.taylorBeta env s (zTip.getD (lit env.defaults.zTip)) (env.defaults.fdm a) nLag method with
    | error e' => rw [hb] at hr; cases hr
    | ok beta =>
      rw [hb] at hr
      simp only [PyM.ok_bind, PyM.error_bind, CplxOps.series0] at hr
      cases hp : Arr.maxNdim [.inl (zTip.getD (lit env.defaults.zTip)), .inl aTip, .inl n, .inr beta,
        .inl (env.defaults.fdm a).rTip, .inl (env.defaults.fdm a).lTip, .inr (env.defaults.fdm a).gFactor,
        .inl (env.defaults.fdm a).dQ0, .inl (env.defaults.fdm a).dQ1] with
      | error e' => rw [hp] at hr; cases hr
      | ok p => rw [hp] at hr; cases hr
  · intro r hr
    unfold Pdm.effPolNTaylorO at hr
    simp only [((C102_taylor_coef (R := RArr) (J := JArr) (C := CArr) env _ _ _ _ _ (lit 0) (clit 0) _ (lit 0) (lit 0)).2
      o e h).2] at hr
    cases hd : env.defaults.pdm b with
    | error e' => rw [hd] at hr; cases hr
    | ok q =>
      rw [hd] at hr
      simp only [PyM.ok_bind] at hr
      cases hb : s.reflCoefQs with
      | error e' => rw [hb] at hr; cases hr
      | ok beta =>
        rw [hb] at hr
        simp only [PyM.ok_bind, PyM.error_bind, CplxOps.series0] at hr
        cases hp : Arr.maxNdim [.inl (zTip.getD (lit env.defaults.zTip)), .inl aTip, .inl n, .inr beta,
          .inl q.1, .inr q.2] with
        | error e' => rw [hp] at hr; cases hr
        | ok p => rw [hp] at hr; cases hr

/-- Without terms the series is zero, whatever the sample. -/
theorem C102_taylor_none (env : Env) (s : Stack (FP ℝ) (FP ℂ)) (aTip n : FP ℝ) (zTip : Option (FP ℝ))
    (a : FdmArgs (FP ℝ) (FP ℂ)) (b : PdmArgs (FP ℝ) (FP ℂ)) (nLag : Option ℕ) (method : Option String)
    (o : Option Order) {t : Order} (ht : t.val ≤ 0) {v : FP ℂ} :
    (Fdm.effPolNTaylorO env s aTip n zTip a nLag method o (some t) = .ok v → v = FP.num 0) ∧
    (Pdm.effPolNTaylorO env s aTip n zTip b o (some t) = .ok v → v = FP.num 0) := by
  have hl : ((some t).getD (.int env.defaults.nTayl)).arangeLen = 0 :=
    arangeLen_of (d := env.defaults.nTayl) (.inl ⟨ht, rfl⟩)
  have hs : FP.sum [] = FP.num (0 : ℂ) := by simp [FP.sum]
  constructor
  · intro h
    unfold Fdm.effPolNTaylorO at h
    simp only [hl, CplxOps.series0, List.range_zero, List.mapM_nil, PyM.pure_eq_ok, PyM.ok_bind, hs] at h
    cases hb : Fdm.taylorBeta env s (zTip.getD (lit env.defaults.zTip)) (env.defaults.fdm a) nLag method with
    | error e' => rw [hb] at h; cases h
    | ok beta => rw [hb] at h; cases h; rfl
  · intro h
    unfold Pdm.effPolNTaylorO at h
    simp only [hl, CplxOps.series0, List.range_zero, List.mapM_nil, PyM.pure_eq_ok, PyM.ok_bind, hs] at h
    cases hd : env.defaults.pdm b with
    | error e' => rw [hd] at h; cases h
    | ok q =>
      rw [hd] at h
      simp only [PyM.ok_bind] at h
      cases hb : s.reflCoefQs with
      | error e' => rw [hb] at h; cases h
      | ok beta => rw [hb] at h; cases h; rfl

/-! ### The inversions -/

/-- The inversions for natural `n_trapz` and any `n_tayl`. -/
theorem C102_inversion (env : Env) (sv : Solver) (alpha : CArr) (aTip n : RArr) (zTip : Option RArr)
    (a : FdmArgs RArr CArr) (b : PdmArgs RArr CArr) (v : InvArgs) {o t : Option Order} {k : Option ℕ} {m : ℕ}
    (h : PassesNatOpt o k) (ht : TermsOf env.defaults.nTayl t m) :
    Fdm.reflCoefQsFromEffPolNO env sv alpha aTip n zTip a o t v =
      Fdm.reflCoefQsFromEffPolN env sv alpha aTip n zTip a k (some m) v ∧
    Pdm.reflCoefQsFromEffPolNO env sv alpha aTip n zTip b o t v =
      Pdm.reflCoefQsFromEffPolN env sv alpha aTip n zTip b k (some m) v := by
  constructor
  · unfold Fdm.reflCoefQsFromEffPolNO Fdm.reflCoefQsFromEffPolN
    simp only [arangeLen_of ht, Option.getD_some,
      ((C102_taylor_coef (R := RArr) (J := JArr) (C := CArr) env _ _ _ _ _ _ _ (clit 0) _ _).1 o k h).1]
  · unfold Pdm.reflCoefQsFromEffPolNO Pdm.reflCoefQsFromEffPolN
    simp only [arangeLen_of ht, Option.getD_some,
      ((C102_taylor_coef (R := RArr) (J := JArr) (C := CArr) env _ _ _ _ _ (lit 0) (clit 0) _ (lit 0) (lit 0)).1 o k h).2]

/-- Refused `n_trapz`, whatever `n_tayl`. -/
theorem C102_inversion_refused (env : Env) (sv : Solver) (alpha : CArr) (aTip n : RArr) (zTip : Option RArr)
    (a : FdmArgs RArr CArr) (b : PdmArgs RArr CArr) (v : InvArgs) {o : Order} (t : Option Order) {e : PyErr}
    (h : BadTrapz o e) (M : Masked) :
    Fdm.reflCoefQsFromEffPolNO env sv alpha aTip n zTip a (some o) t v ≠ .ok M ∧
    Pdm.reflCoefQsFromEffPolNO env sv alpha aTip n zTip b (some o) t v ≠ .ok M := by
  constructor
  · intro hr
    unfold Fdm.reflCoefQsFromEffPolNO at hr
    simp only [((C102_taylor_coef (R := RArr) (J := JArr) (C := CArr) env _ _ _ _ _ _ _ (clit 0) _ _).2 o e h).1] at hr
    revert hr
    cases Arr.maxNdim [.inl (zTip.getD (lit env.defaults.zTip)), .inl aTip, .inl n, .inr alpha,
        .inl (env.defaults.fdm { a with dQa := none }).rTip, .inl (env.defaults.fdm { a with dQa := none }).lTip,
        .inr (env.defaults.fdm { a with dQa := none }).gFactor,
        .inl (env.defaults.fdm { a with dQa := none }).dQ0,
        .inl (env.defaults.fdm { a with dQa := none }).dQ1] with
    | error e' => rintro ⟨⟩
    | ok p => rintro ⟨⟩
  · intro hr
    unfold Pdm.reflCoefQsFromEffPolNO at hr
    simp only [((C102_taylor_coef (R := RArr) (J := JArr) (C := CArr) env _ _ _ _ _ (lit 0) (clit 0) _ (lit 0) (lit 0)).2
      o e h).2] at hr
    cases hd : env.defaults.pdm b with
    | error e' => rw [hd] at hr; cases hr
    | ok q =>
      rw [hd] at hr
      simp only [PyM.ok_bind] at hr
      revert hr
      cases Arr.maxNdim [.inl (zTip.getD (lit env.defaults.zTip)), .inl aTip, .inl n, .inr alpha,
          .inl q.1, .inr q.2] with
      | error e' => rintro ⟨⟩
      | ok p => rintro ⟨⟩

/-- What the inversion makes of no terms and of a single term. -/
theorem inverts_few {call : PyM Masked} {sv : Solver} {thr : ℝ} {rejectIm rejectAbs : Bool} {epsEnv : NDArray (FP ℂ)}
    {shape : Shape} {coef : (ℕ → ℕ) → ℕ → PyM (FP ℂ)} {α : NDArray (FP ℂ)} {J : ℕ}
    (h : Inverts call sv thr rejectIm rejectAbs epsEnv shape coef α J) {M : Masked} (hM : call = .ok M) :
    J ≠ 0 ∧ (J = 1 → ∃ s, shape = some s ∧ M.data.rshape = s ++ [0] ∧ M.mask.rshape = s ++ [0]) := by
  obtain ⟨s0, hs0⟩ := inverts_shape h hM
  obtain ⟨offset, c, hoff, -, hcall⟩ := h.2 s0 hs0
  rw [hM] at hcall
  obtain ⟨-, roots, valid, r₀, hm, hr, h1, h2, -, -⟩ := solveOffset_ok hoff hcall.symm
  have hlen : (offset.column fun _ => 0).length = J := NDArray.column_length hoff _
  constructor
  · rintro rfl
    rw [List.length_eq_zero_iff.1 hlen] at hr
    cases hr
  · rintro rfl
    obtain ⟨x, hx⟩ := List.length_eq_one_iff.1 hlen
    have ht : trimseq [x] = [x] := by
      by_cases hx0 : x = FP.num 0 <;> simp [trimseq, hx0]
    have h0 : r₀ = [] := by
      rw [hx] at hr
      simp only [polyRoots, ht] at hr
      simpa using hr.symm
    subst h0
    have hrows : (valid.takeAlong0 (valid.argsort0 sv.argsortBool)).rowsAny = [] := by
      unfold NDArray.rowsAny
      have : dimAt (valid.takeAlong0 (valid.argsort0 sv.argsortBool)).rshape
          ((valid.takeAlong0 (valid.argsort0 sv.argsortBool)).ndim - 1) = 0 := by
        show dimAt valid.rshape (valid.rshape.length - 1) = 0
        rw [h2]
        simp [dimAt]
      rw [this]
      rfl
    subst hm
    refine ⟨s0, hs0, ?_, ?_⟩
    · show roots.rshape.dropLast ++ [(valid.takeAlong0 (valid.argsort0 sv.argsortBool)).rowsAny.length] = _
      rw [hrows, h1]
      simp
    · show valid.rshape.dropLast ++ [(valid.takeAlong0 (valid.argsort0 sv.argsortBool)).rowsAny.length] = _
      rw [hrows, h2]
      simp

/-- **Too few terms.**  With `n_tayl` at most zero the inversions never return, and with `n_tayl` at most one they never
return a solution: the array has no rows, whatever was measured. -/
theorem C102_inversion_few (env : Env) (sv : Solver) (α : NDArray (FP ℂ)) (aTip n : NDArray (FP ℝ))
    (z : Option (NDArray (FP ℝ))) (a : Fdm.Args) (b : Pdm.Args) (v : InvArgs) {o : Option Order} {k : Option ℕ}
    (h : PassesNatOpt o k) {t : Order} (M : Masked) :
    (Fdm.reflCoefQsFromEffPolNO env sv (.ok α) (.ok aTip) (.ok n) (z.map .ok) (Fdm.argsArr a) o (some t) v = .ok M →
      0 < t.val ∧ (t.val ≤ 1 → ∃ s, M.data.rshape = s ++ [0] ∧ M.mask.rshape = s ++ [0])) ∧
    (Pdm.reflCoefQsFromEffPolNO env sv (.ok α) (.ok aTip) (.ok n) (z.map .ok) (Pdm.argsArr b) o (some t) v = .ok M →
      0 < t.val ∧ (t.val ≤ 1 → ∃ s, M.data.rshape = s ++ [0] ∧ M.mask.rshape = s ++ [0])) := by
  obtain ⟨m, hm⟩ := terms_exist env.defaults.nTayl (some t)
  have key : ∀ {call : PyM Masked} {thr : ℝ} {rejectIm rejectAbs : Bool} {epsEnv : NDArray (FP ℂ)}
      {shape : Shape} {coef : (ℕ → ℕ) → ℕ → PyM (FP ℂ)},
      Inverts call sv thr rejectIm rejectAbs epsEnv shape coef α m → call = .ok M →
      0 < t.val ∧ (t.val ≤ 1 → ∃ s, M.data.rshape = s ++ [0] ∧ M.mask.rshape = s ++ [0]) := by
    intro call thr rejectIm rejectAbs epsEnv shape coef hi hM
    obtain ⟨h0, h1⟩ := inverts_few hi hM
    rcases hm with ⟨-, rfl⟩ | ⟨ht, h2, h3⟩
    · exact absurd rfl h0
    · refine ⟨ht, fun h4 => ?_⟩
      have : m = 1 := by
        have : (m : ℚ) < 2 := by linarith
        have : m < 2 := by exact_mod_cast this
        omega
      obtain ⟨s, -, h5⟩ := h1 this
      exact ⟨s, h5⟩
  constructor
  · intro hM
    rw [(C102_inversion env sv (.ok α) (.ok aTip) (.ok n) (z.map .ok) (Fdm.argsArr a) (Pdm.argsArr b) v h hm).1] at hM
    exact key (Fdm.inverts env sv α aTip n z a k (some m) v) hM
  · intro hM
    rw [(C102_inversion env sv (.ok α) (.ok aTip) (.ok n) (z.map .ok) (Fdm.argsArr a) (Pdm.argsArr b) v h hm).2] at hM
    rcases Pdm.inverts env sv α aTip n z b k (some m) v with ⟨e, he, -⟩ | hi
    · rw [he] at hM; cases hM
    · exact key hi hM

/-- A single term: the inversion returns, without solutions. -/
example (env : Env) (c : ℂ) : ∃ M s, Fdm.reflCoefQsFromEffPolNO env exactSolver (.ok (NDArray.scalar (FP.num c)))
      (.ok (NDArray.scalar (FP.num 2))) (.ok (NDArray.scalar (FP.num 3)))
      ((some (NDArray.scalar (FP.num 0))).map .ok) (Fdm.argsArr exFdm) (some (.int 8)) (some (.int 1)) {} = .ok M ∧
    M.data.rshape = s ++ [0] := by
  obtain ⟨p, h1, h2, _⟩ := C49_fdm env 0 1 300 Complex.I 1 (1 / 2) 1.4 example_geomOk.1 example_geomOk.2 2
    (by norm_num) 3 8 1 (by norm_num)
  obtain ⟨M, hM⟩ := C51_fdm_ok (env := env) (sv := exactSolver) exactSolver_correct
    (α := NDArray.scalar (FP.num c)) (aTip := NDArray.scalar (FP.num 2)) (n := NDArray.scalar (FP.num 3))
    (z := some (NDArray.scalar (FP.num 0))) (a := exFdm) (nTrapz := some 8) (nTayl := some 1) (v := {})
    (s := []) rfl (inBounds_nil _) rfl p.natDegree (by norm_num)
    fun i _ => ⟨c, p, rfl, ⟨h1, h2⟩, rfl⟩
  have h8 : PassesNatOpt (some (.int 8)) (some 8) := show PassesNat _ _ from ⟨by simp, by norm_num [Order.val]⟩
  have hM' := (C102_inversion env exactSolver (.ok (NDArray.scalar (FP.num c)))
      (.ok (NDArray.scalar (FP.num 2))) (.ok (NDArray.scalar (FP.num 3)))
      ((some (NDArray.scalar (FP.num 0))).map .ok) (Fdm.argsArr exFdm) {} {} h8 (t := some (.int 1)) (m := 1)
      (.inr (by norm_num [Order.val]))).1.trans hM
  obtain ⟨s, hs, -⟩ := ((C102_inversion_few env exactSolver _ _ _ _ exFdm {} {} h8 (t := .int 1) M).1 hM').2
    (by norm_num [Order.val])
  exact ⟨M, s, hM', hs⟩

end Snompy.Props
