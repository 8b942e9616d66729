import Verif.Lemmas.Qs
import Verif.Spec.FarField

/-!
# Far-field coefficients of finite samples
-/

namespace Snompy

open Matrix

theorem ok_pure_bind {α β γ : Type} (x : PyM α) (f : α → PyM β) (g : β → PyM γ) :
    ((x >>= f) >>= g) = (x >>= fun a => f a >>= g) := by
  cases x <;> rfl

theorem transferMatrix_resolve (s : Stack (FP ℝ) (FP ℂ)) (a : Stack.FarArgs (FP ℝ)) (nu q : FP ℝ)
    (h1 : s.resolveNu a.nuVac = .ok nu) (h2 : Stack.resolveQ nu a.q a.thetaIn = .ok q) :
    s.transferMatrix a = (do
      let tf ← Stack.farTransFactor (s.eps.zip (s.nuZ nu q)) a.polarization
      s.farMatrix tf (s.nuZ nu q)) := by
  simp only [Stack.transferMatrix, h1, h2, PyM.ok_bind]

theorem transferMatrix_atQ (s : Stack (FP ℝ) (FP ℂ)) (q nu : ℝ) (pol : String) :
    s.transferMatrix (atQ q nu pol) = (do
      let tf ← Stack.farTransFactor (s.eps.zip (s.nuZ (FP.num nu) (FP.num q))) pol
      s.farMatrix tf (s.nuZ (FP.num nu) (FP.num q))) :=
  transferMatrix_resolve s _ _ _ rfl rfl

theorem transferMatrix_atAngle (s : Stack (FP ℝ) (FP ℂ)) (theta nu : ℝ) (pol : String) :
    s.transferMatrix (atAngle theta nu pol) = s.transferMatrix (atQ (nu * Real.sin |theta|) nu pol) := by
  rw [transferMatrix_atQ]
  refine transferMatrix_resolve s _ _ _ rfl ?_
  simp [atAngle, Stack.resolveQ, sabs, ssin]

/-- The denominators of the interface factors do not vanish. -/
def FarRegular (pol : String) (nu q : ℝ) (env : ℂ) (L : List (ℂ × ℝ)) (sub : ℂ) : Prop :=
  (kz nu q env ≠ 0 ∧ ∀ l ∈ L, kz nu q l.1 ≠ 0) ∧ (pol = "p" → (∀ l ∈ L, l.1 ≠ 0) ∧ sub ≠ 0)

theorem transferMatrix_layered (pol : String) (env : ℂ) (L : List (ℂ × ℝ)) (sub : ℂ) (snu : Option ℝ)
    (nu q : ℝ) (hpol : pol = "p" ∨ pol = "s") (h : FarRegular pol nu q env L sub) :
    (layered env L sub snu).transferMatrix (atQ q nu pol) =
      .ok (toFP (farMat pol nu q env L sub)) := by
  rw [transferMatrix_atQ]
  exact farMatrix_layered pol env L sub snu nu q hpol h.2 h.1.1 h.1.2

theorem adj_nan_left {σ τ : Type} (f : σ → σ → τ) (n : τ) (a : σ) (L : List σ) (z : σ)
    (h : ∃ a0 ∈ a :: L, ∀ b, f a0 b = n) : n ∈ adj f a (L ++ [z]) := by
  induction L generalizing a with
  | nil =>
    obtain ⟨a0, h1, h2⟩ := h
    simp only [List.mem_singleton] at h1
    subst h1
    simp [adj, h2]
  | cons b L ih =>
    obtain ⟨a0, h1, h2⟩ := h
    rcases List.mem_cons.1 h1 with rfl | h1
    · simp [adj, h2]
    · simp only [List.cons_append, adj, List.mem_cons]
      exact Or.inr (ih b ⟨a0, h1, h2⟩)

theorem adj_nan_right {σ τ : Type} (f : σ → σ → τ) (n : τ) (a : σ) (L : List σ)
    (h : ∃ b0 ∈ L, ∀ a, f a b0 = n) : n ∈ adj f a L := by
  induction L generalizing a with
  | nil => simp at h
  | cons b L ih =>
    obtain ⟨b0, h1, h2⟩ := h
    rcases List.mem_cons.1 h1 with rfl | h1
    · simp [adj, h2]
    · simp only [adj, List.mem_cons]
      exact Or.inr (ih b ⟨b0, h1, h2⟩)

theorem adj_length {σ τ : Type} (f : σ → σ → τ) (a : σ) (L : List σ) :
    (adj f a L).length = L.length := by
  induction L generalizing a with
  | nil => rfl
  | cons b L ih => simp [adj, ih]

theorem mem_zip_of_mem {α β : Type} (l : List α) (l' : List β) (h : l.length ≤ l'.length) (a : α)
    (ha : a ∈ l) : ∃ b, (a, b) ∈ l.zip l' := by
  induction l generalizing l' with
  | nil => simp at ha
  | cons x l ih =>
    cases l' with
    | nil => simp at h
    | cons y l' =>
      rcases List.mem_cons.1 ha with rfl | ha
      · exact ⟨y, by simp⟩
      · obtain ⟨b, hb⟩ := ih l' (by simpa using h) ha
        exact ⟨b, by simp [hb]⟩

/-- A vanishing denominator makes every entry non-finite. -/
theorem transferMatrix_singular (pol : String) (env : ℂ) (L : List (ℂ × ℝ)) (sub : ℂ)
    (snu : Option ℝ) (nu q : ℝ) (hpol : pol = "p" ∨ pol = "s")
    (h : ¬ FarRegular pol nu q env L sub) :
    (layered env L sub snu).transferMatrix (atQ q nu pol) = .ok nanMat := by
  set f : ℂ × ℝ → ℂ × ℝ → FP ℂ := fun a b =>
    if pol = "p" then FP.num a.1 * FP.num (kz nu q b.1) / (FP.num b.1 * FP.num (kz nu q a.1))
    else FP.num (kz nu q b.1) / FP.num (kz nu q a.1) with hf
  have hzip : (layered env L sub snu).eps.zip
      ((layered env L sub snu).nuZ (FP.num nu) (FP.num q)) =
      (((env, 0) :: (L ++ [(sub, 0)])).map fun l : ℂ × ℝ => (FP.num l.1, FP.num (kz nu q l.1))) := by
    rw [nuZ_num]
    have : (layered env L sub snu).eps = FP.num env :: ((L ++ [(sub, (0:ℝ))]).map fun l => FP.num l.1) := by
      simp [layered]
    rw [this, List.zip_cons_cons, List.zip_map']
    rfl
  have hfac : Stack.farTransFactor ((layered env L sub snu).eps.zip
        ((layered env L sub snu).nuZ (FP.num nu) (FP.num q))) pol =
      .ok (adj f (env, 0) (L ++ [(sub, 0)])) := by
    rw [hzip]
    unfold Stack.farTransFactor
    rcases hpol with rfl | rfl
    · simp only [if_true]
      rw [List.map_cons, zipWith_adj,
        adj_map _ (fun l : ℂ × ℝ => (FP.num l.1, FP.num (kz nu q l.1)))]
      simp [hf]
    · have : ("s" : String) ≠ "p" := by decide
      simp only [this, if_false, if_true]
      rw [List.map_cons, zipWith_adj,
        adj_map _ (fun l : ℂ × ℝ => (FP.num l.1, FP.num (kz nu q l.1)))]
      simp [hf, this]
  have hnan : FP.nan ∈ adj f (env, 0) (L ++ [(sub, 0)]) := by
    have hk : ∀ a : ℂ × ℝ, kz nu q a.1 = 0 → ∀ b, f a b = FP.nan := by
      intro a ha b
      simp only [hf, ha, FP.num_mul, mul_zero, num_div_zero, ite_self]
    unfold FarRegular at h
    rw [not_and_or, not_and_or] at h
    rcases h with (h | h) | h
    · exact adj_nan_left f _ _ _ _ ⟨(env, 0), by simp, hk _ (by simpa using h)⟩
    · push Not at h
      obtain ⟨l, h1, h2⟩ := h
      exact adj_nan_left f _ _ _ _ ⟨l, by simp [h1], hk _ h2⟩
    · rw [Classical.not_imp, not_and_or] at h
      obtain ⟨rfl, h⟩ := h
      refine adj_nan_right f _ _ _ ?_
      have hb : ∀ b : ℂ × ℝ, b.1 = 0 → ∀ a, f a b = FP.nan := by
        intro b hb a
        simp only [hf, if_true, hb, FP.num_mul, zero_mul, num_div_zero]
      rcases h with h | h
      · push Not at h
        obtain ⟨l, h1, h2⟩ := h
        exact ⟨l, by simp [h1], hb l h2⟩
      · push Not at h
        exact ⟨(sub, 0), by simp, hb _ h⟩
  rw [transferMatrix_atQ, hfac]
  simp only [PyM.ok_bind]
  unfold Stack.farMatrix
  rw [layered_multilayer]
  cases L with
  | nil =>
    simp only [List.nil_append, adj, List.mem_singleton] at hnan
    simp only [List.nil_append, adj, List.map_cons, List.map_nil, ne_eq, not_true_eq_false,
      decide_false, Bool.false_eq_true, if_false]
    rw [← hnan, interface_nan]
  | cons l L =>
    simp only [List.cons_append, adj, List.map_cons]
    simp only [ne_eq, reduceCtorEq, not_false_eq_true, decide_true, if_true, Except.ok.injEq]
    simp only [List.cons_append, adj, List.mem_cons] at hnan
    rcases hnan with hnan | hnan
    · rw [← hnan, interface_nan, chain_nan]
    · refine chain_nan_mem _ _ ?_
      obtain ⟨p, hp⟩ := mem_zip_of_mem ((adj f l (L ++ [(sub, 0)])).map Stack.interface)
        ((List.zipWith (fun nz t => nz * ofR t)
          ((layered env (l :: L) sub snu).nuZ (FP.num nu) (FP.num q)).dropLast.tail
          (layered env (l :: L) sub snu).t).map
            fun p : FP ℂ => Stack.propagation (-Complex.I) Complex.I p) (by
        rw [List.length_map, adj_length, List.length_map, List.length_zipWith, nuZ_num]
        simp [layered]) nanMat
        (List.mem_map.2 ⟨_, hnan, interface_nan⟩)
      exact ⟨_, hp, rfl⟩

theorem transferMatrix_badpol (s : Stack (FP ℝ) (FP ℂ)) (nu q : ℝ) (pol : String)
    (hpol : ¬ (pol = "p" ∨ pol = "s")) : s.transferMatrix (atQ q nu pol) =
      .error (.valueError "`polarization` must be 's' or 'p'") := by
  rw [not_or] at hpol
  rw [transferMatrix_atQ, Stack.farTransFactor, if_neg hpol.1, if_neg hpol.2]
  rfl

/-- To compare two samples it suffices to do so where everything is finite. -/
theorem transferMatrix_ext {pol : String} {env env' : ℂ} {L L' : List (ℂ × ℝ)} {sub sub' : ℂ}
    {snu snu' : Option ℝ} {nu nu' q q' : ℝ}
    (hr : FarRegular pol nu q env L sub ↔ FarRegular pol nu' q' env' L' sub')
    (hm : FarRegular pol nu q env L sub → farMat pol nu q env L sub = farMat pol nu' q' env' L' sub') :
    (layered env L sub snu).transferMatrix (atQ q nu pol) =
      (layered env' L' sub' snu').transferMatrix (atQ q' nu' pol) := by
  by_cases hpol : pol = "p" ∨ pol = "s"
  · by_cases h : FarRegular pol nu q env L sub
    · rw [transferMatrix_layered pol env L sub snu nu q hpol h,
        transferMatrix_layered pol env' L' sub' snu' nu' q' hpol (hr.1 h), hm h]
    · rw [transferMatrix_singular pol env L sub snu nu q hpol h,
        transferMatrix_singular pol env' L' sub' snu' nu' q' hpol (fun h' => h (hr.2 h'))]
  · rw [transferMatrix_badpol _ _ _ _ hpol, transferMatrix_badpol _ _ _ _ hpol]

/-- Equality of the matrices gives equality of both coefficients. -/
theorem farCoefs_congr {s s' : Stack (FP ℝ) (FP ℂ)} {a a' : Stack.FarArgs (FP ℝ)}
    (h : s.transferMatrix a = s'.transferMatrix a') :
    s.reflCoef a = s'.reflCoef a' ∧ s.transCoef a = s'.transCoef a' := by
  simp only [Stack.reflCoef, Stack.transCoef, h, and_self]

theorem reflCoef_eq (pol : String) (env : ℂ) (L : List (ℂ × ℝ)) (sub : ℂ) (snu : Option ℝ)
    (nu q : ℝ) (hpol : pol = "p" ∨ pol = "s") (h : FarRegular pol nu q env L sub) :
    (layered env L sub snu).reflCoef (atQ q nu pol) =
      .ok (FP.num (farMat pol nu q env L sub 1 0) / FP.num (farMat pol nu q env L sub 0 0)) := by
  simp only [Stack.reflCoef, transferMatrix_layered pol env L sub snu nu q hpol h, PyM.ok_bind, toFP,
    PyM.pure_eq_ok]

theorem transCoef_eq (pol : String) (env : ℂ) (L : List (ℂ × ℝ)) (sub : ℂ) (snu : Option ℝ)
    (nu q : ℝ) (hpol : pol = "p" ∨ pol = "s") (h : FarRegular pol nu q env L sub) :
    (layered env L sub snu).transCoef (atQ q nu pol) =
      .ok (FP.num 1 / FP.num (farMat pol nu q env L sub 0 0)) := by
  simp only [Stack.transCoef, transferMatrix_layered pol env L sub snu nu q hpol h, PyM.ok_bind, toFP,
    PyM.pure_eq_ok, sclit]

theorem kz_sq (nu q : ℝ) (eps : ℂ) : kz nu q eps ^ 2 = eps * (nu : ℂ) ^ 2 - (q : ℂ) ^ 2 := by
  unfold kz Complex.sqrt
  simp

theorem kz_eq_zero {nu q : ℝ} {eps : ℂ} : kz nu q eps = 0 ↔ eps * (nu : ℂ) ^ 2 - (q : ℂ) ^ 2 = 0 := by
  rw [← kz_sq]; simp

theorem csqrt_scale {c : ℝ} (hc : 0 < c) (z : ℂ) :
    Complex.sqrt ((c : ℂ) ^ 2 * z) = c * Complex.sqrt z := by
  by_cases hz : z = 0
  · simp [hz]
  have hc2 : 0 < c ^ 2 := by positivity
  have h0 : ((c ^ 2 : ℝ) : ℂ) * z ≠ 0 := mul_ne_zero (by exact_mod_cast hc2.ne') hz
  rw [← Complex.ofReal_pow, sqrt_eq_exp h0, sqrt_eq_exp hz, Complex.log_ofReal_mul hc2 hz,
    Real.log_pow, add_div, Complex.exp_add]
  congr 1
  rw [show ((((2 : ℕ) : ℝ) * Real.log c : ℝ) : ℂ) / 2 = ((Real.log c : ℝ) : ℂ) by push_cast; ring,
    ← Complex.ofReal_exp, Real.exp_log hc]

theorem kz_scale {c : ℝ} (hc : 0 < c) (nu q : ℝ) (eps : ℂ) :
    kz (c * nu) (c * q) eps = c * kz nu q eps := by
  unfold kz
  rw [← csqrt_scale hc]
  congr 1
  push_cast
  ring

theorem csqrt_ofReal {x : ℝ} (hx : 0 ≤ x) : Complex.sqrt (x : ℂ) = (Real.sqrt x : ℝ) := by
  rw [Complex.sqrt_eq_real_add_ite]
  simp [abs_of_nonneg hx]

theorem kz_real {nu q e : ℝ} (h : 0 ≤ e * nu ^ 2 - q ^ 2) :
    kz nu q (e : ℂ) = (Real.sqrt (e * nu ^ 2 - q ^ 2) : ℝ) := by
  unfold kz
  rw [← csqrt_ofReal h]
  push_cast
  rfl

end Snompy
