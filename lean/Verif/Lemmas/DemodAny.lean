import Verif.Lemmas.DemodMore

/-!
# `demod` of functions that may raise or be non-finite
-/

namespace Snompy

open Finset

noncomputable instance : Zero (FP ℂ) := ⟨FP.num 0⟩

noncomputable instance : AddCommMonoid (FP ℂ) where
  add_assoc a b c := by cases a <;> cases b <;> cases c <;> simp [add_assoc]
  zero_add a := by
    show FP.num 0 + a = a
    cases a <;> simp
  add_zero a := by
    show a + FP.num 0 = a
    cases a <;> simp
  add_comm a b := by cases a <;> cases b <;> simp [add_comm]
  nsmul := nsmulRec

theorem FP.zero_eq : (0 : FP ℂ) = FP.num 0 := rfl

theorem FP.sum_eq (l : List (FP ℂ)) : FP.sum l = l.sum := by
  induction l with
  | nil => rfl
  | cons a l ih => rw [FP.sum_cons, ih, List.sum_cons]

theorem FP.num_mul_add (c : ℂ) (a b : FP ℂ) : FP.num c * (a + b) = FP.num c * a + FP.num c * b := by
  cases a <;> cases b <;> simp [mul_add]

theorem FP.num_mul_div (c : ℂ) (a b : FP ℂ) : FP.num c * a / b = FP.num c * (a / b) := by
  cases a <;> cases b <;> simp [FP.num_div_eq]
  split_ifs <;> simp [mul_div_assoc]

theorem trapz_range_any (y : ℕ → FP ℂ) (N : ℕ) :
    FP.trapz ((List.range (N + 1)).map y) = ∑ k ∈ range N, (y (k + 1) + y k) / FP.num 2 := by
  unfold FP.trapz
  have h : List.zipWith (fun a b : FP ℂ => (a + b) / FP.num 2)
      ((List.range (N + 1)).map y).tail ((List.range (N + 1)).map y).dropLast =
      (List.range N).map fun k => (y (k + 1) + y k) / FP.num 2 := by
    apply List.ext_getElem
    · simp
    · intro i h1 h2
      simp
  rw [h, FP.sum_eq, list_range_sum]

theorem num_mul_sum (c : ℂ) (y : ℕ → FP ℂ) (N : ℕ) :
    FP.num c * ∑ k ∈ range N, y k = ∑ k ∈ range N, FP.num c * y k := by
  induction N with
  | zero => simp [FP.zero_eq]
  | succ N ih => rw [sum_range_succ, sum_range_succ, FP.num_mul_add, ih]

/-- `demod` either raises whatever `f` raises first or is the trapezium mean of the values of `f`. -/
theorem demod_cases (env : Env) (f : FP ℝ → PyM (FP ℂ)) (x0 amp : FP ℝ) (nT : Option ℕ) :
    (∃ e, ∀ n, demod env f x0 amp n nT = .error e) ∨
    ∃ G : ℝ → FP ℂ, ∀ n, demod env f x0 amp n nT = .ok ((∑ k ∈ range (nT.getD env.defaults.nTrapz),
      (G (Real.cos (phase (nT.getD env.defaults.nTrapz) (k + 1))) *
          CplxOps.exp (FP.num (-Complex.I) * ofR n *
            FP.num ((phase (nT.getD env.defaults.nTrapz) (k + 1) : ℝ) : ℂ)) +
        G (Real.cos (phase (nT.getD env.defaults.nTrapz) k)) *
          CplxOps.exp (FP.num (-Complex.I) * ofR n *
            FP.num ((phase (nT.getD env.defaults.nTrapz) k : ℝ) : ℂ))) / FP.num 2) /
      FP.num ((nT.getD env.defaults.nTrapz : ℕ) : ℂ)) := by
  simp only [demod_unfold]
  generalize nT.getD env.defaults.nTrapz = N
  cases hp : f (x0 + FP.num 0 * amp) with
  | error e => exact .inl ⟨e, fun n => rfl⟩
  | ok p =>
    simp only [PyM.ok_bind]
    rw [thetaGrid_eq]
    by_cases hall : ∀ θ ∈ (List.range (N + 1)).map (phase N), ∃ v,
        f (x0 + FP.num (Real.cos θ) * amp) = .ok v
    · right
      classical
      have hG : ∃ G : ℝ → FP ℂ, ∀ θ ∈ (List.range (N + 1)).map (phase N),
          f (x0 + FP.num (Real.cos θ) * amp) = .ok (G (Real.cos θ)) := by
        refine ⟨fun c => if h : ∃ v, f (x0 + FP.num c * amp) = .ok v then h.choose else FP.nan,
          fun θ hθ => ?_⟩
        have h := hall θ hθ
        simp only [dif_pos h]
        exact h.choose_spec
      obtain ⟨G, hG⟩ := hG
      refine ⟨G, fun n => ?_⟩
      rw [mapM_ok _ _ (fun θ => G (Real.cos θ) *
        CplxOps.exp (FP.num (-Complex.I) * ofR n * FP.num ((θ : ℝ) : ℂ))), List.map_map]
      · simp only [PyM.ok_bind, PyM.pure_eq_ok]
        rw [trapz_range_any]
        rfl
      · intro θ hθ
        rw [hG θ hθ]
        rfl
    · left
      generalize (List.range (N + 1)).map (phase N) = l at hall
      have hl : ∃ e, ∀ n : FP ℝ, (l.mapM fun θ => (do
          let fx ← f (x0 + FP.num (Real.cos θ) * amp)
          pure (fx * CplxOps.exp (FP.num (-Complex.I) * ofR n * FP.num (θ : ℂ))) : PyM (FP ℂ))) =
          .error e := by
        induction l with
        | nil => simp at hall
        | cons a l ih =>
          cases ha : f (x0 + FP.num (Real.cos a) * amp) with
          | error e => exact ⟨e, fun n => by rw [List.mapM_cons, ha]; rfl⟩
          | ok v =>
            obtain ⟨e, he⟩ := ih (by
              intro hc
              apply hall
              intro θ hθ
              rcases List.mem_cons.1 hθ with rfl | hθ
              · exact ⟨v, ha⟩
              · exact hc θ hθ)
            exact ⟨e, fun n => by rw [List.mapM_cons, ha, he n]; rfl⟩
      obtain ⟨e, he⟩ := hl
      exact ⟨e, fun n => by rw [he n]; rfl⟩

theorem demod_even (env : Env) (f : FP ℝ → PyM (FP ℂ)) (x0 amp : FP ℝ) (n : ℝ) (nT : Option ℕ) :
    demod env f x0 amp (FP.num (-n)) nT = demod env f x0 amp (FP.num n) nT := by
  rcases demod_cases env f x0 amp nT with ⟨e, he⟩ | ⟨G, hG⟩
  · rw [he, he]
  · rw [hG, hG]
    generalize nT.getD env.defaults.nTrapz = N
    congr 2
    by_cases hN : N = 0
    · subst hN; simp
    rw [← sum_range_reflect]
    refine sum_congr rfl fun k hk => ?_
    have hk := mem_range.1 hk
    have h1 : phase N (N - 1 - k + 1) = -phase N k := by
      rw [← phase_reflect hN (by omega)]; congr 1; omega
    have h2 : phase N (N - 1 - k) = -phase N (k + 1) := by
      rw [← phase_reflect hN (by omega)]; congr 1; omega
    have he : ∀ θ : ℝ, (CplxOps.exp (FP.num (-Complex.I) * ofR (FP.num (-n)) *
        FP.num ((-θ : ℝ) : ℂ)) : FP ℂ) =
        CplxOps.exp (FP.num (-Complex.I) * ofR (FP.num n) * FP.num ((θ : ℝ) : ℂ)) := by
      intro θ
      simp only [sofR, FP.num_mul, sexp]
      push_cast
      ring_nf
    rw [h1, h2, Real.cos_neg, Real.cos_neg, he, he, add_comm]

theorem demod_alias (env : Env) (f : FP ℝ → PyM (FP ℂ)) (x0 amp : FP ℝ) (n : ℝ) (N : ℕ) :
    demod env f x0 amp (FP.num (n + N)) (some N) =
      demod env f x0 amp (FP.num n) (some N) >>= fun v => .ok (FP.num ((-1) ^ N) * v) := by
  rcases demod_cases env f x0 amp (some N) with ⟨e, he⟩ | ⟨G, hG⟩
  · rw [he, he]; rfl
  · rw [hG, hG, PyM.ok_bind]
    simp only [Option.getD_some]
    by_cases hN : N = 0
    · subst hN; simp [FP.zero_eq]
    have hNc : (N : ℂ) ≠ 0 := by exact_mod_cast hN
    rw [← FP.num_mul_div, num_mul_sum]
    congr 2
    refine sum_congr rfl fun k _ => ?_
    have hw : ∀ k, (CplxOps.exp (FP.num (-Complex.I) * ofR (FP.num (n + N)) *
        FP.num ((phase N k : ℝ) : ℂ)) : FP ℂ) = FP.num ((-1) ^ N) *
        CplxOps.exp (FP.num (-Complex.I) * ofR (FP.num n) * FP.num ((phase N k : ℝ) : ℂ)) := by
      intro k
      simp only [sofR, FP.num_mul, sexp]
      congr 1
      rw [← Complex.exp_pi_mul_I, ← Complex.exp_nat_mul, ← Complex.exp_add,
        Complex.exp_eq_exp_iff_exists_int]
      refine ⟨-k, ?_⟩
      unfold phase
      push_cast
      field_simp
      ring
    have hcomm : ∀ a b : FP ℂ, a * (FP.num ((-1) ^ N) * b) = FP.num ((-1) ^ N) * (a * b) := by
      intro a b
      cases a <;> cases b <;> simp
      ring
    rw [hw, hw, hcomm, hcomm, ← FP.num_mul_add, FP.num_mul_div]

end Snompy
