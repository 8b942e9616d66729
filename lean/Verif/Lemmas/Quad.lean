import Verif.Lemmas.DemodAny
import Verif.Lemmas.Qs
import Verif.Spec.Laguerre
import Mathlib.Analysis.Convex.Combination

/-!
# Gauss-Laguerre sums in the scalar reading
-/

namespace Snompy

theorem GaussLaguerre.sum_w {n : ℕ} {rule : List (ℝ × ℝ)} (h : GaussLaguerre n rule) (hn : n ≠ 0) :
    (rule.map fun xw => xw.2).sum = 1 := by
  have := h.exact 0 (by omega)
  simpa using this

theorem GaussLaguerre.sum_wx {n : ℕ} {rule : List (ℝ × ℝ)} (h : GaussLaguerre n rule) (hn : n ≠ 0) :
    (rule.map fun xw => xw.2 * xw.1).sum = 1 := by
  have := h.exact 1 (by omega)
  simpa using this

theorem gaussLaguerre_one : GaussLaguerre 1 [(1, 1)] := by
  refine ⟨rfl, by simp, by simp, fun k hk => ?_⟩
  interval_cases k <;> simp

theorem gaussLaguerre_two : GaussLaguerre 2
    [(2 - √2, (2 + √2) / 4), (2 + √2, (2 - √2) / 4)] := by
  have h2 : √2 * √2 = 2 := Real.mul_self_sqrt (by norm_num)
  have hlt : √2 < 2 := by nlinarith [Real.sqrt_nonneg 2]
  have hnn := Real.sqrt_nonneg 2
  refine ⟨rfl, ?_, ?_, fun k hk => ?_⟩
  · simp [hlt]; linarith
  · simp [hlt]; linarith
  · interval_cases k <;> simp [Nat.factorial]
    · ring
    · linear_combination (-1 / 2) * h2
    · linear_combination (-1) * h2
    · linear_combination (-1 - √2 * √2 / 2) * h2

theorem quad0_unfold (rule : List (ℝ × ℝ)) (lk : List (FP ℝ ⊕ FP ℂ)) (body : FP ℝ → FP ℝ → PyM (FP ℂ)) :
    CplxOps.quad0 rule lk body = (do
      let vals ← rule.mapM fun xw => body (FP.num xw.1) (FP.num xw.2)
      pure (FP.sum vals)) := rfl

/-- Running the body over the rule: first all evaluations of the sample, then the arithmetic. -/
theorem mapM_bind_ok {α β γ : Type} (l : List α) (B : α → PyM β) (F : α → β → γ) :
    (l.mapM fun a => (do let b ← B a; pure (F a b) : PyM γ)) =
      (do let bs ← l.mapM B; pure (List.zipWith F l bs)) := by
  induction l with
  | nil => rfl
  | cons a l ih =>
    rw [List.mapM_cons, List.mapM_cons, ih]
    cases B a with
    | error e => rfl
    | ok b =>
      simp only [PyM.ok_bind, PyM.pure_eq_ok]
      cases l.mapM B with
      | error e => rfl
      | ok bs => rfl

theorem quad0_num (rule : List (ℝ × ℝ)) (lk : List (FP ℝ ⊕ FP ℂ)) (body : FP ℝ → FP ℝ → PyM (FP ℂ))
    (f : ℝ × ℝ → ℂ) (h : ∀ xw ∈ rule, body (FP.num xw.1) (FP.num xw.2) = .ok (FP.num (f xw))) :
    CplxOps.quad0 rule lk body = .ok (FP.num (rule.map f).sum) := by
  rw [quad0_unfold, mapM_ok rule _ (fun xw => FP.num (f xw)) h, PyM.ok_bind, FP.sum_num]
  rfl

/-- Finite values of the reflection coefficient at the momenta the rule asks for. -/
theorem aboveSurf_num (env : Env) (s : Stack (FP ℝ) (FP ℂ)) (b : ℝ → ℂ) (z : ℝ) (hz : z ≠ 0)
    (nLag : Option ℕ) (hn : nLag.getD env.defaults.nLag ≠ 0)
    (hp : ∃ v, s.reflCoefQs (FP.num z) = .ok v)
    (hb : ∀ xw ∈ env.laggauss (nLag.getD env.defaults.nLag),
      s.reflCoefQs (FP.num (xw.1 / (2 * z))) = .ok (FP.num (b (xw.1 / (2 * z))))) :
    s.reflCoefQsAboveSurf env (FP.num z) nLag = .ok (FP.num
      ((env.laggauss (nLag.getD env.defaults.nLag)).map fun xw =>
        ((xw.2 * xw.1 : ℝ) : ℂ) * b (xw.1 / (2 * z))).sum) := by
  obtain ⟨v, hv⟩ := hp
  unfold Stack.reflCoefQsAboveSurf Env.lagRule
  rw [if_neg hn, PyM.ok_bind, hv, PyM.ok_bind]
  refine quad0_num _ _ _ _ fun xw hxw => ?_
  simp only [slit, FP.num_mul]
  rw [FP.num_div _ (mul_ne_zero two_ne_zero hz), hb xw hxw]
  rfl

theorem surf_num (env : Env) (s : Stack (FP ℝ) (FP ℂ)) (b : ℝ → ℂ) (z : ℝ) (hz : z ≠ 0)
    (nLag : Option ℕ) (hn : nLag.getD env.defaults.nLag ≠ 0)
    (hp : ∃ v, s.reflCoefQs (FP.num z) = .ok v)
    (hb : ∀ xw ∈ env.laggauss (nLag.getD env.defaults.nLag),
      s.reflCoefQs (FP.num (xw.1 / (2 * z))) = .ok (FP.num (b (xw.1 / (2 * z))))) :
    s.surfPotAndField env (FP.num z) nLag = .ok
      (FP.num (((env.laggauss (nLag.getD env.defaults.nLag)).map fun xw =>
        (xw.2 : ℂ) * b (xw.1 / (2 * z))).sum / ((2 * z : ℝ) : ℂ)),
      FP.num (((env.laggauss (nLag.getD env.defaults.nLag)).map fun xw =>
        ((xw.2 * xw.1 : ℝ) : ℂ) * b (xw.1 / (2 * z))).sum / ((4 * z ^ 2 : ℝ) : ℂ))) := by
  obtain ⟨v, hv⟩ := hp
  unfold Stack.surfPotAndField Env.lagRule
  rw [if_neg hn, PyM.ok_bind, hv, PyM.ok_bind,
    quad0_num _ _ _ (fun xw => (xw.2 : ℂ) * b (xw.1 / (2 * z))) fun xw hxw => ?_, PyM.ok_bind,
    quad0_num _ _ _ (fun xw => ((xw.2 * xw.1 : ℝ) : ℂ) * b (xw.1 / (2 * z))) fun xw hxw => ?_,
    PyM.ok_bind]
  · simp only [slit, FP.num_mul, snpow, sofR]
    rw [FP.num_div _ (by exact_mod_cast mul_ne_zero two_ne_zero hz),
      FP.num_div _ (by exact_mod_cast mul_ne_zero four_ne_zero (pow_ne_zero 2 hz))]
    rfl
  · simp only [slit, FP.num_mul]
    rw [FP.num_div _ (mul_ne_zero two_ne_zero hz), hb xw hxw]
    rfl
  · simp only [slit, FP.num_mul]
    rw [FP.num_div _ (mul_ne_zero two_ne_zero hz), hb xw hxw]
    rfl

/-- The image depth and charge of given surface potential and field. -/
theorem image_num (env : Env) (s : Stack (FP ℝ) (FP ℂ)) (z : ℝ) (nLag : Option ℕ) (phi e : ℂ)
    (h : s.surfPotAndField env (FP.num z) nLag = .ok (FP.num phi, FP.num e)) :
    s.imageDepthAndCharge env (FP.num z) nLag = .ok
      (if e = 0 then (FP.nan, FP.nan) else (FP.num (‖phi / e‖ - z), FP.num (phi ^ 2 / e))) := by
  unfold Stack.imageDepthAndCharge
  rw [h, PyM.ok_bind]
  simp only [scpow]
  split_ifs with he
  · subst he
    rw [FP.num_div_zero, FP.num_div_zero]
    rfl
  · rw [FP.num_div _ he, FP.num_div _ he, scabs, FP.num_sub]
    rfl

/-- The real nodes and weights as sums in `ℂ`. -/
theorem sum_const_mul (rule : List (ℝ × ℝ)) (f : ℝ × ℝ → ℝ) (c : ℂ) :
    (rule.map fun xw => (f xw : ℂ) * c).sum = ((rule.map f).sum : ℝ) * c := by
  induction rule with
  | nil => simp
  | cons a l ih => simp [ih, add_mul]

/-- Positive combinations with total weight one stay in a convex set. -/
theorem sum_mem_convex {K : Set ℂ} (hK : Convex ℝ K) (rule : List (ℝ × ℝ)) (u : ℝ × ℝ → ℝ)
    (hu : ∀ xw ∈ rule, 0 ≤ u xw) (hsum : (rule.map u).sum = 1) (b : ℝ × ℝ → ℂ)
    (hb : ∀ xw ∈ rule, b xw ∈ K) : (rule.map fun xw => (u xw : ℂ) * b xw).sum ∈ K := by
  have h1 : (rule.map fun xw => (u xw : ℂ) * b xw).sum =
      ∑ i : Fin rule.length, u (rule.get i) • b (rule.get i) := by
    rw [← List.sum_ofFn]
    congr 1
    apply List.ext_getElem
    · simp
    · intro i _ _; simp
  have h2 : ∑ i : Fin rule.length, u (rule.get i) = 1 := by
    rw [← hsum, ← List.sum_ofFn]
    congr 1
    apply List.ext_getElem
    · simp
    · intro i _ _; simp
  rw [h1]
  exact hK.sum_mem (fun i _ => hu _ (List.get_mem _ _)) h2 fun i _ => hb _ (List.get_mem _ _)

end Snompy
