import Verif.Lemmas.GenProps
import Verif.Lemmas.Quad
import Verif.Spec.Layered
import Verif.Spec.Laguerre

/-!
# Samples whose permittivity increases with depth
-/

namespace Snompy

/-- The reflection of layers with real permittivities. -/
noncomputable def deepRefl (q env : ℝ) : List (ℝ × ℝ) → ℝ → ℝ
  | [], sub => (sub - env) / (sub + env)
  | l :: ls, sub =>
    ((l.1 - env) / (l.1 + env) + deepRefl q l.1 ls sub * Real.exp (-(2 * clipped (q * l.2)))) /
      (1 + (l.1 - env) / (l.1 + env) * deepRefl q l.1 ls sub * Real.exp (-(2 * clipped (q * l.2))))

theorem contrast_mem {e f : ℝ} (h : 0 < e) (h' : e ≤ f) : 0 ≤ (f - e) / (f + e) ∧ (f - e) / (f + e) < 1 := by
  refine ⟨div_nonneg (by linarith) (by linarith), ?_⟩
  rw [div_lt_one (by linarith)]
  linarith

theorem clipped_mono {x y : ℝ} (h : x ≤ y) : clipped x ≤ clipped y := min_le_min (max_le_max h le_rfl) le_rfl

/-- `(r + x)/(1 + r x)` increases with `x`. -/
theorem tanh_add_mono {r x y : ℝ} (h0 : 0 ≤ r) (h1 : r < 1) (hx : 0 ≤ x) (h : x ≤ y) : (r + x) / (1 + r * x) ≤ (r + y) / (1 + r * y) := by
  have hy : 0 ≤ y := hx.trans h
  have d1 : 0 < 1 + r * x := by positivity
  have d2 : 0 < 1 + r * y := by positivity
  rw [div_le_div_iff₀ d1 d2]
  have : 0 ≤ (1 - r ^ 2) * (y - x) := mul_nonneg (by nlinarith) (by linarith)
  nlinarith

section

variable {sub : ℝ}

theorem pairwise_tail {env : ℝ} {l : ℝ × ℝ} {ls : List (ℝ × ℝ)} (h0 : 0 < env)
    (h : (env :: ((l :: ls).map Prod.fst ++ [sub])).Pairwise (· ≤ ·)) :
    env ≤ l.1 ∧ 0 < l.1 ∧ (l.1 :: (ls.map Prod.fst ++ [sub])).Pairwise (· ≤ ·) := by
  simp only [List.map_cons, List.cons_append, List.pairwise_cons] at h
  have hel : env ≤ l.1 := h.1 l.1 (by simp)
  exact ⟨hel, by linarith, by rw [List.pairwise_cons]; exact h.2⟩

theorem pairwise_sub {env : ℝ} {ls : List (ℝ × ℝ)} (h : (env :: (ls.map Prod.fst ++ [sub])).Pairwise (· ≤ ·)) : env ≤ sub :=
  (List.pairwise_cons.1 h).1 sub (by simp)

theorem deepRefl_mem {q : ℝ} (ls : List (ℝ × ℝ)) : ∀ env : ℝ, 0 < env →
    (env :: (ls.map Prod.fst ++ [sub])).Pairwise (· ≤ ·) → 0 ≤ deepRefl q env ls sub ∧ (env < sub → 0 < deepRefl q env ls sub) := by
  induction ls with
  | nil =>
    intro env h0 h
    have h' := pairwise_sub (ls := []) h
    exact ⟨(contrast_mem h0 h').1, fun hlt => div_pos (by linarith) (by linarith)⟩
  | cons l ls ih =>
    intro env h0 h
    obtain ⟨h1, h2, h3⟩ := pairwise_tail h0 h
    obtain ⟨i1, i2⟩ := ih l.1 h2 h3
    have hr := (contrast_mem h0 h1).1
    have hu := Real.exp_pos (-(2 * clipped (q * l.2)))
    have hx : 0 ≤ deepRefl q l.1 ls sub * Real.exp (-(2 * clipped (q * l.2))) := mul_nonneg i1 hu.le
    have hd : 0 < 1 + (l.1 - env) / (l.1 + env) * deepRefl q l.1 ls sub * Real.exp (-(2 * clipped (q * l.2))) := by
      have := mul_nonneg hr hx
      rw [← mul_assoc] at this
      linarith
    refine ⟨div_nonneg (by linarith) hd.le, fun hlt => div_pos ?_ hd⟩
    rcases lt_or_ge env l.1 with hc | hc
    · have : 0 < (l.1 - env) / (l.1 + env) := div_pos (by linarith) (by linarith)
      linarith
    · have := mul_pos (i2 (by linarith)) hu
      linarith

theorem deepRefl_anti {p q : ℝ} (hpq : p ≤ q) (ls : List (ℝ × ℝ)) : ∀ env : ℝ, 0 < env →
    (env :: (ls.map Prod.fst ++ [sub])).Pairwise (· ≤ ·) → (∀ l ∈ ls, 0 ≤ l.2) → deepRefl q env ls sub ≤ deepRefl p env ls sub := by
  induction ls with
  | nil => intro env _ _ _; exact le_rfl
  | cons l ls ih =>
    intro env h0 h ht
    obtain ⟨h1, h2, h3⟩ := pairwise_tail h0 h
    have i := ih l.1 h2 h3 fun x hx => ht x (List.mem_cons_of_mem _ hx)
    obtain ⟨m1, -⟩ := deepRefl_mem (q := q) (sub := sub) ls l.1 h2 h3
    obtain ⟨hr, hr'⟩ := contrast_mem h0 h1
    have hw : Real.exp (-(2 * clipped (q * l.2))) ≤ Real.exp (-(2 * clipped (p * l.2))) := by
      rw [Real.exp_le_exp]
      have := clipped_mono (mul_le_mul_of_nonneg_right hpq (ht l List.mem_cons_self))
      linarith
    have := tanh_add_mono hr hr' (mul_nonneg m1 (Real.exp_pos _).le) (mul_le_mul i hw (Real.exp_pos _).le (m1.trans i))
    simpa only [deepRefl, mul_assoc] using this

theorem deepRefl_zero (ls : List (ℝ × ℝ)) : ∀ env : ℝ, 0 < env →
    (env :: (ls.map Prod.fst ++ [sub])).Pairwise (· ≤ ·) → deepRefl 0 env ls sub = (sub - env) / (sub + env) := by
  induction ls with
  | nil => intro env _ _; rfl
  | cons l ls ih =>
    intro env h0 h
    obtain ⟨h1, h2, h3⟩ := pairwise_tail h0 h
    have hs := pairwise_sub h3
    rw [deepRefl, ih l.1 h2 h3, zero_mul, clipped_zero, mul_zero, neg_zero, Real.exp_zero, mul_one, mul_one]
    have a1 : l.1 + env ≠ 0 := by linarith
    have a2 : sub + l.1 ≠ 0 := by linarith
    have a3 : sub + env ≠ 0 := by linarith
    have a4 : (1 : ℝ) + (l.1 - env) / (l.1 + env) * ((sub - l.1) / (sub + l.1)) ≠ 0 := by
      have := mul_nonneg (contrast_mem h0 h1).1 (contrast_mem h2 hs).1
      linarith
    rw [div_eq_div_iff a4 a3]
    field_simp
    ring

/-- The reflection of the first interface alone is a lower bound. -/
theorem deepRefl_ge {q env : ℝ} (h0 : 0 < env) {ls : List (ℝ × ℝ)} (h : (env :: (ls.map Prod.fst ++ [sub])).Pairwise (· ≤ ·)) :
    ((ls.map Prod.fst).headD sub - env) / ((ls.map Prod.fst).headD sub + env) ≤ deepRefl q env ls sub := by
  cases ls with
  | nil => exact le_rfl
  | cons l ls =>
    obtain ⟨h1, h2, h3⟩ := pairwise_tail h0 h
    obtain ⟨hr, hr'⟩ := contrast_mem h0 h1
    obtain ⟨m1, -⟩ := deepRefl_mem (q := q) (sub := sub) ls l.1 h2 h3
    have := tanh_add_mono hr hr' le_rfl (mul_nonneg m1 (Real.exp_pos (-(2 * clipped (q * l.2)))).le)
    rw [mul_zero, add_zero, add_zero, div_one] at this
    simpa only [List.map_cons, List.headD_cons, deepRefl, mul_assoc] using this

theorem deepRefl_stack {q : ℝ} (ls : List (ℝ × ℝ)) : ∀ env : ℝ, 0 < env →
    (env :: (ls.map Prod.fst ++ [sub])).Pairwise (· ≤ ·) →
    ∃ τ, stackCoefs q env (ls.map fun l => ((l.1 : ℂ), l.2)) sub = some ((deepRefl q env ls sub : ℂ), τ) := by
  induction ls with
  | nil =>
    intro env h0 h
    have h' := pairwise_sub (ls := []) h
    have hne : (sub : ℂ) + env ≠ 0 := by exact_mod_cast (by linarith : sub + env ≠ 0)
    refine ⟨1 + (sub - env) / (sub + env), ?_⟩
    simp only [List.map_nil, stackCoefs, if_neg hne, deepRefl]
    push_cast
    rfl
  | cons l ls ih =>
    intro env h0 h
    obtain ⟨h1, h2, h3⟩ := pairwise_tail h0 h
    obtain ⟨τ, hτ⟩ := ih l.1 h2 h3
    obtain ⟨m1, -⟩ := deepRefl_mem (q := q) (sub := sub) ls l.1 h2 h3
    have hne : ((l.1 : ℝ) : ℂ) + env ≠ 0 := by exact_mod_cast (by linarith : l.1 + env ≠ 0)
    have hu : ((Real.exp (-clipped (q * l.2)) : ℝ) : ℂ) ^ 2 = ((Real.exp (-(2 * clipped (q * l.2))) : ℝ) : ℂ) := by
      rw [← Complex.ofReal_pow, ← Real.exp_nat_mul]
      congr 2
      push_cast
      ring
    have hd : (1 : ℝ) + (l.1 - env) / (l.1 + env) * deepRefl q l.1 ls sub * Real.exp (-(2 * clipped (q * l.2))) ≠ 0 := by
      have := mul_nonneg (mul_nonneg (contrast_mem h0 h1).1 m1) (Real.exp_pos (-(2 * clipped (q * l.2)))).le
      linarith
    have hd' : (1 : ℂ) + ((l.1 : ℂ) - env) / ((l.1 : ℂ) + env) * deepRefl q l.1 ls sub *
        ((Real.exp (-(2 * clipped (q * l.2))) : ℝ) : ℂ) ≠ 0 := by exact_mod_cast hd
    refine ⟨(1 + ((l.1 : ℂ) - env) / ((l.1 : ℂ) + env)) * τ * (Real.exp (-clipped (q * l.2)) : ℝ) /
      (1 + ((l.1 : ℂ) - env) / ((l.1 : ℂ) + env) * deepRefl q l.1 ls sub * ((Real.exp (-(2 * clipped (q * l.2))) : ℝ) : ℂ)), ?_⟩
    simp only [List.map_cons, stackCoefs, hτ, hu]
    rw [if_neg (not_or.2 ⟨hne, hd'⟩)]
    simp only [deepRefl]
    push_cast
    rfl

end

/-! ## Sums over the rule -/

variable {n : ℕ} {rule : List (ℝ × ℝ)}

theorem rule_sum_mono {f g : ℝ × ℝ → ℝ} (h : ∀ xw ∈ rule, f xw ≤ g xw) : (rule.map f).sum ≤ (rule.map g).sum :=
  List.sum_le_sum h

theorem rule_sum_ofReal (f : ℝ × ℝ → ℝ) : (rule.map fun xw => ((f xw : ℝ) : ℂ)).sum = (((rule.map f).sum : ℝ) : ℂ) := by
  induction rule with
  | nil => simp
  | cons a l ih => simp [ih]

theorem rule_moments (hn : n ≠ 0) (hr : GaussLaguerre n rule) :
    (rule.map fun xw => xw.2).sum = 1 ∧ (rule.map fun xw => xw.2 * xw.1).sum = 1 := by
  have h0 := hr.exact 0 (by omega)
  have h1 := hr.exact 1 (by omega)
  simp only [pow_zero, mul_one, pow_one, Nat.factorial_zero, Nat.factorial_one, Nat.cast_one] at h0 h1
  exact ⟨h0, h1⟩

/-- Decreasing functions have a larger mean without the factor `x`. -/
theorem rule_chebyshev (hn : n ≠ 0) (hr : GaussLaguerre n rule) {b : ℝ → ℝ} (hb : ∀ x y, 0 < x → x ≤ y → b y ≤ b x) :
    (rule.map fun xw => xw.2 * xw.1 * b xw.1).sum ≤ (rule.map fun xw => xw.2 * b xw.1).sum := by
  obtain ⟨h0, h1⟩ := rule_moments hn hr
  have h : ∀ xw ∈ rule, xw.2 * xw.1 * b xw.1 + xw.2 * b 1 ≤ xw.2 * b xw.1 + xw.2 * xw.1 * b 1 := fun xw hxw => by
    have hw := hr.weight_pos xw hxw
    have hx := hr.node_pos xw hxw
    have : (xw.1 - 1) * (b xw.1 - b 1) ≤ 0 := by
      rcases le_total xw.1 1 with h | h
      · exact mul_nonpos_of_nonpos_of_nonneg (by linarith) (by linarith [hb _ _ hx h])
      · exact mul_nonpos_of_nonneg_of_nonpos (by linarith) (by linarith [hb _ _ one_pos h])
    nlinarith
  have hs := rule_sum_mono h
  rw [List.sum_map_add, List.sum_map_add, List.sum_map_mul_right, List.sum_map_mul_right, h0, h1] at hs
  linarith

end Snompy
