import Verif.Lemmas.LaguerreExists
import Mathlib.Analysis.SpecificLimits.Normed
import Mathlib.Analysis.Normed.Group.Tannery
import Mathlib.Topology.ContinuousMap.Weierstrass
import Mathlib.Analysis.Calculus.MeanValue
import Mathlib.Analysis.SpecialFunctions.Log.Deriv

/-!
# Gauss-Laguerre rules of growing order converge

For `f` continuous on `[0, ∞)` with a limit at infinity, `∑ w x^j f(x) → ∫ x^j f(x) exp(-x) dx`.  First for
`f(x) = exp(-s x)`, by expanding the exponential, then for the polynomials in `exp(-x)`, which approximate every such `f`.
-/

namespace Snompy.Laguerre

open Filter Topology Set MeasureTheory

/-- The sum of a rule. -/
noncomputable def quad (rule : List (ℝ × ℝ)) (f : ℝ → ℝ) : ℝ := (rule.map fun xw => xw.2 * f xw.1).sum

theorem quad_add (rule : List (ℝ × ℝ)) (f g : ℝ → ℝ) :
    quad rule (fun x => f x + g x) = quad rule f + quad rule g := by
  induction rule with
  | nil => simp [quad]
  | cons a l ih => simp only [quad, List.map_cons, List.sum_cons] at ih ⊢; rw [ih]; ring

theorem quad_mul (rule : List (ℝ × ℝ)) (c : ℝ) (f : ℝ → ℝ) :
    quad rule (fun x => c * f x) = c * quad rule f := by
  induction rule with
  | nil => simp [quad]
  | cons a l ih => simp only [quad, List.map_cons, List.sum_cons] at ih ⊢; rw [ih]; ring

theorem quad_sum {ι : Type} (rule : List (ℝ × ℝ)) (s : Finset ι) (f : ι → ℝ → ℝ) :
    quad rule (fun x => ∑ i ∈ s, f i x) = ∑ i ∈ s, quad rule (f i) := by
  induction rule with
  | nil => simp [quad]
  | cons a l ih =>
    simp only [quad, List.map_cons, List.sum_cons] at ih ⊢
    rw [ih, Finset.mul_sum, Finset.sum_add_distrib]

theorem quad_hasSum (rule : List (ℝ × ℝ)) (f : ℕ → ℝ → ℝ) (g : ℝ → ℝ) (h : ∀ x, HasSum (fun k => f k x) (g x)) :
    HasSum (fun k => quad rule (f k)) (quad rule g) := by
  induction rule with
  | nil => simp [quad]
  | cons a l ih =>
    simp only [quad, List.map_cons, List.sum_cons] at ih ⊢
    exact ((h _).mul_left _).add ih

theorem quad_le {n : ℕ} {rule : List (ℝ × ℝ)} (hr : GaussLaguerre n rule) {f g : ℝ → ℝ}
    (h : ∀ x, 0 < x → f x ≤ g x) : quad rule f ≤ quad rule g := by
  refine List.sum_le_sum fun xw hxw => ?_
  exact mul_le_mul_of_nonneg_left (h _ (hr.node_pos _ hxw)) (hr.weight_pos _ hxw).le

theorem quad_abs {n : ℕ} {rule : List (ℝ × ℝ)} (hr : GaussLaguerre n rule) {f g : ℝ → ℝ}
    (h : ∀ x, 0 < x → |f x| ≤ g x) : |quad rule f| ≤ quad rule g := by
  refine abs_le.2 ⟨?_, quad_le hr fun x hx => (abs_le.1 (h x hx)).2⟩
  rw [← neg_one_mul, ← quad_mul]
  exact quad_le hr fun x hx => by linarith [(abs_le.1 (h x hx)).1]

theorem quad_pow {n : ℕ} {rule : List (ℝ × ℝ)} (hr : GaussLaguerre n rule) {k : ℕ} (hk : k < 2 * n) :
    quad rule (fun x => x ^ k) = k.factorial := hr.exact k hk

/-! ### The remainder of the exponential series -/

/-- The sum of the first `m` terms of `exp(-y)`. -/
noncomputable def expSum (m : ℕ) (y : ℝ) : ℝ := ∑ k ∈ Finset.range m, (-y) ^ k / k.factorial

theorem hasDerivAt_expSum (m : ℕ) (y : ℝ) : HasDerivAt (expSum (m + 1)) (-expSum m y) y := by
  have h1 : HasDerivAt (fun y : ℝ => ∑ k ∈ Finset.range m, (-y) ^ (k + 1) / (k + 1).factorial + 1)
      (∑ k ∈ Finset.range m, -((-y) ^ k / k.factorial)) y := by
    refine HasDerivAt.add_const _ (HasDerivAt.fun_sum fun k _ => ?_)
    have := (((hasDerivAt_id y).neg).pow (k + 1)).div_const ((k + 1).factorial : ℝ)
    convert! this using 1
    rw [Nat.factorial_succ]
    push_cast
    have : (k.factorial : ℝ) ≠ 0 := by positivity
    have : (k + 1 : ℝ) ≠ 0 := by positivity
    simp
    field_simp
  have h2 : expSum (m + 1) = fun y : ℝ => ∑ k ∈ Finset.range m, (-y) ^ (k + 1) / (k + 1).factorial + 1 := by
    funext y
    rw [expSum, Finset.sum_range_succ']
    simp
  rw [h2]
  convert! h1 using 1
  rw [expSum, Finset.sum_neg_distrib]

theorem expSum_zero (m : ℕ) : expSum (m + 1) 0 = 1 := by
  rw [expSum, Finset.sum_range_succ']
  simp

theorem exp_remainder (m : ℕ) (y : ℝ) (hy : 0 ≤ y) :
    0 ≤ (-1) ^ m * (Real.exp (-y) - expSum m y) ∧
      (-1) ^ m * (Real.exp (-y) - expSum m y) ≤ y ^ m / m.factorial := by
  induction m generalizing y with
  | zero => simp [expSum, hy, Real.exp_nonneg]
  | succ m ih =>
    have hd : ∀ y, HasDerivAt (fun y => (-1 : ℝ) ^ (m + 1) * (Real.exp (-y) - expSum (m + 1) y))
        ((-1) ^ m * (Real.exp (-y) - expSum m y)) y := fun y => by
      have := (((hasDerivAt_neg y).exp).sub (hasDerivAt_expSum m y)).const_mul ((-1 : ℝ) ^ (m + 1))
      convert! this using 1
      ring
    have hp : ∀ y : ℝ, HasDerivAt (fun y : ℝ => y ^ (m + 1) / (m + 1).factorial) (y ^ m / m.factorial) y := fun y => by
      have := (hasDerivAt_pow (m + 1) y).div_const ((m + 1).factorial : ℝ)
      convert! this using 1
      rw [Nat.factorial_succ]
      push_cast
      have : (m.factorial : ℝ) ≠ 0 := by positivity
      have : (m + 1 : ℝ) ≠ 0 := by positivity
      field_simp
    have mono : ∀ f f' : ℝ → ℝ, (∀ y, HasDerivAt f (f' y) y) → (∀ y, 0 ≤ y → 0 ≤ f' y) → f 0 = 0 → 0 ≤ f y := by
      intro f f' hf hf' h0
      rw [← h0]
      refine monotoneOn_of_deriv_nonneg (convex_Ici 0) (fun y _ => (hf y).continuousAt.continuousWithinAt)
        (fun y _ => (hf y).differentiableAt.differentiableWithinAt) (fun y hy => ?_) self_mem_Ici hy hy
      rw [interior_Ici] at hy
      rw [(hf y).deriv]
      exact hf' y hy.le
    constructor
    · exact mono _ _ hd (fun y hy => (ih y hy).1) (by simp [expSum_zero])
    · have := mono _ _ (fun y => (hp y).sub (hd y)) (fun y hy => sub_nonneg.2 (ih y hy).2) (by simp [expSum_zero])
      simpa using this

theorem abs_exp_sub (m : ℕ) (y : ℝ) (hy : 0 ≤ y) : |Real.exp (-y) - expSum m y| ≤ y ^ m / m.factorial := by
  have h := exp_remainder m y hy
  have : |(-1) ^ m * (Real.exp (-y) - expSum m y)| = |Real.exp (-y) - expSum m y| := by
    rw [abs_mul, abs_pow, abs_neg, abs_one, one_pow, one_mul]
  rw [← this, abs_of_nonneg h.1]
  exact h.2

/-! ### Exponentials -/

/-- The integrand `x^j/j! exp(-s x)`. -/
noncomputable def expo (j : ℕ) (s x : ℝ) : ℝ := x ^ j / j.factorial * Real.exp (-(s * x))

/-- The limit for this integrand. -/
def Conv (rules : ℕ → List (ℝ × ℝ)) (s : ℝ) : Prop :=
  ∀ j : ℕ, Tendsto (fun n => quad (rules n) (expo j s)) atTop (𝓝 (1 / (1 + s) ^ (j + 1)))

theorem choose_div (j k : ℕ) :
    ((j + k).factorial : ℝ) / (j.factorial * k.factorial) = ((k + j).choose j : ℝ) := by
  rw [Nat.add_comm k j, Nat.choose_symm_add, Nat.add_choose, Nat.cast_div (Nat.factorial_mul_factorial_dvd_factorial_add j k)
    (by positivity)]
  push_cast
  rfl

variable {rules : ℕ → List (ℝ × ℝ)} (hr : ∀ n, n ≠ 0 → GaussLaguerre n (rules n))

include hr

theorem conv_small {s : ℝ} (h0 : 0 ≤ s) (h1 : s < 1) : Conv rules s := by
  intro j
  have hs : ‖-s‖ < 1 := by rw [norm_neg, Real.norm_of_nonneg h0]; exact h1
  have hs' : ‖s‖ < 1 := by rw [Real.norm_of_nonneg h0]; exact h1
  have hm : Tendsto (fun n : ℕ => 2 * n - 1 - j) atTop atTop := by
    refine tendsto_atTop_mono (f := fun n : ℕ => n - (1 + j)) (fun n => by omega) (tendsto_sub_atTop_nat _)
  have hsum := ((hasSum_choose_mul_geometric_of_norm_lt_one j hs).tendsto_sum_nat).comp hm
  have herr := ((hasSum_choose_mul_geometric_of_norm_lt_one j hs').summable.tendsto_atTop_zero).comp hm
  rw [sub_neg_eq_add] at hsum
  refine tendsto_of_tendsto_of_dist hsum (squeeze_zero' (Eventually.of_forall fun _ => dist_nonneg) ?_ herr)
  filter_upwards [eventually_ge_atTop (j + 1)] with n hn
  have hg := hr n (by omega)
  simp only [Function.comp_apply]
  obtain ⟨m, hm⟩ : ∃ m, m = 2 * n - 1 - j := ⟨_, rfl⟩
  rw [← hm]
  have e1 : ∑ k ∈ Finset.range m, ((k + j).choose j : ℝ) * (-s) ^ k =
      quad (rules n) (fun x => x ^ j / j.factorial * expSum m (s * x)) := by
    have : (fun x : ℝ => x ^ j / j.factorial * expSum m (s * x)) = fun x => ∑ k ∈ Finset.range m,
        ((-s) ^ k / (j.factorial * k.factorial)) * x ^ (j + k) := by
      funext x
      rw [expSum, Finset.mul_sum]
      refine Finset.sum_congr rfl fun k _ => ?_
      rw [← neg_mul, mul_pow, pow_add]
      field_simp
    rw [this, quad_sum]
    refine Finset.sum_congr rfl fun k hk => ?_
    rw [quad_mul, quad_pow hg (by have := Finset.mem_range.1 hk; omega), ← choose_div]
    field_simp
  have e2 : ((m + j).choose j : ℝ) * s ^ m =
      quad (rules n) (fun x => x ^ j / j.factorial * ((s * x) ^ m / m.factorial)) := by
    have : (fun x : ℝ => x ^ j / j.factorial * ((s * x) ^ m / m.factorial)) = fun x =>
        (s ^ m / (j.factorial * m.factorial)) * x ^ (j + m) := by
      funext x
      rw [mul_pow, pow_add]
      field_simp
    rw [this, quad_mul, quad_pow hg (by omega), ← choose_div]
    field_simp
  rw [e1, e2, dist_comm, Real.dist_eq]
  have e3 : quad (rules n) (expo j s) - quad (rules n) (fun x => x ^ j / j.factorial * expSum m (s * x)) =
      quad (rules n) (fun x => x ^ j / j.factorial * (Real.exp (-(s * x)) - expSum m (s * x))) := by
    rw [sub_eq_add_neg, ← neg_one_mul, ← quad_mul, ← quad_add]
    congr 1
    funext x
    rw [expo]
    ring
  rw [e3]
  refine quad_abs hg fun x hx => ?_
  rw [abs_mul, abs_of_nonneg (by positivity : 0 ≤ x ^ j / (j.factorial : ℝ))]
  exact mul_le_mul_of_nonneg_left (abs_exp_sub m _ (by positivity)) (by positivity)

theorem conv_step {s h : ℝ} (hs : 0 < s) (hh : |h| < s) (hc : Conv rules s) : Conv rules (s + h) := by
  intro j
  have hser : ∀ n, HasSum (fun k => ((k + j).choose j : ℝ) * (-h) ^ k * quad (rules n) (expo (j + k) s))
      (quad (rules n) (expo j (s + h))) := by
    intro n
    have : ∀ k, ((k + j).choose j : ℝ) * (-h) ^ k * quad (rules n) (expo (j + k) s) =
        quad (rules n) (fun x => expo j s x * ((-(h * x)) ^ k / k.factorial)) := by
      intro k
      rw [← quad_mul]
      congr 1
      funext x
      rw [← choose_div, expo, expo, show -(h * x) = -h * x by ring, mul_pow, pow_add]
      have : ((j + k).factorial : ℝ) ≠ 0 := by positivity
      field_simp
    simp only [this]
    refine quad_hasSum _ _ _ fun x => ?_
    have h1 := (NormedSpace.expSeries_div_hasSum_exp (-(h * x))).mul_left (expo j s x)
    rw [← Real.exp_eq_exp_ℝ] at h1
    convert! h1 using 1
    rw [expo, expo, mul_assoc, ← Real.exp_add]
    congr 2
    ring
  have h1s : (0 : ℝ) < 1 + s := by linarith
  have hlim : HasSum (fun k => ((k + j).choose j : ℝ) * (-h) ^ k * (1 / (1 + s) ^ (j + k + 1)))
      (1 / (1 + (s + h)) ^ (j + 1)) := by
    have hn : ‖-h / (1 + s)‖ < 1 := by
      rw [norm_div, norm_neg, Real.norm_eq_abs, Real.norm_of_nonneg h1s.le, div_lt_one h1s]
      linarith
    have h2 := (hasSum_choose_mul_geometric_of_norm_lt_one j hn).mul_left (1 / (1 + s) ^ (j + 1))
    have hpos : 0 < 1 + (s + h) := by linarith [neg_abs_le h]
    convert! h2 using 1
    · funext k
      rw [div_pow, show j + k + 1 = j + 1 + k by omega, pow_add (1 + s) (j + 1)]
      field_simp
    · rw [show 1 - -h / (1 + s) = (1 + (s + h)) / (1 + s) by field_simp; ring, div_pow]
      field_simp
  have hbound : Summable fun k => ((k + j).choose j : ℝ) * |h| ^ k * (1 / s ^ (j + k)) := by
    have hn : ‖|h| / s‖ < 1 := by
      rw [norm_div, Real.norm_eq_abs, abs_abs, Real.norm_of_nonneg hs.le, div_lt_one hs]
      exact hh
    have h2 := ((hasSum_choose_mul_geometric_of_norm_lt_one j hn).mul_left (1 / s ^ j)).summable
    convert! h2 using 1
    funext k
    rw [div_pow, pow_add]
    field_simp
  rw [← hlim.tsum_eq]
  simp only [← (hser _).tsum_eq]
  refine tendsto_tsum_of_dominated_convergence hbound (fun k => ?_) ?_
  · exact (hc (j + k)).const_mul _
  · filter_upwards [eventually_ge_atTop 1] with n hn k
    rw [norm_mul, norm_mul, norm_pow, norm_neg, Real.norm_eq_abs h, Real.norm_of_nonneg (by positivity)]
    refine mul_le_mul_of_nonneg_left ?_ (by positivity)
    have hg := hr n (by omega)
    have h0 := quad_pow hg (k := 0) (by omega)
    simp only [pow_zero, Nat.factorial_zero, Nat.cast_one] at h0
    have h3 : |quad (rules n) (expo (j + k) s)| ≤ quad (rules n) (fun _ => 1 / s ^ (j + k) * 1) := by
      refine quad_abs hg fun x hx => ?_
      rw [expo, abs_of_nonneg (by positivity), Real.exp_neg, mul_one]
      have h4 := Real.pow_div_factorial_le_exp (s * x) (by positivity) (j + k)
      rw [mul_pow] at h4
      rw [mul_inv_le_iff₀ (Real.exp_pos _)]
      calc x ^ (j + k) / ((j + k).factorial : ℝ) = 1 / s ^ (j + k) * (s ^ (j + k) * x ^ (j + k) / ((j + k).factorial : ℝ)) := by
            field_simp
        _ ≤ _ := mul_le_mul_of_nonneg_left h4 (by positivity)
    rw [quad_mul, h0, mul_one] at h3
    exact h3

theorem conv_exp {s : ℝ} (hs : 0 ≤ s) : Conv rules s := by
  have key : ∀ (N : ℕ) (s : ℝ), 0 ≤ s → s < (3 / 2) ^ N → Conv rules s := by
    intro N
    induction N with
    | zero => exact fun s h0 h1 => conv_small hr h0 (by simpa using h1)
    | succ N ih =>
      intro s h0 h1
      rcases h0.eq_or_lt with rfl | h0
      · exact conv_small hr le_rfl one_pos
      have := conv_step hr (s := 2 / 3 * s) (h := 1 / 3 * s) (by positivity)
        (by rw [abs_of_nonneg (by positivity)]; linarith) (ih _ (by positivity) (by
          rw [pow_succ] at h1; linarith))
      convert! this using 1
      ring
  obtain ⟨N, hN⟩ := pow_unbounded_of_one_lt s (by norm_num : (1 : ℝ) < 3 / 2)
  exact key N s hs hN

/-! ### Polynomials in `exp(-x)` -/

omit hr in
theorem integral_expo (j k : ℕ) :
    IntegrableOn (fun x : ℝ => x ^ j * Real.exp (-x) ^ k * Real.exp (-x)) (Ioi 0) ∧
    ∫ x in Ioi (0 : ℝ), x ^ j * Real.exp (-x) ^ k * Real.exp (-x) = j.factorial * (1 / (1 + k) ^ (j + 1)) := by
  have hk : (0 : ℝ) < 1 + k := by positivity
  have h := Real.integral_rpow_mul_exp_neg_mul_Ioi (a := j + 1) (r := 1 + k) (by positivity) hk
  have heq : EqOn (fun x : ℝ => x ^ ((j + 1 : ℝ) - 1) * Real.exp (-((1 + k) * x)))
      (fun x : ℝ => x ^ j * Real.exp (-x) ^ k * Real.exp (-x)) (Ioi 0) := by
    intro x _
    simp only [add_sub_cancel_right, Real.rpow_natCast]
    rw [mul_assoc, ← Real.exp_nat_mul, ← Real.exp_add]
    congr 2
    ring
  rw [setIntegral_congr_fun measurableSet_Ioi heq, Real.Gamma_nat_eq_factorial] at h
  have hr : ((1 : ℝ) / (1 + k)) ^ ((j : ℝ) + 1) = 1 / (1 + k) ^ (j + 1) := by
    rw [← Nat.cast_succ, Real.rpow_natCast, div_pow, one_pow]
  rw [hr] at h
  refine ⟨?_, by rw [h]; ring⟩
  by_contra hni
  rw [integral_undef hni] at h
  have : (0 : ℝ) < 1 / (1 + k) ^ (j + 1) * j.factorial := by positivity
  exact this.ne h

theorem conv_poly (p : Polynomial ℝ) (j : ℕ) :
    Tendsto (fun n => quad (rules n) (fun x => x ^ j * p.eval (Real.exp (-x)))) atTop
      (𝓝 (∫ x in Ioi (0 : ℝ), x ^ j * p.eval (Real.exp (-x)) * Real.exp (-x))) := by
  have h1 : ∀ n, quad (rules n) (fun x => x ^ j * p.eval (Real.exp (-x))) =
      ∑ k ∈ Finset.range (p.natDegree + 1), p.coeff k * j.factorial * quad (rules n) (expo j k) := by
    intro n
    simp only [← quad_mul]
    rw [← quad_sum]
    congr 1
    funext x
    rw [Polynomial.eval_eq_sum_range, Finset.mul_sum]
    refine Finset.sum_congr rfl fun k _ => ?_
    rw [expo, ← Real.exp_nat_mul, mul_neg]
    field_simp
  have h2 : ∫ x in Ioi (0 : ℝ), x ^ j * p.eval (Real.exp (-x)) * Real.exp (-x) =
      ∑ k ∈ Finset.range (p.natDegree + 1), p.coeff k * j.factorial * (1 / (1 + k) ^ (j + 1)) := by
    have : ∀ x : ℝ, x ^ j * p.eval (Real.exp (-x)) * Real.exp (-x) = ∑ k ∈ Finset.range (p.natDegree + 1),
        p.coeff k * (x ^ j * Real.exp (-x) ^ k * Real.exp (-x)) := by
      intro x
      rw [Polynomial.eval_eq_sum_range, Finset.mul_sum, Finset.sum_mul]
      exact Finset.sum_congr rfl fun k _ => by ring
    simp only [this]
    rw [integral_finsetSum _ fun k _ => (integral_expo j k).1.const_mul _]
    refine Finset.sum_congr rfl fun k _ => ?_
    rw [integral_const_mul, (integral_expo j k).2, mul_assoc]
  simp only [h1, h2]
  exact tendsto_finsetSum _ fun k _ => (conv_exp hr (Nat.cast_nonneg k) j).const_mul _

/-! ### Continuous functions with a limit -/

omit hr in
/-- Polynomials in `exp(-x)` approximate. -/
theorem exists_poly_near {g : ℝ → ℝ} {l : ℝ} (hg : ContinuousOn g (Ici 0)) (hl : Tendsto g atTop (𝓝 l)) {ε : ℝ}
    (hε : 0 < ε) : ∃ p : Polynomial ℝ, ∀ x, 0 ≤ x → |p.eval (Real.exp (-x)) - g x| < ε := by
  let G : ℝ → ℝ := fun u => if u = 0 then l else g (-Real.log u)
  have hG : ContinuousOn G (Icc 0 1) := by
    intro u hu
    rcases hu.1.eq_or_lt with h0 | h0
    · subst h0
      have h1 : Tendsto (fun u => g (-Real.log u)) (𝓝[>] 0) (𝓝 l) :=
        hl.comp (tendsto_neg_atBot_atTop.comp Real.tendsto_log_nhdsGT_zero)
      have h2 : ContinuousWithinAt G (Ioi 0) 0 := by
        have : G 0 = l := by simp [G]
        rw [ContinuousWithinAt, this]
        refine h1.congr' ?_
        filter_upwards [self_mem_nhdsWithin] with u hu
        simp [G, (ne_of_gt hu : u ≠ 0)]
      have h3 : ContinuousWithinAt G (insert 0 (Ioi 0)) 0 := continuousWithinAt_insert_self.2 h2
      exact h3.mono fun u hu => by
        rcases hu.1.eq_or_lt with h | h
        · exact Or.inl h.symm
        · exact Or.inr h
    · have h1 : ContinuousWithinAt (fun u => g (-Real.log u)) (Icc 0 1) u := by
        refine ContinuousWithinAt.comp_of_eq (t := Ici 0) (hg (-Real.log u) ?_)
          (Real.continuousAt_log h0.ne').neg.continuousWithinAt (fun v hv => ?_) rfl
        · exact neg_nonneg.2 (Real.log_nonpos hu.1 hu.2)
        · exact neg_nonneg.2 (Real.log_nonpos hv.1 hv.2)
      refine h1.congr_of_eventuallyEq ?_ (by simp [G, h0.ne'])
      filter_upwards [mem_nhdsWithin_of_mem_nhds (isOpen_ne.mem_nhds h0.ne')] with v hv
      have : v ≠ 0 := hv
      simp [G, this]
  obtain ⟨p, hp⟩ := exists_polynomial_near_of_continuousOn 0 1 G hG ε hε
  refine ⟨p, fun x hx => ?_⟩
  have := hp (Real.exp (-x)) ⟨(Real.exp_pos _).le, Real.exp_le_one_iff.2 (by linarith)⟩
  simpa [G, (Real.exp_pos _).ne'] using this

omit hr in
theorem integrable_cont {g : ℝ → ℝ} {l : ℝ} (hg : ContinuousOn g (Ici 0)) (hl : Tendsto g atTop (𝓝 l)) (j : ℕ) :
    IntegrableOn (fun x => x ^ j * g x * Real.exp (-x)) (Ioi 0) := by
  obtain ⟨p, hp⟩ := exists_poly_near hg hl one_pos
  have hpi : IntegrableOn (fun x : ℝ => x ^ j * p.eval (Real.exp (-x)) * Real.exp (-x)) (Ioi 0) := by
    have : (fun x : ℝ => x ^ j * p.eval (Real.exp (-x)) * Real.exp (-x)) = fun x =>
        ∑ k ∈ Finset.range (p.natDegree + 1), p.coeff k * (x ^ j * Real.exp (-x) ^ k * Real.exp (-x)) := by
      funext x
      rw [Polynomial.eval_eq_sum_range, Finset.mul_sum, Finset.sum_mul]
      exact Finset.sum_congr rfl fun k _ => by ring
    rw [this]
    exact integrable_finsetSum _ fun k _ => (integral_expo j k).1.const_mul _
  have hd : IntegrableOn (fun x : ℝ => x ^ j * (p.eval (Real.exp (-x)) - g x) * Real.exp (-x)) (Ioi 0) := by
    refine Integrable.mono' (integrable_pow j) ?_ ?_
    · refine ContinuousOn.aestronglyMeasurable ?_ measurableSet_Ioi
      have : ContinuousOn (fun x : ℝ => p.eval (Real.exp (-x))) (Ioi 0) :=
        (p.continuous.comp (Real.continuous_exp.comp continuous_neg)).continuousOn
      exact ((continuousOn_pow j).mul (this.sub (hg.mono Ioi_subset_Ici_self))).mul
        (Real.continuous_exp.comp continuous_neg).continuousOn
    · refine (ae_restrict_mem measurableSet_Ioi).mono fun x hx => ?_
      have hx : 0 < x := hx
      rw [norm_mul, norm_mul, Real.norm_of_nonneg (Real.exp_pos _).le, Real.norm_of_nonneg (by positivity)]
      refine mul_le_mul_of_nonneg_right ?_ (Real.exp_pos _).le
      have := (hp x hx.le).le
      exact mul_le_of_le_one_right (by positivity) this
  refine (hpi.sub hd).congr_fun (fun x _ => ?_) measurableSet_Ioi
  simp only [Pi.sub_apply]
  ring

/-- Gauss-Laguerre rules of growing order converge. -/
theorem conv_cont {g : ℝ → ℝ} {l : ℝ} (hg : ContinuousOn g (Ici 0)) (hl : Tendsto g atTop (𝓝 l)) (j : ℕ) :
    Tendsto (fun n => quad (rules n) (fun x => x ^ j * g x)) atTop
      (𝓝 (∫ x in Ioi (0 : ℝ), x ^ j * g x * Real.exp (-x))) := by
  rw [Metric.tendsto_atTop']
  intro ε hε
  have hJ : (0 : ℝ) < j.factorial := by positivity
  obtain ⟨p, hp⟩ := exists_poly_near hg hl (ε := ε / (4 * j.factorial)) (by positivity)
  obtain ⟨N, hN⟩ := Metric.tendsto_atTop'.1 (conv_poly hr p j) (ε / 2) (by positivity)
  refine ⟨max N j, fun n hn => ?_⟩
  have hnj : j < n := lt_of_le_of_lt (le_max_right _ _) hn
  have hg' := hr n (by omega)
  have h1 : |quad (rules n) (fun x => x ^ j * g x) - quad (rules n) (fun x => x ^ j * p.eval (Real.exp (-x)))| ≤
      ε / 4 := by
    have e : quad (rules n) (fun x => x ^ j * g x) - quad (rules n) (fun x => x ^ j * p.eval (Real.exp (-x))) =
        quad (rules n) (fun x => x ^ j * (g x - p.eval (Real.exp (-x)))) := by
      rw [sub_eq_add_neg, ← neg_one_mul, ← quad_mul, ← quad_add]
      congr 1
      funext x
      ring
    rw [e]
    have := quad_abs hg' (f := fun x => x ^ j * (g x - p.eval (Real.exp (-x))))
      (g := fun x => ε / (4 * j.factorial) * x ^ j) fun x hx => by
        rw [abs_mul, abs_of_nonneg (by positivity : 0 ≤ x ^ j), mul_comm, abs_sub_comm]
        exact mul_le_mul_of_nonneg_right (hp x hx.le).le (by positivity)
    rw [quad_mul, quad_pow hg' (by omega)] at this
    refine this.trans (le_of_eq ?_)
    field_simp
  have hpc : ContinuousOn (fun x : ℝ => p.eval (Real.exp (-x))) (Ici 0) :=
    (p.continuous.comp (Real.continuous_exp.comp continuous_neg)).continuousOn
  have hpl : Tendsto (fun x : ℝ => p.eval (Real.exp (-x))) atTop (𝓝 (p.eval 0)) :=
    (p.continuous.tendsto 0).comp (Real.tendsto_exp_neg_atTop_nhds_zero)
  have h2 : |(∫ x in Ioi (0 : ℝ), x ^ j * p.eval (Real.exp (-x)) * Real.exp (-x)) -
      ∫ x in Ioi (0 : ℝ), x ^ j * g x * Real.exp (-x)| ≤ ε / 4 := by
    rw [← integral_sub (integrable_cont hpc hpl j) (integrable_cont hg hl j), ← Real.norm_eq_abs]
    refine (norm_integral_le_of_norm_le ((integrable_pow j).const_mul (ε / (4 * j.factorial))) ?_).trans
      (le_of_eq ?_)
    · refine (ae_restrict_mem measurableSet_Ioi).mono fun x hx => ?_
      have hx : 0 < x := hx
      rw [← sub_mul, ← mul_sub, norm_mul, norm_mul, Real.norm_of_nonneg (Real.exp_pos _).le,
        Real.norm_of_nonneg (by positivity), ← mul_assoc, mul_comm (x ^ j)]
      exact mul_le_mul_of_nonneg_right (mul_le_mul_of_nonneg_right (hp x hx.le).le (by positivity))
        (Real.exp_pos _).le
    · rw [integral_const_mul, integral_pow]
      field_simp
  have h3 := hN n (lt_of_le_of_lt (le_max_left _ _) hn)
  rw [Real.dist_eq] at h3 ⊢
  have := abs_lt.1 h3
  have := abs_le.1 h1
  have := abs_le.1 h2
  rw [abs_lt]
  constructor <;> linarith

end Snompy.Laguerre
