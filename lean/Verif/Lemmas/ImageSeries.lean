import Verif.Spec.Images
import Verif.Props.Convergence

/-!
# The field above a film as a series of images
-/

namespace Snompy

open MeasureTheory Set

namespace Film

theorem integral_moment (j : ℕ) {a : ℝ} (ha : 0 < a) :
    IntegrableOn (fun q : ℝ => q ^ j * Real.exp (-(a * q))) (Ioi 0) ∧
      ∫ q in Ioi (0 : ℝ), q ^ j * Real.exp (-(a * q)) = j.factorial / a ^ (j + 1) := by
  have h : ∫ q in Ioi (0 : ℝ), q ^ j * Real.exp (-(a * q)) = j.factorial / a ^ (j + 1) := by
    have h1 := Real.integral_rpow_mul_exp_neg_mul_Ioi (a := j + 1) (r := a) (by positivity) ha
    rw [Real.Gamma_nat_eq_factorial, add_sub_cancel_right] at h1
    simp only [Real.rpow_natCast] at h1
    rw [h1, ← Nat.cast_succ, Real.rpow_natCast, one_div, inv_pow, Nat.succ_eq_add_one]
    ring
  refine ⟨?_, h⟩
  by_contra hn
  rw [integral_undef hn] at h
  have : (0 : ℝ) < j.factorial / a ^ (j + 1) := by positivity
  linarith

/-- The reflection of a film, `v = exp(-2 q t)`. -/
noncomputable def refl (r ρ : ℂ) (v : ℝ) : ℂ := (r + ρ * v) / (1 + r * ρ * v)

variable {r ρ : ℂ}

theorem den_ne (h : ‖r * ρ‖ < 1) {v : ℝ} (h0 : 0 ≤ v) (h1 : v ≤ 1) :
    1 - ‖r * ρ‖ ≤ ‖1 + r * ρ * v‖ ∧ 1 + r * ρ * v ≠ 0 := by
  have a : ‖r * ρ * v‖ ≤ ‖r * ρ‖ := by
    rw [norm_mul, Complex.norm_real, Real.norm_of_nonneg h0]
    exact mul_le_of_le_one_right (norm_nonneg _) h1
  have b := norm_sub_norm_le (1 : ℂ) (-(r * ρ * v))
  rw [norm_one, norm_neg, sub_neg_eq_add] at b
  have c : 1 - ‖r * ρ‖ ≤ ‖1 + r * ρ * v‖ := by linarith
  exact ⟨c, norm_pos_iff.1 (by linarith)⟩

theorem refl_sub (h : ‖r * ρ‖ < 1) {v w : ℝ} (h0 : 0 ≤ v) (h1 : v ≤ 1) (w0 : 0 ≤ w) (w1 : w ≤ 1) :
    ‖refl r ρ v - refl r ρ w‖ ≤ ‖(1 - r ^ 2) * ρ‖ / (1 - ‖r * ρ‖) ^ 2 * |v - w| := by
  obtain ⟨a, a0⟩ := den_ne h h0 h1
  obtain ⟨b, b0⟩ := den_ne h w0 w1
  have e : refl r ρ v - refl r ρ w = (1 - r ^ 2) * ρ * ((v - w : ℝ) : ℂ) / ((1 + r * ρ * v) * (1 + r * ρ * w)) := by
    unfold refl
    rw [div_sub_div _ _ a0 b0]
    congr 1
    push_cast
    ring
  have hp : 0 < 1 - ‖r * ρ‖ := by linarith
  rw [e, norm_div, norm_mul, norm_mul (1 + r * ρ * v), Complex.norm_real, Real.norm_eq_abs, div_mul_eq_mul_div]
  refine div_le_div_of_nonneg_left (by positivity) (by positivity) ?_
  rw [sq]
  exact mul_le_mul a b hp.le (norm_nonneg _)

theorem refl_series (h : ‖r * ρ‖ < 1) {v : ℝ} (h0 : 0 ≤ v) (h1 : v ≤ 1) :
    HasSum (fun k => imageCharge r ρ k * (v : ℂ) ^ (k + 1)) (refl r ρ v - r) := by
  have hlt : ‖-(r * ρ * v)‖ < 1 := by
    rw [norm_neg, norm_mul, Complex.norm_real, Real.norm_of_nonneg h0]
    exact (mul_le_of_le_one_right (norm_nonneg _) h1).trans_lt h
  have hs := (hasSum_geometric_of_norm_lt_one hlt).mul_left ((1 - r ^ 2) * ρ * v)
  have e : (1 - r ^ 2) * ρ * v * (1 - -(r * ρ * v))⁻¹ = refl r ρ v - r := by
    have := (den_ne h h0 h1).2
    unfold refl
    rw [sub_neg_eq_add, eq_sub_iff_add_eq, eq_div_iff this]
    field_simp
    ring
  rw [e] at hs
  refine hs.congr_fun ?_
  intro k
  unfold imageCharge
  ring

theorem refl_continuousOn (h : ‖r * ρ‖ < 1) : ContinuousOn (refl r ρ) (Icc 0 1) := by
  unfold refl
  refine ContinuousOn.div (by fun_prop) (by fun_prop) fun v hv => (den_ne h hv.1 hv.2).2

theorem refl_bound (h : ‖r * ρ‖ < 1) {v : ℝ} (h0 : 0 ≤ v) (h1 : v ≤ 1) :
    ‖refl r ρ v‖ ≤ ‖r‖ + ‖(1 - r ^ 2) * ρ‖ / (1 - ‖r * ρ‖) ^ 2 := by
  have a := refl_sub h h0 h1 le_rfl zero_le_one
  have e : refl r ρ 0 = r := by simp [refl]
  rw [e, sub_zero, abs_of_nonneg h0] at a
  have b := norm_add_le (refl r ρ v - r) r
  rw [sub_add_cancel] at b
  have : 0 ≤ ‖(1 - r ^ 2) * ρ‖ / (1 - ‖r * ρ‖) ^ 2 := by positivity
  nlinarith [mul_le_of_le_one_right this h1]

/-- Integrals with a reflection coefficient that is a function of `v(q)` between 0 and 1. -/
theorem integrable_refl (h : ‖r * ρ‖ < 1) (j : ℕ) {z : ℝ} (hz : 0 < z) {v : ℝ → ℝ} (hv : ContinuousOn v (Ici 0))
    (h01 : ∀ q, 0 ≤ q → v q ∈ Icc (0 : ℝ) 1) :
    IntegrableOn (fun q : ℝ => ((q ^ j * Real.exp (-(2 * z * q)) : ℝ) : ℂ) * refl r ρ (v q)) (Ioi 0) := by
  refine Integrable.mono' ((integral_moment j (by positivity : 0 < 2 * z)).1.const_mul
    (‖r‖ + ‖(1 - r ^ 2) * ρ‖ / (1 - ‖r * ρ‖) ^ 2)) ?_ ?_
  · refine ContinuousOn.aestronglyMeasurable ?_ measurableSet_Ioi
    refine ContinuousOn.mul (Continuous.continuousOn (by fun_prop)) ?_
    exact ((refl_continuousOn h).comp hv h01).mono Ioi_subset_Ici_self
  · refine (ae_restrict_mem measurableSet_Ioi).mono fun q hq => ?_
    have hq : 0 < q := hq
    obtain ⟨a, b⟩ := h01 q hq.le
    rw [norm_mul, Complex.norm_real, Real.norm_of_nonneg (by positivity), mul_comm]
    exact mul_le_mul_of_nonneg_right (refl_bound h a b) (by positivity)

/-- Two reflection coefficients that are close give close integrals. -/
theorem reflected_close (h : ‖r * ρ‖ < 1) (j : ℕ) {z δ : ℝ} (hz : 0 < z) {v w : ℝ → ℝ} (hv : ContinuousOn v (Ici 0))
    (hw : ContinuousOn w (Ici 0)) (v01 : ∀ q, 0 ≤ q → v q ∈ Icc (0 : ℝ) 1) (w01 : ∀ q, 0 ≤ q → w q ∈ Icc (0 : ℝ) 1)
    (hd : ∀ q, 0 ≤ q → |v q - w q| ≤ δ) :
    ‖reflected j (fun q => refl r ρ (v q)) z - reflected j (fun q => refl r ρ (w q)) z‖ ≤
      ‖(1 - r ^ 2) * ρ‖ / (1 - ‖r * ρ‖) ^ 2 * δ * (j.factorial / (2 * z) ^ (j + 1)) := by
  unfold reflected
  rw [← integral_sub (integrable_refl h j hz hv v01) (integrable_refl h j hz hw w01)]
  obtain ⟨i1, i2⟩ := integral_moment j (by positivity : 0 < 2 * z)
  rw [← i2, ← integral_const_mul]
  refine norm_integral_le_of_norm_le (i1.const_mul _) ((ae_restrict_mem measurableSet_Ioi).mono fun q hq => ?_)
  have hq : 0 < q := hq
  rw [← mul_sub, norm_mul, Complex.norm_real, Real.norm_of_nonneg (by positivity), mul_comm]
  refine mul_le_mul_of_nonneg_right ?_ (by positivity)
  refine (refl_sub h (v01 q hq.le).1 (v01 q hq.le).2 (w01 q hq.le).1 (w01 q hq.le).2).trans ?_
  exact mul_le_mul_of_nonneg_left (hd q hq.le) (by positivity)

/-- The exact film. -/
theorem reflected_series (h : ‖r * ρ‖ < 1) (j : ℕ) {z t : ℝ} (hz : 0 < z) (ht : 0 ≤ t) :
    HasSum (fun k : ℕ => imageCharge r ρ k * (j.factorial / (2 * z + 2 * (k + 1) * t) ^ (j + 1)))
      (reflected j (fun q => refl r ρ (Real.exp (-(2 * t * q)))) z - r * (j.factorial / (2 * z) ^ (j + 1))) := by
  have h2z : 0 < 2 * z := by positivity
  set a : ℕ → ℝ := fun k => 2 * z + 2 * (k + 1) * t with ha
  have ha0 : ∀ k, 2 * z ≤ a k := fun k => by
    have : (0 : ℝ) ≤ 2 * (k + 1) * t := by positivity
    simp only [ha]
    linarith
  set F : ℕ → ℝ → ℂ := fun k q => imageCharge r ρ k * ((q ^ j * Real.exp (-(a k * q)) : ℝ) : ℂ) with hF
  have hint : ∀ k, IntegrableOn (F k) (Ioi 0) := fun k =>
    ((integral_moment j (h2z.trans_le (ha0 k))).1.ofReal).const_mul _
  have hval : ∀ k, ∫ q in Ioi (0 : ℝ), F k q = imageCharge r ρ k * (j.factorial / (2 * z + 2 * (k + 1) * t) ^ (j + 1)) := by
    intro k
    simp only [hF]
    rw [integral_const_mul, integral_complex_ofReal, (integral_moment j (h2z.trans_le (ha0 k))).2]
    push_cast [ha]
    rfl
  have hnorm : ∀ k, ∫ q in Ioi (0 : ℝ), ‖F k q‖ = ‖imageCharge r ρ k‖ * (j.factorial / a k ^ (j + 1)) := by
    intro k
    rw [← (integral_moment j (h2z.trans_le (ha0 k))).2, ← integral_const_mul]
    refine setIntegral_congr_fun measurableSet_Ioi fun q hq => ?_
    have hq : 0 < q := hq
    simp only [hF]
    rw [norm_mul, Complex.norm_real, Real.norm_of_nonneg (by positivity)]
  have hsum : Summable fun k => ∫ q in Ioi (0 : ℝ), ‖F k q‖ := by
    have hg : Summable fun k : ℕ => ‖(1 - r ^ 2) * ρ‖ * (j.factorial / (2 * z) ^ (j + 1)) * ‖r * ρ‖ ^ k :=
      (summable_geometric_of_lt_one (norm_nonneg _) h).mul_left _
    refine hg.of_nonneg_of_le (fun k => integral_nonneg fun q => norm_nonneg _) fun k => ?_
    rw [hnorm, imageCharge, norm_mul, norm_pow, norm_neg]
    have h1 : (j.factorial : ℝ) / a k ^ (j + 1) ≤ j.factorial / (2 * z) ^ (j + 1) :=
      div_le_div_of_nonneg_left (by positivity) (by positivity) (pow_le_pow_left₀ h2z.le (ha0 k) _)
    have := mul_le_mul_of_nonneg_left h1 (by positivity : 0 ≤ ‖(1 - r ^ 2) * ρ‖ * ‖r * ρ‖ ^ k)
    linarith
  have key := hasSum_integral_of_summable_integral_norm hint hsum
  simp only [hval] at key
  convert! key using 1
  have hlim : ∀ q ∈ Ioi (0 : ℝ), ∑' k, F k q =
      ((q ^ j * Real.exp (-(2 * z * q)) : ℝ) : ℂ) * refl r ρ (Real.exp (-(2 * t * q))) -
        r * ((q ^ j * Real.exp (-(2 * z * q)) : ℝ) : ℂ) := fun q hq => by
    have hq : 0 < q := hq
    have hs := (refl_series h (Real.exp_pos (-(2 * t * q))).le (Real.exp_le_one_iff.2 (by
      have : 0 ≤ 2 * t * q := by positivity
      linarith))).mul_left ((q ^ j * Real.exp (-(2 * z * q)) : ℝ) : ℂ)
    rw [show ((q ^ j * Real.exp (-(2 * z * q)) : ℝ) : ℂ) * refl r ρ (Real.exp (-(2 * t * q))) -
        r * ((q ^ j * Real.exp (-(2 * z * q)) : ℝ) : ℂ) =
        ((q ^ j * Real.exp (-(2 * z * q)) : ℝ) : ℂ) * (refl r ρ (Real.exp (-(2 * t * q))) - r) by ring, ← hs.tsum_eq]
    congr 1
    funext k
    have e : Real.exp (-(a k * q)) = Real.exp (-(2 * z * q)) * Real.exp (-(2 * t * q)) ^ (k + 1) := by
      rw [← Real.exp_nat_mul, ← Real.exp_add]
      congr 1
      simp only [ha]
      push_cast
      ring
    simp only [hF]
    rw [e]
    push_cast
    ring
  rw [setIntegral_congr_fun measurableSet_Ioi hlim]
  obtain ⟨i1, i2⟩ := integral_moment j h2z
  have hv : IntegrableOn (fun q : ℝ => ((q ^ j * Real.exp (-(2 * z * q)) : ℝ) : ℂ) *
      refl r ρ (Real.exp (-(2 * t * q)))) (Ioi 0) :=
    integrable_refl h j hz (v := fun q => Real.exp (-(2 * t * q))) (Continuous.continuousOn (by fun_prop)) fun q hq =>
      ⟨(Real.exp_pos _).le, Real.exp_le_one_iff.2 (by
        have : 0 ≤ 2 * t * q := by positivity
        linarith)⟩
  have hr : IntegrableOn (fun q : ℝ => r * ((q ^ j * Real.exp (-(2 * z * q)) : ℝ) : ℂ)) (Ioi 0) := i1.ofReal.const_mul r
  rw [integral_sub hv hr, integral_const_mul, integral_complex_ofReal, i2]
  unfold reflected
  push_cast
  rfl

/-- What clipping the exponent changes. -/
theorem clip_close {t : ℝ} (ht : 0 ≤ t) {q : ℝ} (hq : 0 ≤ q) :
    |Real.exp (-clipped (q * t)) ^ 2 - Real.exp (-(2 * t * q))| ≤ Real.exp (-(2 * maxExpArg)) := by
  have h0 := mul_nonneg hq ht
  rw [clipped_of_nonneg h0, ← Real.exp_nat_mul]
  push_cast
  rcases le_total (q * t) maxExpArg with h | h
  · rw [min_eq_left h, show 2 * -(q * t) = -(2 * t * q) by ring, sub_self, abs_zero]
    exact (Real.exp_pos _).le
  · rw [min_eq_right h, show 2 * -maxExpArg = -(2 * maxExpArg) by ring]
    have h1 : Real.exp (-(2 * t * q)) ≤ Real.exp (-(2 * maxExpArg)) := Real.exp_le_exp.2 (by linarith)
    rw [abs_of_nonneg (by linarith)]
    linarith [Real.exp_pos (-(2 * t * q))]

end Film

end Snompy
