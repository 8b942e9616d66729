import Verif.Lemmas.ImageSeries

/-!
# C111: a film is a series of image charges

A sample of one layer on a substrate, with the reflection coefficients `r` and `ρ` of the two faces of the layer and
`|r ρ| < 1`.  The quadratures over momentum tend to the potential and the field of the images that the textbook gives.
-/

namespace Snompy.Props

open Snompy Filter Topology Set

/-- The largest error that clipping the exponent can make, relative to the unit charge. -/
noncomputable def clipError (r ρ : ℂ) : ℝ := ‖(1 - r ^ 2) * ρ‖ / (1 - ‖r * ρ‖) ^ 2 * (1 / 2) ^ 2046

theorem exp_maxExpArg_le : Real.exp (-(2 * maxExpArg)) ≤ (1 / 2) ^ 2046 := by
  have e : Real.exp maxExpArg = (2 - (1 / 2) ^ 52) * 2 ^ 1023 := Real.exp_log (by norm_num)
  have h : (2 : ℝ) ^ 1023 ≤ Real.exp maxExpArg := by
    rw [e]
    exact le_mul_of_one_le_left (by positivity) (by norm_num)
  rw [Real.exp_neg, two_mul, Real.exp_add, one_div, inv_pow]
  refine inv_anti₀ (by positivity) ?_
  calc (2 : ℝ) ^ 2046 = 2 ^ 1023 * 2 ^ 1023 := by rw [← pow_add]
    _ ≤ _ := mul_le_mul h h (by positivity) (by positivity)

/-- The reflection coefficient of the film at every momentum. -/
theorem one_film_refl (e f s : ℂ) (t : ℝ) (nu : Option ℝ) (hf : f ≠ 0) (hs : s ≠ 0) (hfe : f + e ≠ 0) (hsf : s + f ≠ 0)
    (h : ‖(f - e) / (f + e) * ((s - f) / (s + f))‖ < 1) (ht : 0 ≤ t) (q : ℝ) (hq : 0 ≤ q) :
    (layered e [(f, t)] s nu).reflCoefQs (FP.num q) = .ok (FP.num
      (Film.refl ((f - e) / (f + e)) ((s - f) / (s + f)) (Real.exp (-clipped (q * t)) ^ 2))) := by
  have h1 : Real.exp (-clipped (q * t)) ≤ 1 := Real.exp_le_one_iff.2 (by linarith [clipped_nonneg (mul_nonneg hq ht)])
  have hd := (Film.den_ne h (by positivity) (pow_le_one₀ (n := 2) (Real.exp_pos (-clipped (q * t))).le h1)).2
  rw [Complex.ofReal_pow] at hd
  refine (C11_recursion e [(f, t)] s nu q (by simpa using hf) hs _
    ((1 + (f - e) / (f + e)) * (1 + (s - f) / (s + f)) * (Real.exp (-clipped (q * t)) : ℂ) /
      (1 + (f - e) / (f + e) * ((s - f) / (s + f)) * (Real.exp (-clipped (q * t)) : ℂ) ^ 2)) ?_).1
  simp only [stackCoefs, if_neg hsf, hfe, hd, or_self, if_false, Film.refl, Complex.ofReal_pow]

/-- The clipped film is close to the images. -/
theorem film_close {r ρ : ℂ} (h : ‖r * ρ‖ < 1) {t z : ℝ} (ht : 0 ≤ t) (hz : 0 < z) (j : ℕ) :
    ‖reflected j (fun q => Film.refl r ρ (Real.exp (-clipped (q * t)) ^ 2)) z -
        (r * (j.factorial / (2 * z) ^ (j + 1)) +
          ∑' k : ℕ, imageCharge r ρ k * (j.factorial / (2 * z + 2 * (k + 1) * t) ^ (j + 1)))‖ ≤
      clipError r ρ * (j.factorial / (2 * z) ^ (j + 1)) := by
  rw [(Film.reflected_series h j hz ht).tsum_eq, add_sub_cancel]
  have k1 : ∀ q : ℝ, 0 ≤ q → Real.exp (-clipped (q * t)) ≤ 1 := fun q hq =>
    Real.exp_le_one_iff.2 (by linarith [clipped_nonneg (mul_nonneg hq ht)])
  refine (Film.reflected_close h j hz (v := fun q => Real.exp (-clipped (q * t)) ^ 2)
    (w := fun q => Real.exp (-(2 * t * q))) (δ := (1 / 2) ^ 2046) ?_ ?_ ?_ ?_ ?_).trans_eq (by rfl)
  · have := continuous_clipped
    exact Continuous.continuousOn (by fun_prop)
  · exact Continuous.continuousOn (by fun_prop)
  · exact fun q hq => ⟨by positivity, pow_le_one₀ (Real.exp_pos _).le (k1 q hq)⟩
  · exact fun q hq => ⟨by positivity, Real.exp_le_one_iff.2 (by
      have : 0 ≤ 2 * t * q := by positivity
      linarith)⟩
  · exact fun q hq => (Film.clip_close ht hq).trans exp_maxExpArg_le

/-- The potential and the field above a film are those of the series of images, up to the clipped exponent. -/
theorem C111_surf (env : Env) (hr : env.Rules) (e f s : ℂ) (t : ℝ) (nu : Option ℝ) (hf : f ≠ 0) (hs : s ≠ 0)
    (hfe : f + e ≠ 0) (hsf : s + f ≠ 0) (r ρ : ℂ) (hr1 : r = (f - e) / (f + e)) (hρ : ρ = (s - f) / (s + f))
    (h : ‖r * ρ‖ < 1) (ht : 0 ≤ t) (z : ℝ) (hz : 0 < z) :
    ∃ (phi E : ℕ → ℂ) (φ F : ℂ), (∀ n, n ≠ 0 → (layered e [(f, t)] s nu).surfPotAndField env (FP.num z) (some n) =
        .ok (FP.num (phi n), FP.num (E n))) ∧ Tendsto phi atTop (𝓝 φ) ∧ Tendsto E atTop (𝓝 F) ∧
      ‖φ - imagePot r ρ t z‖ ≤ clipError r ρ / (2 * z) ∧ ‖F - imageField r ρ t z‖ ≤ clipError r ρ / (2 * z) ^ 2 := by
  subst hr1 hρ
  obtain ⟨phi, E, h0, h1, h2⟩ := C63_surf env hr e [(f, t)] s nu _ (one_film_refl e f s t nu hf hs hfe hsf h ht) z hz
  refine ⟨phi, E, _, _, h0, h1, h2, ?_, ?_⟩
  · simpa [imagePot, div_eq_mul_inv] using film_close h ht hz 0
  · simpa [imageField, div_eq_mul_inv] using film_close h ht hz 1

/-- The series of the potential and of the field converge absolutely. -/
theorem C111_summable (r ρ : ℂ) (h : ‖r * ρ‖ < 1) (t z : ℝ) (ht : 0 ≤ t) (hz : 0 < z) :
    Summable (fun k : ℕ => ‖imageCharge r ρ k / (2 * z + 2 * (k + 1) * t)‖) ∧
      Summable (fun k : ℕ => ‖imageCharge r ρ k / (2 * z + 2 * (k + 1) * t) ^ 2‖) := by
  have a := (Film.reflected_series h 0 hz ht).summable.norm
  have b := (Film.reflected_series h 1 hz ht).summable.norm
  constructor
  · simpa [div_eq_mul_inv] using a
  · simpa [div_eq_mul_inv] using b

/-- The averaged reflection coefficient of the charge average: every image counts by the square of the ratio of the
distances. -/
theorem C111_average (env : Env) (hr : env.Rules) (e f s : ℂ) (t : ℝ) (nu : Option ℝ) (hf : f ≠ 0) (hs : s ≠ 0)
    (hfe : f + e ≠ 0) (hsf : s + f ≠ 0) (r ρ : ℂ) (hr1 : r = (f - e) / (f + e)) (hρ : ρ = (s - f) / (s + f))
    (h : ‖r * ρ‖ < 1) (ht : 0 ≤ t) (z : ℝ) (hz : 0 < z) :
    ∃ β : ℂ, EvalTendsto (fun n : ℕ => (layered e [(f, t)] s nu).reflCoefQsAboveSurf env (FP.num z) (some n)) atTop β ∧
      ‖β - (r + ∑' k : ℕ, imageCharge r ρ k * (z / (z + (k + 1) * t)) ^ 2)‖ ≤ clipError r ρ := by
  subst hr1 hρ
  refine ⟨_, C63_average env hr e [(f, t)] s nu _ (one_film_refl e f s t nu hf hs hfe hsf h ht) z hz, ?_⟩
  have hc := film_close h ht hz 1
  have hzc : (z : ℂ) ≠ 0 := by exact_mod_cast hz.ne'
  have e1 : ∀ (A r : ℂ) (g : ℕ → ℂ), 4 * (z : ℂ) ^ 2 * A - (r + ∑' k : ℕ, g k * (z / (z + (k + 1) * t)) ^ 2) =
      4 * (z : ℂ) ^ 2 * (A - (r * ((1 : ℕ).factorial / (2 * z) ^ (1 + 1)) +
        ∑' k : ℕ, g k * ((1 : ℕ).factorial / (2 * z + 2 * (k + 1) * t) ^ (1 + 1)))) := by
    intro A r g
    rw [mul_sub, mul_add, ← tsum_mul_left]
    congr 2
    · rw [Nat.factorial_one]
      field_simp
      push_cast
      ring
    · congr 1
      funext k
      rw [show (2 * (z : ℂ) + 2 * (k + 1) * t) = 2 * (z + (k + 1) * t) by ring, Nat.factorial_one, mul_pow, div_pow,
        Nat.cast_one, one_div, mul_inv, div_eq_mul_inv]
      ring
  rw [e1, norm_mul, norm_mul, norm_pow, Complex.norm_real, Real.norm_of_nonneg hz.le, Complex.norm_ofNat]
  refine (mul_le_mul_of_nonneg_left hc (by positivity)).trans_eq ?_
  rw [Nat.factorial_one]
  field_simp
  push_cast
  ring

/-- All images together carry the charge that the substrate alone would have. -/
theorem C111_charge (e f s : ℂ) (hfe : f + e ≠ 0) (hsf : s + f ≠ 0) (hse : s + e ≠ 0) (r ρ : ℂ)
    (hr1 : r = (f - e) / (f + e)) (hρ : ρ = (s - f) / (s + f)) (h : ‖r * ρ‖ < 1) :
    HasSum (imageCharge r ρ) ((s - e) / (s + e) - r) := by
  subst hr1 hρ
  have a := Film.refl_series h zero_le_one le_rfl
  simp only [Complex.ofReal_one, one_pow, mul_one] at a
  convert! a using 1
  have d := (Film.den_ne h zero_le_one le_rfl).2
  simp only [Complex.ofReal_one, mul_one] at d
  congr 1
  unfold Film.refl
  simp only [Complex.ofReal_one, mul_one]
  rw [div_eq_div_iff hse d]
  field_simp
  ring

/-- A film of permittivity 3 on a substrate of permittivity 2. -/
example (d : Defaults) (t z : ℝ) (ht : 0 ≤ t) (hz : 0 < z) :
    ∃ β : ℂ, EvalTendsto (fun n : ℕ => (layered 1 [(3, t)] 2).reflCoefQsAboveSurf (exactRules d) (FP.num z) (some n))
        atTop β ∧
      ‖β - (1 / 2 + ∑' k : ℕ, imageCharge (1 / 2) (-1 / 5) k * (z / (z + (k + 1) * t)) ^ 2)‖ ≤
        clipError (1 / 2) (-1 / 5) :=
  C111_average (exactRules d) (exactRules_ok d) 1 3 2 t none (by norm_num) (by norm_num) (by norm_num) (by norm_num)
    _ _ (by norm_num) (by norm_num) (by norm_num) ht z hz

example : HasSum (imageCharge (1 / 2) (-1 / 5)) ((2 - 1) / (2 + 1) - 1 / 2) :=
  C111_charge 1 3 2 (by norm_num) (by norm_num) (by norm_num) _ _ (by norm_num) (by norm_num) (by norm_num)

end Snompy.Props
