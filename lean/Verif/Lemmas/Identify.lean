import Verif.Props.Harmonics

/-!
# Differences of demodulated signals
-/

namespace Snompy

open Finset

/-- A demodulated function is at most as large as the mean of a bound. -/
theorem demodSum_le {F : ℝ → ℂ} {p : ℝ → ℝ} {x0 A K : ℝ} (hA : 0 ≤ A)
    (h : ∀ x, x0 - A ≤ x → x ≤ x0 + A → ‖F x‖ ≤ K * p x) (n : ℝ) (N : ℕ) :
    ‖demodSum F x0 A n N‖ ≤ K * (demodSum (fun x => (p x : ℂ)) x0 A 0 N).re := by
  have hw : ∀ θ, ‖wave F x0 A n θ‖ ≤ K * p (x0 + Real.cos θ * A) := fun θ => by
    unfold wave
    rw [norm_mul, show (-Complex.I * n * (θ : ℂ)) = ((-n * θ : ℝ) : ℂ) * Complex.I by push_cast; ring,
      Complex.norm_exp_ofReal_mul_I, mul_one]
    exact h _ (by nlinarith [Real.neg_one_le_cos θ]) (by nlinarith [Real.cos_le_one θ])
  have e : demodSum (fun x => (p x : ℂ)) x0 A 0 N =
      (((∑ k ∈ range N, (p (x0 + Real.cos (phase N (k + 1)) * A) + p (x0 + Real.cos (phase N k) * A)) / 2) / N : ℝ) : ℂ) := by
    unfold demodSum wave
    push_cast
    simp
  rw [e, Complex.ofReal_re, ← mul_div_assoc, mul_sum]
  unfold demodSum
  rw [norm_div, Complex.norm_natCast]
  refine div_le_div_of_nonneg_right ((norm_sum_le _ _).trans (sum_le_sum fun k _ => ?_)) (Nat.cast_nonneg N)
  rw [norm_div, Complex.norm_ofNat]
  have := (norm_add_le (wave F x0 A n (phase N (k + 1))) (wave F x0 A n (phase N k))).trans (add_le_add (hw _) (hw _))
  rw [← mul_div_assoc, mul_add]
  exact div_le_div_of_nonneg_right this (by norm_num)

theorem demodSum_sub (g g' : ℝ → ℂ) (x0 amp n : ℝ) (N : ℕ) :
    demodSum (fun x => g x - g' x) x0 amp n N = demodSum g x0 amp n N - demodSum g' x0 amp n N := by
  unfold demodSum wave
  rw [← sub_div, ← sum_sub_distrib]
  congr 1
  exact sum_congr rfl fun k _ => by ring

theorem demodSum_smul (c : ℂ) (g : ℝ → ℂ) (x0 amp n : ℝ) (N : ℕ) :
    demodSum (fun x => c * g x) x0 amp n N = c * demodSum g x0 amp n N := by
  unfold demodSum wave
  rw [← mul_div_assoc, mul_sum]
  congr 1
  exact sum_congr rfl fun k _ => by ring

/-- Two resonances differ from none by at most two equal real ones. -/
theorem two_res {a b : ℂ} {t : ℝ} (ha : ‖a‖ ≤ t) (hb : ‖b‖ ≤ t) (ht : t < 1) :
    ‖(1 - a)⁻¹ * (1 - b)⁻¹ - 1‖ ≤ ((1 - t) ^ 2)⁻¹ - 1 := by
  have h0 : 0 ≤ t := (norm_nonneg a).trans ha
  have key : ∀ c : ℂ, ‖c‖ ≤ t → 1 - c ≠ 0 ∧ ‖(1 - c)⁻¹ - 1‖ ≤ (1 - t)⁻¹ - 1 := fun c hc => by
    have h1 : 1 - c ≠ 0 := sub_ne_zero.2 fun e => by rw [← e, norm_one] at hc; linarith
    refine ⟨h1, ?_⟩
    have e : (1 - c)⁻¹ - 1 = c / (1 - c) := by field_simp; ring
    have e' : (1 - t)⁻¹ - 1 = t / (1 - t) := by
      have : 1 - t ≠ 0 := by linarith
      field_simp
      ring
    rw [e, e', norm_div]
    have h2 : 1 - t ≤ ‖1 - c‖ := by
      have := norm_sub_norm_le (1 : ℂ) c
      rw [norm_one] at this
      linarith
    exact div_le_div₀ h0 hc (by linarith) h2
  obtain ⟨-, ka⟩ := key a ha
  obtain ⟨-, kb⟩ := key b hb
  have e : (1 - a)⁻¹ * (1 - b)⁻¹ - 1 =
      ((1 - a)⁻¹ - 1) + ((1 - b)⁻¹ - 1) + ((1 - a)⁻¹ - 1) * ((1 - b)⁻¹ - 1) := by ring
  have e' : ((1 - t) ^ 2)⁻¹ - 1 =
      ((1 - t)⁻¹ - 1) + ((1 - t)⁻¹ - 1) + ((1 - t)⁻¹ - 1) * ((1 - t)⁻¹ - 1) := by rw [← inv_pow]; ring
  rw [e, e']
  refine (norm_add_le _ _).trans (add_le_add ((norm_add_le _ _).trans (add_le_add ka kb)) ?_)
  rw [norm_mul]
  exact mul_le_mul ka kb (norm_nonneg _) ((norm_nonneg _).trans ka)

/-- The difference of two signals is close to what the linear term says. -/
theorem signal_diff {f0 f1 : ℝ → ℂ} {p : ℝ → ℝ} {x0 A t : ℝ} (hA : 0 ≤ A) {β₁ β₂ : ℂ} (ht : t < 1)
    (h1 : ∀ x, x0 - A ≤ x → x ≤ x0 + A → ‖β₁ * f1 x‖ ≤ t) (h2 : ∀ x, x0 - A ≤ x → x ≤ x0 + A → ‖β₂ * f1 x‖ ≤ t)
    (hp : ∀ x, x0 - A ≤ x → x ≤ x0 + A → ‖f0 x‖ ≤ p x) (n : ℝ) (N : ℕ) :
    ‖demodSum (fun x => β₁ * f0 x * (1 - β₁ * f1 x)⁻¹) x0 A n N - demodSum (fun x => β₂ * f0 x * (1 - β₂ * f1 x)⁻¹) x0 A n N -
      (β₁ - β₂) * demodSum f0 x0 A n N‖ ≤
    ‖β₁ - β₂‖ * (((1 - t) ^ 2)⁻¹ - 1) * (demodSum (fun x => (p x : ℂ)) x0 A 0 N).re := by
  rw [← demodSum_sub, ← demodSum_smul, ← demodSum_sub]
  refine demodSum_le hA (fun x hx hx' => ?_) n N
  have n1 : 1 - β₁ * f1 x ≠ 0 := sub_ne_zero.2 fun e => by have := h1 x hx hx'; rw [← e, norm_one] at this; linarith
  have n2 : 1 - β₂ * f1 x ≠ 0 := sub_ne_zero.2 fun e => by have := h2 x hx hx'; rw [← e, norm_one] at this; linarith
  have e : β₁ * f0 x * (1 - β₁ * f1 x)⁻¹ - β₂ * f0 x * (1 - β₂ * f1 x)⁻¹ - (β₁ - β₂) * f0 x =
      (β₁ - β₂) * (((1 - β₁ * f1 x)⁻¹ * (1 - β₂ * f1 x)⁻¹ - 1) * f0 x) := by
    have k : β₁ * (1 - β₂ * f1 x) - β₂ * (1 - β₁ * f1 x) = β₁ - β₂ := by ring
    generalize 1 - β₁ * f1 x = D₁ at *
    generalize 1 - β₂ * f1 x = D₂ at *
    field_simp
    linear_combination f0 x * k
  rw [e, norm_mul, norm_mul, mul_assoc]
  have := two_res (h1 x hx hx') (h2 x hx hx') ht
  exact mul_le_mul_of_nonneg_left (mul_le_mul this (hp x hx hx') (norm_nonneg _) ((norm_nonneg _).trans this)) (norm_nonneg _)

/-! ## Cubes -/

theorem mode_pow (k : ℕ) (θ : ℝ) : mode (k : ℤ) θ = mode 1 θ ^ k ∧ mode (-(k : ℤ)) θ = mode (-1) θ ^ k := by
  unfold mode
  rw [← Complex.exp_nat_mul, ← Complex.exp_nat_mul]
  push_cast
  constructor <;> congr 1 <;> ring

theorem height_cube (c A : ℝ) : height c A ^ 3 = ((c ^ 3 + 6 * c * (A / 2) ^ 2 : ℝ) : ℂ) • mode 0 +
    ((3 * c ^ 2 * (A / 2) + 3 * (A / 2) ^ 3 : ℝ) : ℂ) • (mode 1 + mode (-1)) +
    ((3 * c * (A / 2) ^ 2 : ℝ) : ℂ) • (mode 2 + mode (-2)) + (((A / 2) ^ 3 : ℝ) : ℂ) • (mode 3 + mode (-3)) := by
  rw [height_eq]
  funext θ
  have e2 := mode_pow 2 θ
  have e3 := mode_pow 3 θ
  have e1 : mode 1 θ * mode (-1) θ = 1 := by
    rw [← Pi.mul_apply, mode_mul, show (1 : ℤ) + -1 = 0 from rfl, mode_zero, Pi.one_apply]
  simp only [Nat.cast_ofNat] at e2 e3
  simp only [Pi.pow_apply, Pi.add_apply, Pi.smul_apply, smul_eq_mul, e2, e3, mode_zero, Pi.one_apply]
  push_cast
  generalize mode 1 θ = E at e1
  generalize mode (-1) θ = E' at e1
  linear_combination (6 * c * (A / 2 : ℂ) ^ 2 + 3 * (A / 2 : ℂ) ^ 3 * (E + E')) * e1

/-- The harmonics 1, 2 and 3 of a cube are positive. -/
theorem demodSum_cube (r x0 : ℝ) {A : ℝ} (hA : 0 < A) (hc : 0 < r + x0) {n N : ℕ} (h1 : 1 ≤ n) (h3 : n ≤ 3) (hN : n + 3 < N) :
    ∃ d : ℝ, 0 < d ∧ demodSum (fun x => (((r + x) ^ 3 : ℝ) : ℂ)) x0 A n N = d := by
  have hN0 : N ≠ 0 := by omega
  have e : (fun θ => (((r + (x0 + Real.cos θ * A)) ^ 3 : ℝ) : ℂ)) = height (r + x0) A ^ 3 := by
    funext θ
    simp only [height, Pi.pow_apply]
    push_cast
    ring
  have hz : ∀ k : ℤ, k ≠ n → -3 ≤ k → k ≤ 3 → meanN N (mode (-(n : ℤ) + k)) = 0 := fun k hk h h' =>
    meanN_mode hN0 fun hd => by
      have := Nat.le_of_dvd (by omega) (Int.natAbs_dvd_natAbs.2 hd)
      rw [Int.natAbs_natCast] at this
      omega
  have hone : meanN N (mode (-(n : ℤ) + n)) = 1 := by rw [neg_add_cancel, meanN_one hN0]
  have key := demodSum_mean (fun x => (((r + x) ^ 3 : ℝ) : ℂ)) x0 A n hN0
  rw [Int.cast_natCast] at key
  rw [key, e, height_cube]
  simp only [mul_add, mul_smul_comm, meanN_add, meanN_smul, mode_mul]
  rcases (by omega : n = 1 ∨ n = 2 ∨ n = 3) with rfl | rfl | rfl
  · refine ⟨3 * (r + x0) ^ 2 * (A / 2) + 3 * (A / 2) ^ 3, by positivity, ?_⟩
    rw [hz 0 (by decide) (by decide) (by decide), hz (-1) (by decide) (by decide) (by decide), hz 2 (by decide) (by decide) (by decide),
      hz (-2) (by decide) (by decide) (by decide), hz 3 (by decide) (by decide) (by decide), hz (-3) (by decide) (by decide) (by decide)]
    have : meanN N (mode (-((1 : ℕ) : ℤ) + 1)) = 1 := hone
    rw [this]
    ring
  · refine ⟨3 * (r + x0) * (A / 2) ^ 2, by positivity, ?_⟩
    rw [hz 0 (by decide) (by decide) (by decide), hz (-1) (by decide) (by decide) (by decide), hz 1 (by decide) (by decide) (by decide),
      hz (-2) (by decide) (by decide) (by decide), hz 3 (by decide) (by decide) (by decide), hz (-3) (by decide) (by decide) (by decide)]
    have : meanN N (mode (-((2 : ℕ) : ℤ) + 2)) = 1 := hone
    rw [this]
    push_cast; ring
  · refine ⟨(A / 2) ^ 3, by positivity, ?_⟩
    rw [hz 0 (by decide) (by decide) (by decide), hz (-1) (by decide) (by decide) (by decide), hz 1 (by decide) (by decide) (by decide),
      hz (-2) (by decide) (by decide) (by decide), hz 2 (by decide) (by decide) (by decide), hz (-3) (by decide) (by decide) (by decide)]
    have : meanN N (mode (-((3 : ℕ) : ℤ) + 3)) = 1 := hone
    rw [this]
    ring

end Snompy
