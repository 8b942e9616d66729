import Verif.Lemmas.Strip
import Verif.Lemmas.Demod

/-!
# Rebuilding a signal from its harmonics
-/

namespace Snompy

open Finset

/-- The modes at two sampled phases. -/
theorem mode_sum {N : ℕ} (hN : N ≠ 0) {k j : ℕ} (hk : k < N) (hj : j < N) :
    ∑ n ∈ range N, mode (n : ℤ) (phase N k) * mode (-(n : ℤ)) (phase N j) = if k = j then (N : ℂ) else 0 := by
  have hNc : (N : ℂ) ≠ 0 := by exact_mod_cast hN
  have e : ∀ n : ℕ, mode (n : ℤ) (phase N k) * mode (-(n : ℤ)) (phase N j) =
      Complex.exp (2 * Real.pi * Complex.I * (((k : ℤ) - j : ℤ) / N)) ^ n := fun n => by
    unfold mode phase
    rw [← Complex.exp_add, ← Complex.exp_nat_mul]
    congr 1
    push_cast
    field_simp
    ring
  simp only [e]
  split_ifs with h
  · subst h
    simp
  · have h1 : Complex.exp (2 * Real.pi * Complex.I * (((k : ℤ) - j : ℤ) / N)) ≠ 1 := by
      rw [Ne, Complex.exp_eq_one_iff]
      rintro ⟨i, hi⟩
      rw [mul_comm (i : ℂ)] at hi
      have := mul_left_cancel₀ Complex.two_pi_I_ne_zero hi
      rw [div_eq_iff hNc] at this
      have h2 : (k : ℤ) - j = i * N := by exact_mod_cast this
      have h3 : (N : ℤ) ∣ (k : ℤ) - j := ⟨i, by rw [h2, mul_comm]⟩
      have h4 := Int.eq_zero_of_abs_lt_dvd h3 (by rw [abs_lt]; omega)
      omega
    have hp : Complex.exp (2 * Real.pi * Complex.I * (((k : ℤ) - j : ℤ) / N)) ^ N = 1 := by
      rw [← Complex.exp_nat_mul, Complex.exp_eq_one_iff]
      exact ⟨(k : ℤ) - j, by field_simp⟩
    rw [geom_sum_eq h1, hp]
    simp

/-- The inverse of the discrete transform. -/
theorem synthesis {N : ℕ} (hN : N ≠ 0) (h : ℝ → ℂ) {k : ℕ} (hk : k < N) :
    ∑ n ∈ range N, meanN N (mode (-(n : ℤ)) * h) * mode (n : ℤ) (phase N k) = h (phase N k) := by
  have hNc : (N : ℂ) ≠ 0 := by exact_mod_cast hN
  unfold meanN
  have e : ∀ n : ℕ, (∑ j ∈ range N, (mode (-(n : ℤ)) * h) (phase N j)) / N * mode (n : ℤ) (phase N k) =
      ∑ j ∈ range N, h (phase N j) / N * (mode (n : ℤ) (phase N k) * mode (-(n : ℤ)) (phase N j)) := fun n => by
    rw [div_mul_eq_mul_div, sum_mul, sum_div]
    refine sum_congr rfl fun j _ => ?_
    rw [Pi.mul_apply]
    ring
  simp only [e]
  rw [sum_comm]
  have e' : ∀ j ∈ range N, ∑ n ∈ range N, h (phase N j) / N * (mode (n : ℤ) (phase N k) * mode (-(n : ℤ)) (phase N j)) =
      if k = j then h (phase N j) else 0 := fun j hj => by
    rw [← mul_sum, mode_sum hN hk (mem_range.1 hj)]
    split_ifs
    · field_simp
    · simp
  rw [sum_congr rfl e', sum_ite_eq]
  simp [hk]

theorem conj_mode (m : ℤ) (θ : ℝ) : (starRingEnd ℂ) (mode m θ) = mode (-m) θ := by
  unfold mode
  rw [← Complex.exp_conj]
  simp

/-- The energy in the harmonics. -/
theorem parseval {N : ℕ} (hN : N ≠ 0) (h : ℝ → ℂ) :
    ∑ n ∈ range N, ‖meanN N (mode (-(n : ℤ)) * h)‖ ^ 2 = (∑ k ∈ range N, ‖h (phase N k)‖ ^ 2) / N := by
  have hNc : (N : ℂ) ≠ 0 := by exact_mod_cast hN
  have sq : ∀ z : ℂ, ((‖z‖ ^ 2 : ℝ) : ℂ) = z * (starRingEnd ℂ) z := fun z => by
    rw [Complex.mul_conj, Complex.normSq_eq_norm_sq]
  apply Complex.ofReal_injective
  rw [Complex.ofReal_div, Complex.ofReal_sum, Complex.ofReal_sum]
  simp only [sq]
  have e : ∀ n : ℕ, meanN N (mode (-(n : ℤ)) * h) * (starRingEnd ℂ) (meanN N (mode (-(n : ℤ)) * h)) =
      ∑ k ∈ range N, (starRingEnd ℂ) (h (phase N k)) / N * (meanN N (mode (-(n : ℤ)) * h) * mode (n : ℤ) (phase N k)) := fun n => by
    conv_lhs => rw [show meanN N (mode (-(n : ℤ)) * h) * (starRingEnd ℂ) (meanN N (mode (-(n : ℤ)) * h)) =
      meanN N (mode (-(n : ℤ)) * h) * (starRingEnd ℂ) ((∑ k ∈ range N, (mode (-(n : ℤ)) * h) (phase N k)) / N) from rfl]
    rw [map_div₀, map_sum, map_natCast, ← mul_div_assoc, mul_sum, sum_div]
    refine sum_congr rfl fun k _ => ?_
    rw [Pi.mul_apply, map_mul, conj_mode, neg_neg]
    ring
  simp only [e]
  rw [sum_comm]
  simp only [← mul_sum]
  rw [sum_congr rfl fun k hk => by rw [synthesis hN h (mem_range.1 hk)], Complex.ofReal_natCast, sum_div]
  refine sum_congr rfl fun k _ => ?_
  ring

/-- The harmonic `N - n` is the harmonic `n`, up to a sign. -/
theorem demodSum_mirror (g : ℝ → ℂ) (x0 amp : ℝ) {N n : ℕ} (hN : N ≠ 0) :
    demodSum g x0 amp ((N - n : ℤ) : ℝ) N = (-1) ^ N * demodSum g x0 amp n N := by
  have h1 : demodSum g x0 amp n N = demodSum g x0 amp ((-n : ℤ) : ℝ) N := by
    rw [← demodSum_neg g x0 amp n hN]
    push_cast
    rfl
  rw [h1, demodSum_mean g x0 amp _ hN, demodSum_mean g x0 amp _ hN]
  unfold meanN
  rw [← mul_div_assoc, mul_sum]
  congr 1
  refine sum_congr rfl fun k _ => ?_
  rw [Pi.mul_apply, Pi.mul_apply, ← mul_assoc]
  congr 1
  have e : mode (-(N - n : ℤ)) (phase N k) = mode (-(N : ℤ)) (phase N k) * mode (-(-n : ℤ)) (phase N k) := by
    have := congrFun (mode_mul (-(N : ℤ)) (-(-n : ℤ))) (phase N k)
    rw [Pi.mul_apply] at this
    rw [this]
    congr 1
    ring
  rw [e]
  congr 1
  have hNc : (N : ℂ) ≠ 0 := by exact_mod_cast hN
  have hNr : (N : ℝ) ≠ 0 := by exact_mod_cast hN
  unfold mode phase
  have : Complex.I * ((-(N : ℤ) : ℤ) : ℂ) * ((-Real.pi + 2 * Real.pi * k / N : ℝ) : ℂ) =
      N * (Real.pi * Complex.I) + ((-k : ℤ) : ℂ) * (2 * Real.pi * Complex.I) := by
    push_cast
    field_simp
    ring
  rw [this, Complex.exp_add, Complex.exp_int_mul_two_pi_mul_I, mul_one, Complex.exp_nat_mul, Complex.exp_pi_mul_I]

end Snompy
