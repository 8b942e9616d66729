import Verif.Lemmas.Demod
import Mathlib.Analysis.SpecialFunctions.Integrals.Basic
import Mathlib.Algebra.Polynomial.Eval.Degree
import Mathlib.Analysis.SpecialFunctions.Exponential

/-!
# Trigonometric polynomials: the trapezium mean and the integral agree
-/

namespace Snompy

open Finset

/-- `θ ↦ exp(i m θ)`. -/
noncomputable def mode (m : ℤ) (θ : ℝ) : ℂ := Complex.exp (Complex.I * m * θ)

theorem mode_mul (m n : ℤ) : mode m * mode n = mode (m + n) := by
  funext θ
  simp only [Pi.mul_apply, mode, ← Complex.exp_add]
  push_cast
  ring_nf

theorem mode_zero : mode 0 = 1 := by
  funext θ
  simp [mode]

theorem continuous_mode (m : ℤ) : Continuous (mode m) := by
  unfold mode
  fun_prop

/-- The mean over the `N` sampled phases. -/
noncomputable def meanN (N : ℕ) (h : ℝ → ℂ) : ℂ := (∑ k ∈ range N, h (phase N k)) / N

/-- The mean over a period. -/
noncomputable def mean (h : ℝ → ℂ) : ℂ := 1 / (2 * Real.pi) * ∫ θ in -Real.pi..Real.pi, h θ

theorem mode_phase (m : ℤ) {N : ℕ} (hN : N ≠ 0) (k : ℕ) :
    mode m (phase N k) = Complex.exp (-(Complex.I * m * Real.pi)) *
      Complex.exp (2 * Real.pi * Complex.I * (m / N)) ^ k := by
  unfold mode phase
  rw [← Complex.exp_nat_mul, ← Complex.exp_add]
  have : (N : ℂ) ≠ 0 := by exact_mod_cast hN
  congr 1
  push_cast
  field_simp

theorem meanN_mode {m : ℤ} {N : ℕ} (hN : N ≠ 0) (h : ¬ (N : ℤ) ∣ m) : meanN N (mode m) = 0 := by
  unfold meanN
  have hNc : (N : ℂ) ≠ 0 := by exact_mod_cast hN
  simp only [mode_phase m hN, ← mul_sum]
  have h1 : Complex.exp (2 * Real.pi * Complex.I * (m / N)) ≠ 1 := by
    rw [Ne, Complex.exp_eq_one_iff]
    rintro ⟨j, hj⟩
    apply h
    refine ⟨j, ?_⟩
    have hpi : (2 * Real.pi * Complex.I : ℂ) ≠ 0 := Complex.two_pi_I_ne_zero
    rw [mul_comm (j : ℂ)] at hj
    have := mul_left_cancel₀ hpi hj
    rw [div_eq_iff hNc] at this
    rw [mul_comm]
    exact_mod_cast this
  have hp : Complex.exp (2 * Real.pi * Complex.I * (m / N)) ^ N = 1 := by
    rw [← Complex.exp_nat_mul, Complex.exp_eq_one_iff]
    exact ⟨m, by field_simp⟩
  rw [geom_sum_eq h1, hp]
  simp

theorem meanN_one {N : ℕ} (hN : N ≠ 0) : meanN N (mode 0) = 1 := by
  have hNc : (N : ℂ) ≠ 0 := by exact_mod_cast hN
  simp [meanN, mode_zero, hNc]

theorem mean_mode {m : ℤ} (h : m ≠ 0) : mean (mode m) = 0 := by
  unfold mean mode
  have hc : (Complex.I * m : ℂ) ≠ 0 := mul_ne_zero Complex.I_ne_zero (by exact_mod_cast h)
  rw [integral_exp_mul_complex hc]
  have : Complex.exp (Complex.I * m * (Real.pi : ℝ)) = Complex.exp (Complex.I * m * (-Real.pi : ℝ)) := by
    rw [Complex.exp_eq_exp_iff_exists_int]
    exact ⟨m, by push_cast; ring⟩
  rw [this, sub_self]
  simp

theorem mean_one : mean (mode 0) = 1 := by
  rw [mode_zero]
  unfold mean
  have : (Real.pi : ℂ) ≠ 0 := by exact_mod_cast Real.pi_ne_zero
  simp only [Pi.one_apply, intervalIntegral.integral_const, sub_neg_eq_add]
  rw [Complex.real_smul]
  push_cast
  field_simp
  ring

/-- Trigonometric polynomials of degree at most `d`. -/
noncomputable def trigPoly (d : ℕ) : Submodule ℂ (ℝ → ℂ) :=
  Submodule.span ℂ (mode '' {m | m.natAbs ≤ d})

theorem mode_mem {d : ℕ} {m : ℤ} (h : m.natAbs ≤ d) : mode m ∈ trigPoly d :=
  Submodule.subset_span ⟨m, h, rfl⟩

theorem trigPoly_mono {d e : ℕ} (h : d ≤ e) : trigPoly d ≤ trigPoly e :=
  Submodule.span_mono (Set.image_mono fun _ hm => le_trans hm h)

theorem mode_mul_mem {d : ℕ} {h : ℝ → ℂ} (hh : h ∈ trigPoly d) (m : ℤ) :
    mode m * h ∈ trigPoly (d + m.natAbs) := by
  induction hh using Submodule.span_induction with
  | mem x hx =>
    obtain ⟨j, hj, rfl⟩ := hx
    rw [mode_mul]
    refine mode_mem ?_
    have : j.natAbs ≤ d := hj
    omega
  | zero => rw [mul_zero]; exact Submodule.zero_mem _
  | add x y _ _ hx hy => rw [mul_add]; exact Submodule.add_mem _ hx hy
  | smul a x _ hx => rw [mul_smul_comm]; exact Submodule.smul_mem _ _ hx

/-- The height at phase `θ`. -/
noncomputable def height (x0 amp : ℝ) (θ : ℝ) : ℂ := ((x0 + Real.cos θ * amp : ℝ) : ℂ)

theorem height_eq (x0 amp : ℝ) :
    height x0 amp = (x0 : ℂ) • mode 0 + (amp / 2 : ℂ) • mode 1 + (amp / 2 : ℂ) • mode (-1) := by
  funext θ
  simp only [height, mode, Pi.add_apply, Pi.smul_apply, smul_eq_mul]
  push_cast
  rw [Complex.cos]
  simp
  ring_nf

theorem height_mul_mem {d : ℕ} {h : ℝ → ℂ} (hh : h ∈ trigPoly d) (x0 amp : ℝ) :
    height x0 amp * h ∈ trigPoly (d + 1) := by
  rw [height_eq, add_mul, add_mul, smul_mul_assoc, smul_mul_assoc, smul_mul_assoc]
  refine Submodule.add_mem _ (Submodule.add_mem _ ?_ ?_) ?_ <;> refine Submodule.smul_mem _ _ ?_
  · exact trigPoly_mono (e := d + 1) (Nat.le_succ d) (mode_mul_mem hh 0)
  · exact mode_mul_mem hh 1
  · have h1 := mode_mul_mem hh (-1)
    rwa [Int.natAbs_neg, Int.natAbs_one] at h1

theorem height_pow_mem (x0 amp : ℝ) (j : ℕ) : height x0 amp ^ j ∈ trigPoly j := by
  induction j with
  | zero => rw [pow_zero, ← mode_zero]; exact mode_mem (by simp)
  | succ j ih => rw [pow_succ']; exact height_mul_mem ih x0 amp

theorem eval_mem (p : Polynomial ℂ) (x0 amp : ℝ) :
    (fun θ => p.eval (height x0 amp θ)) ∈ trigPoly p.natDegree := by
  have : (fun θ => p.eval (height x0 amp θ)) =
      ∑ j ∈ range (p.natDegree + 1), p.coeff j • height x0 amp ^ j := by
    funext θ
    rw [Polynomial.eval_eq_sum_range, Finset.sum_apply]
    rfl
  rw [this]
  refine Submodule.sum_mem _ fun j hj => Submodule.smul_mem _ _ ?_
  exact trigPoly_mono (by have := mem_range.1 hj; omega) (height_pow_mem x0 amp j)

theorem meanN_add (N : ℕ) (f g : ℝ → ℂ) : meanN N (f + g) = meanN N f + meanN N g := by
  simp [meanN, sum_add_distrib, add_div]

theorem meanN_smul (N : ℕ) (a : ℂ) (f : ℝ → ℂ) : meanN N (a • f) = a * meanN N f := by
  simp [meanN, ← mul_sum, mul_div_assoc]

theorem mean_add {f g : ℝ → ℂ} (hf : Continuous f) (hg : Continuous g) :
    mean (f + g) = mean f + mean g := by
  unfold mean
  simp only [Pi.add_apply]
  rw [intervalIntegral.integral_add (hf.intervalIntegrable _ _) (hg.intervalIntegrable _ _), mul_add]

theorem mean_trigPoly {d : ℕ} {h : ℝ → ℂ} (hh : h ∈ trigPoly d) {N : ℕ} (hN : d < N) :
    Continuous h ∧ meanN N h = mean h := by
  have hN0 : N ≠ 0 := by omega
  induction hh using Submodule.span_induction with
  | mem x hx =>
    obtain ⟨m, hm, rfl⟩ := hx
    have hm : m.natAbs ≤ d := hm
    refine ⟨continuous_mode m, ?_⟩
    by_cases h0 : m = 0
    · subst h0; rw [meanN_one hN0, mean_one]
    · rw [mean_mode h0, meanN_mode hN0]
      intro hd
      have := Int.natAbs_dvd_natAbs.2 hd
      have := Nat.le_of_dvd (by omega) this
      simp at this
      omega
  | zero => exact ⟨continuous_const, by simp [meanN, mean]⟩
  | add x y _ _ hx hy =>
    refine ⟨hx.1.add hy.1, ?_⟩
    rw [meanN_add, hx.2, hy.2, mean_add hx.1 hy.1]
  | smul a x _ hx =>
    refine ⟨continuous_const.smul hx.1, ?_⟩
    rw [meanN_smul, hx.2]
    unfold mean
    simp only [Pi.smul_apply, smul_eq_mul]
    rw [intervalIntegral.integral_const_mul]
    ring

/-- A trigonometric polynomial without constant term has mean zero. -/
theorem mean_mode_mul {d : ℕ} {h : ℝ → ℂ} (hh : h ∈ trigPoly d) {n : ℤ} (hn : d < n.natAbs) :
    mean (mode n * h) = 0 := by
  have : Continuous h ∧ mean (mode n * h) = 0 := by
    induction hh using Submodule.span_induction with
    | mem x hx =>
      obtain ⟨m, hm, rfl⟩ := hx
      have hm : m.natAbs ≤ d := hm
      exact ⟨continuous_mode m, by rw [mode_mul, mean_mode (by omega)]⟩
    | zero => exact ⟨continuous_const, by simp [mean]⟩
    | add x y _ _ hx hy =>
      refine ⟨hx.1.add hy.1, ?_⟩
      rw [mul_add, mean_add ((continuous_mode n).mul hx.1) ((continuous_mode n).mul hy.1), hx.2, hy.2,
        add_zero]
    | smul a x _ hx =>
      refine ⟨continuous_const.smul hx.1, ?_⟩
      have : mean (mode n * (a • x)) = a * mean (mode n * x) := by
        unfold mean
        simp only [Pi.smul_apply, Pi.mul_apply, smul_eq_mul, mul_left_comm _ a]
        rw [intervalIntegral.integral_const_mul]
        ring
      rw [this, hx.2, mul_zero]
  exact this.2

theorem wave_eq (g : ℝ → ℂ) (x0 amp : ℝ) (n : ℤ) :
    wave g x0 amp n = mode (-n) * fun θ => g (x0 + Real.cos θ * amp) := by
  funext θ
  simp only [wave, mode, Pi.mul_apply]
  push_cast
  rw [mul_comm]
  ring_nf

theorem demodSum_mean (g : ℝ → ℂ) (x0 amp : ℝ) (n : ℤ) {N : ℕ} (hN : N ≠ 0) :
    demodSum g x0 amp n N = meanN N (mode (-n) * fun θ => g (x0 + Real.cos θ * amp)) := by
  rw [demodSum_int g x0 amp n hN, wave_eq]
  rfl

theorem lockin_eq (g : ℝ → ℂ) (x0 amp n : ℝ) : lockin g x0 amp n = mean (wave g x0 amp n) := by
  unfold lockin mean wave
  simp only [mul_comm]

end Snompy
