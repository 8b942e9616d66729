import Verif.Lemmas.Double
import Verif.Model.Stack
import Mathlib.Analysis.SpecialFunctions.Log.Deriv
import Mathlib.Tactic.NormNum.BigOperators

/-!
# The exponent limit as a double
-/

namespace Snompy

/-- `log 2` to 18 digits. -/
theorem log_two_near : |Real.log 2 - 69314718055994530942 / 10 ^ 20| ≤ 1 / 10 ^ 18 := by
  have t : |(2⁻¹ : ℝ)| = 2⁻¹ := by rw [abs_of_pos]; norm_num
  have z := Real.abs_log_sub_add_sum_range_le (show |(2⁻¹ : ℝ)| < 1 by rw [t]; norm_num) 62
  rw [t] at z
  norm_num1 at z
  rw [one_div (2 : ℝ), Real.log_inv, ← sub_eq_add_neg, _root_.abs_sub_comm] at z
  rw [abs_le] at z ⊢
  constructor <;> linarith [z.1, z.2]

theorem maxExpArg_eq : maxExpArg = Real.log maxDouble := rfl

theorem exp_maxExpArg : Real.exp maxExpArg = maxDouble := by
  rw [maxExpArg_eq, Real.exp_log maxDouble_pos]

theorem maxExpArg_bounds : 1024 * Real.log 2 - (1 / 2) ^ 52 ≤ maxExpArg ∧ maxExpArg ≤ 1024 * Real.log 2 := by
  have h : maxDouble = (1 - (1 / 2) ^ 53) * 2 ^ 1024 := by
    unfold maxDouble
    rw [pow_succ (2 : ℝ) 1023, mul_comm ((2 : ℝ) ^ 1023) 2, ← mul_assoc]
    congr 1
    norm_num
  have hc : (0 : ℝ) < 1 - (1 / 2) ^ 53 := by norm_num
  have hp : (2 : ℝ) ^ 1024 ≠ 0 := by positivity
  rw [maxExpArg_eq, h, Real.log_mul hc.ne' hp, Real.log_pow]
  have h1 := Real.log_le_sub_one_of_pos hc
  have h2 := Real.one_sub_inv_le_log_of_pos hc
  have h3 : (1 - ((1 : ℝ) / 2) ^ 53)⁻¹ ≤ 1 + (1 / 2) ^ 52 := by
    rw [inv_le_iff_one_le_mul₀ hc]
    norm_num
  have h4 : (0 : ℝ) < (1 / 2) ^ 53 := by norm_num
  push_cast
  constructor <;> linarith

/-- The exponent limit of the code, as a double: `709.782712893384`. -/
noncomputable def expLimit : ℝ := 6243314768165359 / 2 ^ 43

theorem roundEven_eq {y : ℝ} {n : ℤ} (h : |y - n| < 1 / 2) : roundEven y = n := by
  have h1 := roundEven_err y
  have h2 : |((roundEven y - n : ℤ) : ℝ)| < 1 := by
    push_cast
    rw [abs_le] at h1
    rw [abs_lt] at h ⊢
    constructor <;> linarith [h1.1, h1.2, h.1, h.2]
  have h3 : |roundEven y - n| < 1 := by exact_mod_cast h2
  rw [Int.abs_lt_one_iff] at h3
  omega

theorem rnd_maxExpArg : rnd maxExpArg = expLimit := by
  have hb := maxExpArg_bounds
  have hl := abs_le.1 log_two_near
  have h512 : (512 : ℝ) ≤ maxExpArg := by linarith [hb.1, hl.1]
  have h1024 : maxExpArg < (1024 : ℝ) := by linarith [hb.2, hl.2]
  have hpos : 0 < maxExpArg := by linarith
  have hlog : Int.log 2 |maxExpArg| = 9 := by
    rw [abs_of_pos hpos]
    apply le_antisymm
    · have : Int.log 2 maxExpArg < 10 := by
        rw [← Int.lt_zpow_iff_log_lt (by norm_num) hpos]
        norm_num
        exact h1024
      omega
    · rw [← Int.zpow_le_iff_le_log (by norm_num) hpos]
      norm_num
      exact h512
  have he : ulpExp maxExpArg = -43 := by
    unfold ulpExp
    rw [hlog]
    norm_num
  unfold rnd expLimit
  rw [he, roundEven_eq (n := 6243314768165359)]
  · rw [zpow_neg, ← div_eq_mul_inv]
    norm_num
  · rw [zpow_neg, div_inv_eq_mul, abs_lt]
    norm_num
    constructor <;> linarith [hb.1, hb.2, hl.1, hl.2]

theorem rep_expLimit : Rep expLimit := by
  rw [← rnd_maxExpArg]; exact rep_rnd _

theorem rnd_neg_maxExpArg : rnd (-maxExpArg) = -expLimit := by
  rw [rnd_neg, rnd_maxExpArg]

/-- The exponential of the limit stays below the largest double, by more than the error of the library. -/
theorem exp_expLimit_le : Real.exp expLimit ≤ maxDouble * (1 - 2 / 10 ^ 14) := by
  have hb := maxExpArg_bounds
  have hl := abs_le.1 log_two_near
  have h : expLimit = maxExpArg - (maxExpArg - expLimit) := by ring
  have h2 : 22 / 10 ^ 15 ≤ maxExpArg - expLimit := by
    unfold expLimit
    linarith [hb.1, hl.1]
  have h3 : maxExpArg - expLimit ≤ 1 / 10 ^ 10 := by
    unfold expLimit
    linarith [hb.2, hl.2]
  rw [h, Real.exp_sub, exp_maxExpArg, div_eq_mul_inv]
  refine mul_le_mul_of_nonneg_left ?_ maxDouble_pos.le
  rw [inv_le_iff_one_le_mul₀ (Real.exp_pos _)]
  have := Real.add_one_le_exp (maxExpArg - expLimit)
  nlinarith

theorem exp_expLimit_ge : maxDouble * (1 - 1 / 10 ^ 10) ≤ Real.exp expLimit := by
  have hb := maxExpArg_bounds
  have hl := abs_le.1 log_two_near
  have h : expLimit = maxExpArg + (expLimit - maxExpArg) := by ring
  have h2 : -(1 / 10 ^ 10) ≤ expLimit - maxExpArg := by
    unfold expLimit
    linarith [hb.2, hl.2]
  rw [h, Real.exp_add, exp_maxExpArg]
  refine mul_le_mul_of_nonneg_left ?_ maxDouble_pos.le
  have := Real.add_one_le_exp (expLimit - maxExpArg)
  linarith

end Snompy
