import Verif.Double
import Mathlib.Tactic.Positivity
import Mathlib.Tactic.Linarith
import Mathlib.Tactic.NormNum

/-!
# Rounding
-/

namespace Snompy

/-- Unit roundoff. -/
noncomputable def uro : ℝ := (1 / 2) ^ 53

/-- Half of the smallest subnormal. -/
noncomputable def eta : ℝ := (1 / 2) ^ 1075

theorem uro_pos : 0 < uro := by unfold uro; positivity
theorem eta_pos : 0 < eta := by unfold eta; positivity
theorem eta_le : eta ≤ uro / 2 ^ 1000 := by
  unfold eta uro
  have h : ((1 : ℝ) / 2) ^ 53 / 2 ^ 1000 = (1 / 2) ^ (53 + 1000) := by
    rw [pow_add, one_div, inv_pow, inv_pow, ← div_eq_mul_inv]
  rw [h]
  exact pow_le_pow_of_le_one (by norm_num) (by norm_num) (by norm_num)

theorem roundEven_err (y : ℝ) : |(roundEven y : ℝ) - y| ≤ 1 / 2 := by
  unfold roundEven
  split_ifs with h
  · have h1 : (⌊y⌋ : ℝ) = y - 1 / 2 := by rw [← h]; exact (Int.self_sub_fract y).symm
    have hf : Int.fract (y / 2) = 1 / 4 ∨ Int.fract (y / 2) = 3 / 4 := by
      rcases Int.even_or_odd' ⌊y⌋ with ⟨m, hm | hm⟩
      · left
        rw [hm] at h1
        push_cast at h1
        rw [Int.fract_eq_iff]
        exact ⟨by norm_num, by norm_num, m, by linarith⟩
      · right
        rw [hm] at h1
        push_cast at h1
        rw [Int.fract_eq_iff]
        exact ⟨by norm_num, by norm_num, m, by linarith⟩
    have h2 := abs_sub_round_eq_min (y / 2)
    have h3 : |y / 2 - round (y / 2)| ≤ 1 / 4 := by
      rw [h2]
      rcases hf with hf | hf <;> rw [hf] <;> norm_num
    rw [abs_le] at h3 ⊢
    push_cast
    constructor <;> linarith [h3.1, h3.2]
  · rw [abs_sub_comm]
    exact abs_sub_round y

theorem roundEven_int (n : ℤ) : roundEven (n : ℝ) = n := by
  unfold roundEven
  rw [if_neg (by rw [Int.fract_intCast]; norm_num), round_intCast]

theorem two_zpow_pos (e : ℤ) : (0 : ℝ) < 2 ^ e := by positivity

theorem rnd_zero : rnd 0 = 0 := by
  unfold rnd
  have := roundEven_int 0
  push_cast at this
  rw [zero_div, this]
  simp

theorem rnd_err_ulp (x : ℝ) : |rnd x - x| ≤ 2 ^ ulpExp x / 2 := by
  have hp := two_zpow_pos (ulpExp x)
  have h := roundEven_err (x / 2 ^ ulpExp x)
  have : rnd x - x = ((roundEven (x / 2 ^ ulpExp x) : ℝ) - x / 2 ^ ulpExp x) * 2 ^ ulpExp x := by
    unfold rnd
    rw [sub_mul, div_mul_cancel₀ _ hp.ne']
  rw [this, abs_mul, abs_of_pos hp]
  nlinarith

/-- The standard model of rounding. -/
theorem rnd_err (x : ℝ) : |rnd x - x| ≤ uro * |x| + eta := by
  rcases eq_or_ne x 0 with rfl | hx
  · rw [rnd_zero]
    simpa using eta_pos.le
  · refine (rnd_err_ulp x).trans ?_
    have hx' : 0 < |x| := abs_pos.2 hx
    have hl : (2 : ℝ) ^ Int.log 2 |x| ≤ |x| := by
      exact_mod_cast Int.zpow_log_le_self (b := 2) (by norm_num) hx'
    rcases le_total (-1074) (Int.log 2 |x| - 52) with h | h
    · unfold ulpExp
      rw [max_eq_left h, zpow_sub₀ (by norm_num)]
      have : (2 : ℝ) ^ Int.log 2 |x| / 2 ^ (52 : ℤ) / 2 ≤ uro * |x| := by
        unfold uro
        rw [show ((1 : ℝ) / 2) ^ 53 = 1 / 2 ^ (52 : ℤ) / 2 by norm_num]
        have : (2 : ℝ) ^ Int.log 2 |x| / 2 ^ (52 : ℤ) / 2 = 1 / 2 ^ (52 : ℤ) / 2 * 2 ^ Int.log 2 |x| := by ring
        rw [this]
        exact mul_le_mul_of_nonneg_left hl (by positivity)
      linarith [eta_pos]
    · unfold ulpExp
      rw [max_eq_right h]
      have : (2 : ℝ) ^ (-1074 : ℤ) / 2 = eta := by
        unfold eta
        rw [zpow_neg, one_div, inv_pow, show (1075 : ℕ) = 1074 + 1 by rfl, pow_succ, mul_inv, ← div_eq_mul_inv]
        norm_cast
      rw [this]
      linarith [mul_nonneg uro_pos.le hx'.le]

/-- Numbers with 53 significant bits and exponent in range (above). -/
def Rep (x : ℝ) : Prop := ∃ (m k : ℤ), |m| ≤ 2 ^ 53 ∧ -1074 ≤ k ∧ x = m * 2 ^ k

theorem rnd_rep {x : ℝ} (h : Rep x) : rnd x = x := by
  obtain ⟨m, k, hm, hk, rfl⟩ := h
  rcases eq_or_ne m 0 with rfl | hm0
  · simp [rnd_zero]
  · have hk0 := two_zpow_pos k
    have habs : |(m : ℝ) * 2 ^ k| = (|m| : ℤ) * 2 ^ k := by
      rw [abs_mul, abs_of_pos hk0]; push_cast; rfl
    have key : ∃ n : ℤ, (m : ℝ) * 2 ^ k / 2 ^ ulpExp (m * 2 ^ k) = n := by
      rcases lt_or_eq_of_le hm with hlt | heq
      · have hlog : Int.log 2 |(m : ℝ) * 2 ^ k| < k + 53 := by
          rw [← Int.lt_zpow_iff_log_lt (by norm_num) (by rw [habs]; have := Int.one_le_abs hm0; positivity), habs]
          push_cast
          rw [zpow_add₀ (by norm_num), mul_comm]
          have : ((|m| : ℤ) : ℝ) < 2 ^ 53 := by exact_mod_cast hlt
          push_cast at this
          exact mul_lt_mul_of_pos_left (by exact_mod_cast this) hk0
        have he : ulpExp ((m : ℝ) * 2 ^ k) ≤ k := by
          unfold ulpExp
          exact max_le (by omega) hk
        refine ⟨m * 2 ^ (k - ulpExp ((m : ℝ) * 2 ^ k)).toNat, ?_⟩
        push_cast
        rw [← zpow_natCast, Int.toNat_of_nonneg (by omega), zpow_sub₀ (by norm_num), mul_div_assoc]
      · have hlog : Int.log 2 |(m : ℝ) * 2 ^ k| = k + 53 := by
          rw [habs, heq]
          have h2 : (((2 : ℤ) ^ 53 : ℤ) : ℝ) * 2 ^ k = ((2 : ℕ) : ℝ) ^ (k + 53) := by
            rw [zpow_add₀ (by norm_num)]
            push_cast
            rw [mul_comm]
            norm_num
          rw [h2]
          exact Int.log_zpow (by norm_num) _
        have he : ulpExp ((m : ℝ) * 2 ^ k) = k + 1 := by
          unfold ulpExp
          rw [hlog, max_eq_left (by omega)]
          ring
        rw [he]
        have : m = 2 * (m / 2) := by
          have : (2 : ℤ) ∣ m := by rw [← dvd_abs, heq]; norm_num
          omega
        refine ⟨m / 2, ?_⟩
        have h3 : (m : ℝ) = 2 * ((m / 2 : ℤ) : ℝ) := by exact_mod_cast this
        rw [zpow_add₀ (by norm_num), zpow_one, h3]
        field_simp
    obtain ⟨n, hn⟩ := key
    unfold rnd
    rw [hn, roundEven_int, ← hn, div_mul_cancel₀ _ (two_zpow_pos _).ne']

theorem round_eq_of_lt {y : ℝ} {n : ℤ} (h : |y - n| < 1 / 2) : round y = n := by
  have h1 := abs_sub_round y
  have h2 : |((round y - n : ℤ) : ℝ)| < 1 := by
    push_cast
    rw [abs_le] at h1
    rw [abs_lt] at h ⊢
    constructor <;> linarith [h1.1, h1.2, h.1, h.2]
  have h3 : |round y - n| < 1 := by exact_mod_cast h2
  rw [Int.abs_lt_one_iff] at h3
  omega

theorem fract_half {y : ℝ} (h : Int.fract y = 1 / 2) : |y / 2 - round (y / 2)| < 1 / 2 := by
  have h1 : (⌊y⌋ : ℝ) = y - 1 / 2 := by rw [← h]; exact (Int.self_sub_fract y).symm
  rw [abs_sub_round_eq_min]
  rcases Int.even_or_odd' ⌊y⌋ with ⟨m, hm | hm⟩
  · rw [hm] at h1
    push_cast at h1
    rw [(Int.fract_eq_iff (a := y / 2) (b := 1 / 4)).2 ⟨by norm_num, by norm_num, m, by linarith⟩]
    norm_num
  · rw [hm] at h1
    push_cast at h1
    rw [(Int.fract_eq_iff (a := y / 2) (b := 3 / 4)).2 ⟨by norm_num, by norm_num, m, by linarith⟩]
    norm_num

theorem roundEven_neg (y : ℝ) : roundEven (-y) = -roundEven y := by
  unfold roundEven
  have hf : Int.fract (-y) = 1 / 2 ↔ Int.fract y = 1 / 2 := by
    rcases eq_or_ne (Int.fract y) 0 with h0 | h0
    · rw [Int.fract_neg_eq_zero.2 h0, h0]
    · rw [Int.fract_neg h0]
      constructor <;> intro h <;> linarith
  by_cases h : Int.fract y = 1 / 2
  · rw [if_pos (hf.2 h), if_pos h, neg_div, round_eq_of_lt (n := -round (y / 2))]
    · ring
    · have := fract_half h
      rwa [← abs_neg, show -(-(y / 2) - ((-round (y / 2) : ℤ) : ℝ)) = y / 2 - round (y / 2) by push_cast; ring]
  · rw [if_neg (mt hf.1 h), if_neg h, round_eq_of_lt (n := -round y)]
    have h1 := abs_sub_round y
    rcases lt_or_eq_of_le h1 with h2 | h2
    · rwa [← abs_neg, show -(-y - ((-round y : ℤ) : ℝ)) = y - round y by push_cast; ring]
    · exfalso
      rw [abs_sub_round_eq_min] at h2
      rcases min_choice (Int.fract y) (1 - Int.fract y) with h3 | h3 <;> rw [h3] at h2
      · exact h h2
      · exact h (by linarith)

theorem rnd_neg (x : ℝ) : rnd (-x) = -rnd x := by
  have he : ulpExp (-x) = ulpExp x := by unfold ulpExp; rw [abs_neg]
  unfold rnd
  rw [he, neg_div, roundEven_neg]
  push_cast
  ring

theorem rep_rnd (x : ℝ) : Rep (rnd x) := by
  refine ⟨roundEven (x / 2 ^ ulpExp x), ulpExp x, ?_, le_max_right _ _, rfl⟩
  have h := roundEven_err (x / 2 ^ ulpExp x)
  have hp := two_zpow_pos (ulpExp x)
  have hx : |x / 2 ^ ulpExp x| ≤ 2 ^ 53 := by
    rw [abs_div, abs_of_pos hp, div_le_iff₀ hp]
    have h1 : |x| < (2 : ℝ) ^ (Int.log 2 |x| + 1) := by
      exact_mod_cast Int.lt_zpow_succ_log_self (b := 2) (by norm_num) |x|
    refine h1.le.trans ?_
    have h2 : (2 : ℝ) ^ (53 : ℕ) * 2 ^ ulpExp x = 2 ^ (53 + ulpExp x) := by
      rw [zpow_add₀ (by norm_num)]; norm_cast
    rw [h2]
    refine zpow_le_zpow_right₀ (by norm_num) ?_
    unfold ulpExp
    have := le_max_left (Int.log 2 |x| - 52) (-1074)
    omega
  have h3 : |(roundEven (x / 2 ^ ulpExp x) : ℝ)| < 2 ^ 53 + 1 := by
    rw [abs_le] at h hx
    rw [abs_lt]
    constructor <;> linarith [h.1, h.2, hx.1, hx.2]
  have h4 : |roundEven (x / 2 ^ ulpExp x)| < 2 ^ 53 + 1 := by exact_mod_cast h3
  omega

theorem rnd_rnd (x : ℝ) : rnd (rnd x) = rnd x := rnd_rep (rep_rnd x)

theorem Rep.neg {x : ℝ} (h : Rep x) : Rep (-x) := by
  obtain ⟨m, k, hm, hk, rfl⟩ := h
  exact ⟨-m, k, by rwa [abs_neg], hk, by push_cast; ring⟩

theorem rep_int (n : ℤ) (h : |n| ≤ 2 ^ 53) : Rep n := ⟨n, 0, h, by norm_num, by simp⟩

theorem rep_zero : Rep 0 := by simpa using rep_int 0 (by norm_num)
theorem rep_one : Rep 1 := by simpa using rep_int 1 (by norm_num)
theorem rep_two : Rep 2 := by simpa using rep_int 2 (by norm_num)

theorem maxDouble_pos : 0 < maxDouble := by
  unfold maxDouble
  have : ((1 : ℝ) / 2) ^ 52 < 1 := by norm_num
  have h2 : (0 : ℝ) < 2 ^ 1023 := by positivity
  exact mul_pos (by linarith) h2

theorem maxDouble_ge : (2 : ℝ) ^ 1023 ≤ maxDouble := by
  unfold maxDouble
  have : ((1 : ℝ) / 2) ^ 52 ≤ 1 := by norm_num
  have h2 : (0 : ℝ) < 2 ^ 1023 := by positivity
  exact le_mul_of_one_le_left h2.le (by linarith)

theorem maxDouble_eq : maxDouble = ((2 ^ 53 - 1 : ℤ) : ℝ) * 2 ^ (971 : ℤ) := by
  unfold maxDouble
  rw [show (2 : ℝ) ^ 1023 = 2 ^ 52 * 2 ^ (971 : ℕ) by rw [← pow_add], ← mul_assoc,
    show (2 : ℝ) ^ (971 : ℤ) = 2 ^ (971 : ℕ) from zpow_natCast 2 971]
  congr 1
  push_cast
  norm_num

theorem rep_maxDouble : Rep maxDouble := ⟨2 ^ 53 - 1, 971, by norm_num, by norm_num, maxDouble_eq⟩

namespace F64

variable {L : Libm}

theorem ofReal_fin {x : ℝ} (h : |x| * (1 + uro) + eta ≤ maxDouble) : (ofReal x : F64 L) = fin (rnd x) := by
  unfold ofReal
  rw [if_pos]
  have := rnd_err x
  have h2 := abs_sub_abs_le_abs_sub (rnd x) x
  nlinarith

theorem ofReal_rep {x : ℝ} (h : Rep x) (hx : |x| ≤ maxDouble) : (ofReal x : F64 L) = fin x := by
  unfold ofReal
  rw [rnd_rep h, if_pos hx]

theorem one_le_max : (2 : ℝ) ≤ maxDouble :=
  le_trans (le_self_pow₀ (by norm_num) (by norm_num)) maxDouble_ge

theorem ofReal_zero : (ofReal 0 : F64 L) = fin 0 := ofReal_rep rep_zero (by simpa using maxDouble_pos.le)
theorem ofReal_one : (ofReal 1 : F64 L) = fin 1 := ofReal_rep rep_one (by rw [abs_one]; linarith [one_le_max])
theorem ofReal_two : (ofReal 2 : F64 L) = fin 2 := ofReal_rep rep_two (by rw [abs_two]; linarith [one_le_max])
theorem ofReal_neg_one : (ofReal (-1) : F64 L) = fin (-1) :=
  ofReal_rep rep_one.neg (by rw [abs_neg, abs_one]; linarith [one_le_max])

theorem ofReal_pinf {x : ℝ} (h : maxDouble < (1 - uro) * x - eta) : (ofReal x : F64 L) = pinf := by
  have hu := uro_pos
  have hu1 : uro < 1 := by unfold uro; norm_num
  have hx : 0 < x := by nlinarith [maxDouble_pos, eta_pos]
  unfold ofReal infOf
  have := rnd_err x
  rw [abs_of_pos hx, abs_le] at this
  rw [if_neg, if_pos hx]
  intro h2
  have := (abs_le.1 h2).2
  nlinarith

theorem ofReal_ninf {x : ℝ} (h : x * (1 - uro) + eta < -maxDouble) : (ofReal x : F64 L) = ninf := by
  have hu := uro_pos
  have hu1 : uro < 1 := by unfold uro; norm_num
  have hx : x < 0 := by nlinarith [maxDouble_pos, eta_pos]
  unfold ofReal infOf
  have := rnd_err x
  rw [abs_of_neg hx, abs_le] at this
  rw [if_neg, if_neg (not_lt.2 hx.le), if_pos hx]
  intro h2
  have := (abs_le.1 h2).1
  nlinarith

theorem fin_add (x y : ℝ) : (fin x + fin y : F64 L) = ofReal (x + y) := rfl
theorem fin_sub (x y : ℝ) : (fin x - fin y : F64 L) = ofReal (x + -y) := rfl
theorem fin_mul (x y : ℝ) : (fin x * fin y : F64 L) = ofReal (x * y) := rfl
theorem fin_div (x : ℝ) {y : ℝ} (h : y ≠ 0) : (fin x / fin y : F64 L) = ofReal (x / y) := by
  show div _ _ = _
  simp [div, h]

theorem nan_add (a : F64 L) : (nan + a : F64 L) = nan := by cases a <;> rfl
theorem add_nan (a : F64 L) : (a + nan : F64 L) = nan := by cases a <;> rfl
theorem nan_sub (a : F64 L) : (nan - a : F64 L) = nan := by cases a <;> rfl
theorem sub_nan (a : F64 L) : (a - nan : F64 L) = nan := by cases a <;> rfl
theorem nan_mul (a : F64 L) : (nan * a : F64 L) = nan := by cases a <;> rfl
theorem mul_nan (a : F64 L) : (a * nan : F64 L) = nan := by cases a <;> rfl
theorem nan_div (a : F64 L) : (nan / a : F64 L) = nan := by cases a <;> rfl
theorem div_nan (a : F64 L) : (a / nan : F64 L) = nan := by cases a <;> rfl

end F64

end Snompy
