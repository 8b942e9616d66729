import Verif.Lemmas.GenMat
import Mathlib.Analysis.SpecialFunctions.Trigonometric.Basic

/-!
# Algebra of products of interface and propagation matrices
-/

namespace Snompy

open Matrix

theorem maxExpArg_pos : 0 < maxExpArg := by
  unfold maxExpArg
  refine Real.log_pos ?_
  have h1 : (1 / 2 : ℝ) ^ 52 ≤ 1 := pow_le_one₀ (by norm_num) (by norm_num)
  have h2 : (1 : ℝ) < 2 ^ 1023 := one_lt_pow₀ (by norm_num) (by norm_num)
  generalize (1 / 2 : ℝ) ^ 52 = u at *
  generalize (2 : ℝ) ^ 1023 = v at *
  nlinarith

theorem clipped_of_abs_le {x : ℝ} (h : |x| ≤ maxExpArg) : clipped x = x := by
  obtain ⟨h1, h2⟩ := abs_le.1 h
  rw [clipped, max_eq_left h1, min_eq_left h2]

@[simp] theorem clipped_zero : clipped 0 = 0 := clipped_of_abs_le (by simpa using maxExpArg_pos.le)

theorem clipped_nonneg {x : ℝ} (h : 0 ≤ x) : 0 ≤ clipped x :=
  le_min (le_max_of_le_left h) maxExpArg_pos.le

theorem clipped_of_nonneg {x : ℝ} (h : 0 ≤ x) : clipped x = min x maxExpArg := by
  rw [clipped, max_eq_left (by linarith [maxExpArg_pos])]

theorem TM_mul (a b : ℂ) : TM a * TM b = TM (a * b) := by
  ext i j; fin_cases i <;> fin_cases j <;>
    simp [TM, Matrix.mul_apply, Fin.sum_univ_two] <;> ring

@[simp] theorem TM_one : TM 1 = 1 := by
  ext i j; fin_cases i <;> fin_cases j <;> simp [TM]

@[simp] theorem PM_zero : PM 0 = 1 := by
  ext i j; fin_cases i <;> fin_cases j <;> simp [PM]

theorem PM_mul (x y : ℂ) : PM x * PM y = PM (x + y) := by
  ext i j; fin_cases i <;> fin_cases j <;>
    simp [PM, Matrix.mul_apply, Fin.sum_univ_two, Complex.exp_add]
  ring

theorem det_TM (a : ℂ) : (TM a).det = a := by
  simp [TM, Matrix.det_fin_two]; ring

theorem det_PM (x : ℂ) : (PM x).det = 1 := by
  simp [PM, Matrix.det_fin_two, ← Complex.exp_add]

theorem gen_top (c y : ℂ) (L : List (ℂ × ℂ)) (ys : ℂ) (hc : c ≠ 0) :
    gen y L ys = TM (y / c) * gen c L ys := by
  cases L with
  | nil => rw [gen, gen, TM_mul]; congr 1; field_simp
  | cons l L => rw [gen, gen, ← Matrix.mul_assoc (TM (y / c)), TM_mul]; congr 2; field_simp

theorem gen_insert_zero (y0 : ℂ) (L₁ L₂ : List (ℂ × ℂ)) (y ys : ℂ) (hy : y ≠ 0) :
    gen y0 (L₁ ++ (y, 0) :: L₂) ys = gen y0 (L₁ ++ L₂) ys := by
  induction L₁ generalizing y0 with
  | nil => rw [List.nil_append, List.nil_append, gen, PM_zero, Matrix.one_mul, ← gen_top y y0 _ _ hy]
  | cons l L₁ ih => simp only [List.cons_append, gen, ih]

theorem gen_split (y0 : ℂ) (L₁ L₂ : List (ℂ × ℂ)) (y x₁ x₂ ys : ℂ) (hy : y ≠ 0) :
    gen y0 (L₁ ++ (y, x₁) :: (y, x₂) :: L₂) ys = gen y0 (L₁ ++ (y, x₁ + x₂) :: L₂) ys := by
  induction L₁ generalizing y0 with
  | nil =>
    simp only [List.nil_append, gen, div_self hy, TM_one, Matrix.one_mul, ← PM_mul, Matrix.mul_assoc]
  | cons l L₁ ih => simp only [List.cons_append, gen, ih]

theorem gen_zero (y0 : ℂ) (L : List (ℂ × ℂ)) (ys : ℂ) (hL : ∀ l ∈ L, l.1 ≠ 0 ∧ l.2 = 0) :
    gen y0 L ys = TM (y0 / ys) := by
  induction L generalizing y0 with
  | nil => rfl
  | cons l L ih =>
    obtain ⟨y, x⟩ := l
    obtain ⟨hy, hx⟩ := hL (y, x) (by simp)
    simp only at hy hx
    rw [gen, hx, PM_zero, Matrix.one_mul, ih y fun l hl => hL l (by simp [hl]), TM_mul]
    congr 1; field_simp

theorem det_gen (y0 : ℂ) (L : List (ℂ × ℂ)) (ys : ℂ) (hL : ∀ l ∈ L, l.1 ≠ 0) :
    (gen y0 L ys).det = y0 / ys := by
  induction L generalizing y0 with
  | nil => rw [gen, det_TM]
  | cons l L ih =>
    obtain ⟨y, x⟩ := l
    have hy : y ≠ 0 := hL (y, x) (by simp)
    rw [gen, Matrix.det_mul, Matrix.det_mul, det_TM, det_PM,
      ih y fun l hl => hL l (by simp [hl])]
    field_simp

theorem gen_snoc (y0 : ℂ) (L : List (ℂ × ℂ)) (y x ys : ℂ) :
    gen y0 (L ++ [(y, x)]) ys = gen y0 L y * (PM x * TM (y / ys)) := by
  induction L generalizing y0 with
  | nil => rfl
  | cons l L ih => simp only [List.cons_append, gen, ih, Matrix.mul_assoc]

/-- Reversal of the direction of travel: swap, adjugate, swap. -/
def mirror (M : CMat) : CMat := !![M 0 0, -M 1 0; -M 0 1, M 1 1]

theorem mirror_mul (M N : CMat) : mirror (M * N) = mirror N * mirror M := by
  ext i j; fin_cases i <;> fin_cases j <;>
    simp [mirror, Matrix.mul_apply, Fin.sum_univ_two] <;> ring

theorem mirror_PM (x : ℂ) : mirror (PM x) = PM x := by
  ext i j; fin_cases i <;> fin_cases j <;> simp [mirror, PM]

theorem mirror_TM (a : ℂ) (ha : a ≠ 0) : mirror (TM a) = a • TM a⁻¹ := by
  ext i j; fin_cases i <;> fin_cases j <;> simp [mirror, TM] <;> field_simp <;> ring

theorem gen_reverse (y0 : ℂ) (L : List (ℂ × ℂ)) (ys : ℂ) (h0 : y0 ≠ 0) (hL : ∀ l ∈ L, l.1 ≠ 0)
    (hs : ys ≠ 0) : mirror (gen y0 L ys) = (y0 / ys) • gen ys L.reverse y0 := by
  induction L generalizing y0 with
  | nil => rw [gen, mirror_TM _ (div_ne_zero h0 hs), inv_div]; rfl
  | cons l L ih =>
    obtain ⟨y, x⟩ := l
    have hy : y ≠ 0 := hL (y, x) (by simp)
    rw [gen, mirror_mul, mirror_mul, ih y hy fun l hl => hL l (by simp [hl]), mirror_PM,
      mirror_TM _ (div_ne_zero h0 hy), List.reverse_cons, gen_snoc, inv_div]
    simp only [Matrix.smul_mul, Matrix.mul_smul, smul_smul, Matrix.mul_assoc]
    congr 1; field_simp

theorem gen_scale (c y0 : ℂ) (L : List (ℂ × ℂ)) (ys : ℂ) (hc : c ≠ 0) :
    gen (c * y0) (L.map fun l => (c * l.1, l.2)) (c * ys) = gen y0 L ys := by
  induction L generalizing y0 with
  | nil => simp only [List.map_nil, gen, mul_div_mul_left _ _ hc]
  | cons l L ih => simp only [List.map_cons, gen, mul_div_mul_left _ _ hc, ih]

theorem gen_flip (y0 : ℂ) (L₁ L₂ : List (ℂ × ℂ)) (y x ys : ℂ) :
    gen y0 (L₁ ++ (-y, -x) :: L₂) ys = gen y0 (L₁ ++ (y, x) :: L₂) ys := by
  -- interface with the opposite admittance swaps the two waves
  set X : CMat := !![0, 1; 1, 0] with hX
  have hT : ∀ a : ℂ, TM (-a) = TM a * X := by
    intro a; ext i j; fin_cases i <;> fin_cases j <;>
      simp [TM, hX, Matrix.mul_apply, Fin.sum_univ_two] <;> ring
  have hT' : ∀ a : ℂ, TM (-a) = X * TM a := by
    intro a; ext i j; fin_cases i <;> fin_cases j <;>
      simp [TM, hX, Matrix.mul_apply, Fin.sum_univ_two] <;> ring
  have hP : X * (PM (-x) * X) = PM x := by
    ext i j; fin_cases i <;> fin_cases j <;>
      simp [PM, hX, Matrix.mul_apply, Fin.sum_univ_two]
  have hg : ∀ L : List (ℂ × ℂ), gen (-y) L ys = X * gen y L ys := by
    intro L
    cases L with
    | nil => rw [gen, gen, neg_div, hT']
    | cons l L => rw [gen, gen, neg_div, hT', Matrix.mul_assoc]
  induction L₁ generalizing y0 with
  | nil =>
    simp only [List.nil_append, gen]
    rw [div_neg, hT, hg, Matrix.mul_assoc, ← Matrix.mul_assoc (PM (-x)), ← Matrix.mul_assoc X, hP]
  | cons l L₁ ih => simp only [List.cons_append, gen, ih]

/-- The sign matrix. -/
def SZ : CMat := !![1, 0; 0, -1]

theorem SZ_sq : SZ * SZ = 1 := by
  ext i j; fin_cases i <;> fin_cases j <;> simp [SZ, Matrix.mul_apply, Fin.sum_univ_two]

theorem TM_inv (a : ℂ) (ha : a ≠ 0) : TM a⁻¹ = a⁻¹ • (SZ * (TM a * SZ)) := by
  ext i j; fin_cases i <;> fin_cases j <;>
    simp [TM, SZ] <;> field_simp <;> ring

theorem SZ_PM (x : ℂ) : SZ * PM x = PM x * SZ := by
  ext i j; fin_cases i <;> fin_cases j <;> simp [PM, SZ, Matrix.mul_apply, Fin.sum_univ_two]

theorem gen_inv (y0 : ℂ) (L : List (ℂ × ℂ)) (ys : ℂ) (h0 : y0 ≠ 0) (hL : ∀ l ∈ L, l.1 ≠ 0)
    (hs : ys ≠ 0) :
    gen y0⁻¹ (L.map fun l => (l.1⁻¹, l.2)) ys⁻¹ = (ys / y0) • (SZ * (gen y0 L ys * SZ)) := by
  induction L generalizing y0 with
  | nil =>
    have : y0⁻¹ / ys⁻¹ = (y0 / ys)⁻¹ := by field_simp
    rw [List.map_nil, gen, gen, this, TM_inv _ (div_ne_zero h0 hs), inv_div]
  | cons l L ih =>
    obtain ⟨y, x⟩ := l
    have hy : y ≠ 0 := hL (y, x) (by simp)
    have : y0⁻¹ / y⁻¹ = (y0 / y)⁻¹ := by field_simp
    rw [List.map_cons, gen, gen, this, TM_inv _ (div_ne_zero h0 hy), inv_div]
    rw [ih y hy fun l hl => hL l (by simp [hl])]
    simp only [Matrix.smul_mul, Matrix.mul_smul, smul_smul]
    have e : SZ * (TM (y0 / y) * SZ) * (PM x * (SZ * (gen y L ys * SZ))) =
        SZ * (TM (y0 / y) * (PM x * gen y L ys) * SZ) := by
      calc SZ * (TM (y0 / y) * SZ) * (PM x * (SZ * (gen y L ys * SZ)))
          = SZ * (TM (y0 / y) * ((SZ * PM x) * (SZ * (gen y L ys * SZ)))) := by
            simp only [Matrix.mul_assoc]
        _ = SZ * (TM (y0 / y) * ((PM x * SZ) * (SZ * (gen y L ys * SZ)))) := by rw [SZ_PM]
        _ = SZ * (TM (y0 / y) * (PM x * ((SZ * SZ) * (gen y L ys * SZ)))) := by
            simp only [Matrix.mul_assoc]
        _ = _ := by rw [SZ_sq, Matrix.one_mul]; simp only [Matrix.mul_assoc]
    rw [e]
    congr 1; field_simp

theorem gen_conj (y0 : ℂ) (L : List (ℂ × ℂ)) (ys : ℂ) :
    gen (star y0) (L.map fun l => (star l.1, star l.2)) (star ys) = (gen y0 L ys).map star := by
  have hT : ∀ a : ℂ, TM (star a) = (TM a).map star := by
    intro a
    have h2 : (starRingEnd ℂ) 2 = 2 := Complex.conj_ofNat 2
    ext i j; fin_cases i <;> fin_cases j <;> simp [TM, h2]
  have hP : ∀ x : ℂ, PM (star x) = (PM x).map star := by
    intro x; ext i j; fin_cases i <;> fin_cases j <;>
      simp [PM, ← Complex.exp_conj]
  have hM : ∀ A B : CMat, (A * B).map star = A.map star * B.map star := by
    intro A B; ext i j; simp [Matrix.mul_apply]
  induction L generalizing y0 with
  | nil => simp only [List.map_nil, gen, ← star_div₀, hT]
  | cons l L ih => simp only [List.map_cons, gen, ← star_div₀, hT, hP, ih, hM]

end Snompy
