import Verif.Spec.Graded
import Verif.Lemmas.Fields
import Mathlib.Analysis.Matrix.Normed
import Mathlib.MeasureTheory.Integral.IntervalIntegral.FundThmCalculus
import Mathlib.Analysis.Calculus.Deriv.Prod

/-!
# Products of many thin layers
-/

namespace Snompy

open Matrix Set Filter Topology

attribute [local instance] Matrix.linftyOpNormedRing Matrix.linftyOpNormedAlgebra Matrix.linftyOpNormedAddCommGroup

/-- Fields at the top of a layer from those at its bottom. -/
noncomputable def layMat (w κ : ℂ) (t : ℝ) : CMat :=
  !![Complex.cosh (κ * t), -(Complex.sinh (κ * t) / (w * κ)); -(w * κ * Complex.sinh (κ * t)), Complex.cosh (κ * t)]

/-- Amplitudes from fields. -/
noncomputable def ampMat (w κ : ℂ) : CMat := !![1 / 2, -(1 / (2 * (w * κ))); 1 / 2, 1 / (2 * (w * κ))]

theorem amp_ampMat (w κ : ℂ) (u v : ℝ → ℂ) (y : ℝ) : amp w κ u v y = ampMat w κ *ᵥ ![u y, v y] := by
  ext i
  fin_cases i
  · simp [amp, ampMat, mulVec, dotProduct, Fin.sum_univ_two]
    ring
  · simp [amp, ampMat, mulVec, dotProduct, Fin.sum_univ_two]
    ring

noncomputable def prodMat (w κ : ℂ → ℂ) (L : List (ℂ × ℝ)) : CMat := (L.map fun l => layMat (w l.1) (κ l.1) l.2).prod

theorem TM_ampMat {w κ w' κ' : ℂ} (hw : w' ≠ 0) (hκ : κ' ≠ 0) : TM ((w * κ)⁻¹ / (w' * κ')⁻¹) * ampMat w' κ' = ampMat w κ := by
  have h : (w * κ)⁻¹ / (w' * κ')⁻¹ * (1 / (2 * (w' * κ'))) = 1 / (2 * (w * κ)) := by
    rw [div_inv_eq_mul, one_div, mul_inv, one_div, mul_inv]
    have : w' * κ' ≠ 0 := mul_ne_zero hw hκ
    field_simp
  generalize (w * κ)⁻¹ / (w' * κ')⁻¹ = a at h
  ext i j
  fin_cases i <;> fin_cases j <;> simp [TM, ampMat, Matrix.mul_apply, Fin.sum_univ_two] at h ⊢
  · ring
  · linear_combination -h
  · ring
  · linear_combination h

theorem PM_ampMat {w κ : ℂ} (hw : w ≠ 0) (hκ : κ ≠ 0) (t : ℝ) : PM (κ * t) * ampMat w κ = ampMat w κ * layMat w κ t := by
  ext i j
  fin_cases i <;> fin_cases j <;>
    simp [PM, layMat, ampMat, Matrix.mul_apply, Fin.sum_univ_two, Complex.cosh, Complex.sinh] <;> field_simp <;> ring

theorem fieldMat_prod (w κ : ℂ → ℂ) (env : ℂ) (L : List (ℂ × ℝ)) (sub : ℂ) (hw : ∀ l ∈ L, w l.1 ≠ 0) (hκ : ∀ l ∈ L, κ l.1 ≠ 0)
    (hws : w sub ≠ 0) (hκs : κ sub ≠ 0) :
    fieldMat w κ env L sub * ampMat (w sub) (κ sub) = ampMat (w env) (κ env) * prodMat w κ L := by
  induction L generalizing env with
  | nil =>
    simp only [fieldMat, List.map_nil, gen, prodMat, List.prod_nil, mul_one]
    exact TM_ampMat hws hκs
  | cons l L ih =>
    have he := hw _ List.mem_cons_self
    have hk := hκ _ List.mem_cons_self
    have ih := ih l.1 (fun l hl => hw l (List.mem_cons_of_mem _ hl)) (fun l hl => hκ l (List.mem_cons_of_mem _ hl))
    have e : fieldMat w κ env (l :: L) sub = TM ((w env * κ env)⁻¹ / (w l.1 * κ l.1)⁻¹) * PM (κ l.1 * l.2) * fieldMat w κ l.1 L sub := by
      simp only [fieldMat, List.map_cons, gen, Matrix.mul_assoc]
    rw [e, Matrix.mul_assoc, ih, ← Matrix.mul_assoc, Matrix.mul_assoc (TM _), PM_ampMat he hk, ← Matrix.mul_assoc, TM_ampMat he hk]
    simp only [prodMat, List.map_cons, List.prod_cons, Matrix.mul_assoc]

/-! ## First order in the thickness -/

theorem norm_mat_le {A : CMat} {b : ℝ} (h : ∀ i j, ‖A i j‖ ≤ b) : ‖A‖ ≤ 2 * b := by
  have hb : 0 ≤ b := (norm_nonneg _).trans (h 0 0)
  lift b to NNReal using hb
  rw [← coe_nnnorm, Matrix.linfty_opNNNorm_def]
  have : (Finset.univ.sup fun i : Fin 2 => ∑ j, ‖A i j‖₊) ≤ 2 * b := by
    refine Finset.sup_le fun i _ => ?_
    rw [Fin.sum_univ_two, two_mul]
    exact add_le_add (h i 0) (h i 1)
  exact_mod_cast this

/-- `F y h = 1 - h A y + O(h²)`, the same for all `y`. -/
def Expands (S : Set ℝ) (F : ℝ → ℝ → CMat) (A : ℝ → CMat) : Prop :=
  ∃ c h₀ : ℝ, 0 < h₀ ∧ 0 ≤ c ∧ ∀ y ∈ S, ‖A y‖ ≤ c ∧ ∀ h, 0 ≤ h → h ≤ h₀ → ‖F y h - 1 + (h : ℂ) • A y‖ ≤ c * h ^ 2

theorem Expands.one (S : Set ℝ) : Expands S (fun _ _ => 1) fun _ => 0 :=
  ⟨0, 1, one_pos, le_rfl, fun y _ => ⟨by simp, fun h _ _ => by simp⟩⟩

theorem Expands.mul {S : Set ℝ} {F G : ℝ → ℝ → CMat} {A B : ℝ → CMat} (hF : Expands S F A) (hG : Expands S G B) :
    Expands S (fun y h => F y h * G y h) fun y => A y + B y := by
  obtain ⟨a, h₁, p1, ha, hF⟩ := hF
  obtain ⟨b, h₂, p2, hb, hG⟩ := hG
  have hm : 0 < min 1 (min h₁ h₂) := lt_min one_pos (lt_min p1 p2)
  refine ⟨a * (1 + 2 * b) + (1 + a) * b + a * b + a + b, min 1 (min h₁ h₂), hm, by positivity, fun y hy => ?_⟩
  obtain ⟨A1, F1⟩ := hF y hy
  obtain ⟨B1, G1⟩ := hG y hy
  refine ⟨(norm_add_le _ _).trans (by nlinarith [mul_nonneg ha hb]), fun h h0 h1 => ?_⟩
  have l1 : h ≤ 1 := h1.trans (min_le_left _ _)
  have f := F1 h h0 (h1.trans ((min_le_right _ _).trans (min_le_left _ _)))
  have g := G1 h h0 (h1.trans ((min_le_right _ _).trans (min_le_right _ _)))
  have hn : ‖(h : ℂ)‖ = h := by rw [Complex.norm_real, Real.norm_of_nonneg h0]
  have one : ‖(1 : CMat)‖ ≤ 1 := by
    rw [← Matrix.diagonal_one]
    refine (Matrix.linfty_opNorm_diagonal _).le.trans ?_
    rw [pi_norm_le_iff_of_nonneg zero_le_one]
    simp
  have sA : ‖(h : ℂ) • A y‖ ≤ h * a := by rw [norm_smul, hn]; exact mul_le_mul_of_nonneg_left A1 h0
  have sB : ‖(h : ℂ) • B y‖ ≤ h * b := by rw [norm_smul, hn]; exact mul_le_mul_of_nonneg_left B1 h0
  have hh : h ^ 2 ≤ h := by nlinarith
  have gn : ‖G y h‖ ≤ 1 + 2 * b := by
    have e : G y h = (G y h - 1 + (h : ℂ) • B y) + (1 - (h : ℂ) • B y) := by abel
    rw [e]
    refine (norm_add_le _ _).trans ((add_le_add g (norm_sub_le _ _)).trans ?_)
    nlinarith
  have an : ‖1 - (h : ℂ) • A y‖ ≤ 1 + a := (norm_sub_le _ _).trans (by nlinarith)
  have e : F y h * G y h - 1 + (h : ℂ) • (A y + B y) =
      (F y h - 1 + (h : ℂ) • A y) * G y h + (1 - (h : ℂ) • A y) * (G y h - 1 + (h : ℂ) • B y) + ((h : ℂ) • A y) * ((h : ℂ) • B y) := by
    rw [smul_add]
    generalize (h : ℂ) • A y = X
    generalize (h : ℂ) • B y = Y
    noncomm_ring
  rw [e]
  have n1 : ‖(F y h - 1 + (h : ℂ) • A y) * G y h‖ ≤ a * h ^ 2 * (1 + 2 * b) :=
    (norm_mul_le _ _).trans (mul_le_mul f gn (norm_nonneg _) (by positivity))
  have n2 : ‖(1 - (h : ℂ) • A y) * (G y h - 1 + (h : ℂ) • B y)‖ ≤ (1 + a) * (b * h ^ 2) :=
    (norm_mul_le _ _).trans (mul_le_mul an g (norm_nonneg _) (by positivity))
  have n3 : ‖((h : ℂ) • A y) * ((h : ℂ) • B y)‖ ≤ h * a * (h * b) :=
    (norm_mul_le _ _).trans (mul_le_mul sA sB (norm_nonneg _) (by positivity))
  refine (norm_add₃_le).trans ((add_le_add (add_le_add n1 n2) n3).trans ?_)
  have : 0 ≤ (a + b) * h ^ 2 := by positivity
  nlinarith

theorem cosh_sub_le {z : ℂ} (hz : ‖z‖ ≤ 1) : ‖Complex.cosh z - 1‖ ≤ ‖z‖ ^ 2 := by
  have h1 := Complex.norm_exp_sub_one_sub_id_le hz
  have h2 := Complex.norm_exp_sub_one_sub_id_le (x := -z) (by rwa [norm_neg])
  rw [norm_neg] at h2
  have e : Complex.cosh z - 1 = ((Complex.exp z - 1 - z) + (Complex.exp (-z) - 1 - -z)) / 2 := by
    unfold Complex.cosh
    ring
  rw [e, norm_div, Complex.norm_ofNat]
  have := norm_add_le (Complex.exp z - 1 - z) (Complex.exp (-z) - 1 - -z)
  linarith

theorem sinh_sub_le {z : ℂ} (hz : ‖z‖ ≤ 1) : ‖Complex.sinh z - z‖ ≤ ‖z‖ ^ 2 := by
  have h1 := Complex.norm_exp_sub_one_sub_id_le hz
  have h2 := Complex.norm_exp_sub_one_sub_id_le (x := -z) (by rwa [norm_neg])
  rw [norm_neg] at h2
  have e : Complex.sinh z - z = ((Complex.exp z - 1 - z) - (Complex.exp (-z) - 1 - -z)) / 2 := by
    unfold Complex.sinh
    ring
  rw [e, norm_div, Complex.norm_ofNat]
  have := norm_sub_le (Complex.exp z - 1 - z) (Complex.exp (-z) - 1 - -z)
  linarith

/-- Right-hand side of the equations of a layer. -/
noncomputable def rhsMat (a b : ℂ) : CMat := !![0, a; b, 0]

theorem layMat_expands {S : Set ℝ} {w κ : ℝ → ℂ} {f B : ℝ} (hf : 0 ≤ f) (hw : ∀ y ∈ S, w y ≠ 0) (hκ : ∀ y ∈ S, κ y ≠ 0)
    (bw : ∀ y ∈ S, ‖w y‖ ≤ B) (bi : ∀ y ∈ S, ‖(w y)⁻¹‖ ≤ B) (bk : ∀ y ∈ S, ‖κ y‖ ≤ B) (hB : 1 ≤ B) :
    Expands S (fun y h => layMat (w y) (κ y) (f * h)) fun y => rhsMat (f * (w y)⁻¹) (f * (w y * κ y ^ 2)) := by
  have hB0 : 0 ≤ B := by linarith
  refine ⟨2 * (B ^ 4 * f ^ 2) + 2 * (f * B ^ 3), 1 / (B * (f + 1)), by positivity, by positivity, fun y hy => ⟨?_, fun h h0 h1 => ?_⟩⟩
  · have hfn : ‖(f : ℂ)‖ = f := by rw [Complex.norm_real, Real.norm_of_nonneg hf]
    have e1 : ‖(f : ℂ) * (w y)⁻¹‖ ≤ f * B ^ 3 := by
      rw [norm_mul, hfn]
      exact mul_le_mul_of_nonneg_left ((bi y hy).trans (by nlinarith [sq_nonneg (B - 1), mul_nonneg hB0 hB0])) hf
    have e2 : ‖(f : ℂ) * (w y * κ y ^ 2)‖ ≤ f * B ^ 3 := by
      rw [norm_mul, hfn, norm_mul, norm_pow]
      refine mul_le_mul_of_nonneg_left ?_ hf
      calc ‖w y‖ * ‖κ y‖ ^ 2 ≤ B * B ^ 2 := mul_le_mul (bw y hy) (pow_le_pow_left₀ (norm_nonneg _) (bk y hy) 2) (by positivity) hB0
        _ = B ^ 3 := by ring
    have e0 : (0 : ℝ) ≤ f * B ^ 3 := by positivity
    have := norm_mat_le (A := rhsMat (f * (w y)⁻¹) (f * (w y * κ y ^ 2))) (b := f * B ^ 3) (by
      intro i j
      fin_cases i <;> fin_cases j
      · simpa [rhsMat] using e0
      · simpa [rhsMat] using e1
      · simpa [rhsMat] using e2
      · simpa [rhsMat] using e0)
    have : 0 ≤ 2 * (B ^ 4 * f ^ 2) := by positivity
    linarith
  · have hz : ‖κ y * ((f * h : ℝ) : ℂ)‖ ≤ B * (f * h) := by
      rw [norm_mul, Complex.norm_real, Real.norm_of_nonneg (mul_nonneg hf h0)]
      exact mul_le_mul_of_nonneg_right (bk y hy) (mul_nonneg hf h0)
    have hz1 : ‖κ y * ((f * h : ℝ) : ℂ)‖ ≤ 1 := by
      refine hz.trans ?_
      rw [le_div_iff₀ (by positivity)] at h1
      nlinarith [mul_nonneg hB0 h0]
    have hz2 : ‖κ y * ((f * h : ℝ) : ℂ)‖ ^ 2 ≤ B ^ 2 * f ^ 2 * h ^ 2 := by
      refine (pow_le_pow_left₀ (norm_nonneg _) hz 2).trans (le_of_eq ?_)
      ring
    have c := (cosh_sub_le hz1).trans hz2
    have s := (sinh_sub_le hz1)
    have hkn : 0 < ‖κ y‖ := norm_pos_iff.2 (hκ y hy)
    have s1 : ‖(Complex.sinh (κ y * ((f * h : ℝ) : ℂ)) - κ y * ((f * h : ℝ) : ℂ)) / κ y‖ ≤ B * f ^ 2 * h ^ 2 := by
      rw [norm_div, div_le_iff₀ hkn]
      refine s.trans ?_
      rw [norm_mul, Complex.norm_real, Real.norm_of_nonneg (mul_nonneg hf h0), mul_pow]
      have : ‖κ y‖ ^ 2 ≤ B * ‖κ y‖ := by nlinarith [bk y hy]
      calc ‖κ y‖ ^ 2 * (f * h) ^ 2 ≤ B * ‖κ y‖ * (f * h) ^ 2 := mul_le_mul_of_nonneg_right this (sq_nonneg _)
        _ = _ := by ring
    have B24 : B ^ 2 ≤ B ^ 4 := pow_le_pow_right₀ hB (by norm_num)
    have hfh : 0 ≤ f ^ 2 * h ^ 2 := by positivity
    have B24' : B ^ 2 * f ^ 2 * h ^ 2 ≤ B ^ 4 * f ^ 2 * h ^ 2 := by
      rw [mul_assoc, mul_assoc]
      exact mul_le_mul_of_nonneg_right B24 hfh
    have d : ‖Complex.cosh (κ y * ((f * h : ℝ) : ℂ)) - 1‖ ≤ B ^ 4 * f ^ 2 * h ^ 2 := c.trans B24'
    have o1 : ‖-(Complex.sinh (κ y * ((f * h : ℝ) : ℂ)) / (w y * κ y)) + (h : ℂ) * (f * (w y)⁻¹)‖ ≤ B ^ 4 * f ^ 2 * h ^ 2 := by
      have e : -(Complex.sinh (κ y * ((f * h : ℝ) : ℂ)) / (w y * κ y)) + (h : ℂ) * (f * (w y)⁻¹) =
          -((w y)⁻¹ * ((Complex.sinh (κ y * ((f * h : ℝ) : ℂ)) - κ y * ((f * h : ℝ) : ℂ)) / κ y)) := by
        have := hw y hy
        have := hκ y hy
        push_cast
        field_simp
        ring
      rw [e, norm_neg, norm_mul]
      refine ((mul_le_mul (bi y hy) s1 (norm_nonneg _) hB0).trans (le_of_eq ?_)).trans B24'
      ring
    have o2 : ‖-(w y * κ y * Complex.sinh (κ y * ((f * h : ℝ) : ℂ))) + (h : ℂ) * (f * (w y * κ y ^ 2))‖ ≤ B ^ 4 * f ^ 2 * h ^ 2 := by
      have e : -(w y * κ y * Complex.sinh (κ y * ((f * h : ℝ) : ℂ))) + (h : ℂ) * (f * (w y * κ y ^ 2)) =
          -(w y * κ y * (Complex.sinh (κ y * ((f * h : ℝ) : ℂ)) - κ y * ((f * h : ℝ) : ℂ))) := by
        push_cast
        ring
      rw [e, norm_neg, norm_mul, norm_mul]
      refine (mul_le_mul (mul_le_mul (bw y hy) (bk y hy) (norm_nonneg _) hB0) (s.trans hz2) (norm_nonneg _) (by positivity)).trans (le_of_eq ?_)
      ring
    refine (norm_mat_le (b := B ^ 4 * f ^ 2 * h ^ 2) ?_).trans ?_
    · intro i j
      fin_cases i <;> fin_cases j
      · simpa [layMat, rhsMat] using d
      · simpa [layMat, rhsMat] using o1
      · simpa [layMat, rhsMat] using o2
      · simpa [layMat, rhsMat] using d
    · have : 0 ≤ 2 * (f * B ^ 3) * h ^ 2 := by positivity
      linarith

theorem rhsMat_add (a b c d : ℂ) : rhsMat a b + rhsMat c d = rhsMat (a + c) (b + d) := by
  ext i j
  fin_cases i <;> fin_cases j <;> simp [rhsMat]

/-- A slice. -/
theorem slice_expands {S : Set ℝ} (w κ : ℂ → ℂ) (P : List ((ℝ → ℂ) × ℝ)) {B : ℝ} (hB : 1 ≤ B) (hf : ∀ p ∈ P, 0 ≤ p.2)
    (hP : ∀ p ∈ P, ∀ y ∈ S, w (p.1 y) ≠ 0 ∧ κ (p.1 y) ≠ 0 ∧ ‖w (p.1 y)‖ ≤ B ∧ ‖(w (p.1 y))⁻¹‖ ≤ B ∧ ‖κ (p.1 y)‖ ≤ B) :
    Expands S (fun y h => prodMat w κ (P.map fun p => (p.1 y, p.2 * h))) fun y =>
      rhsMat (P.map fun p => (p.2 : ℂ) * (w (p.1 y))⁻¹).sum (P.map fun p => (p.2 : ℂ) * (w (p.1 y) * κ (p.1 y) ^ 2)).sum := by
  induction P with
  | nil =>
    have : rhsMat 0 0 = 0 := by
      ext i j
      fin_cases i <;> fin_cases j <;> simp [rhsMat]
    simpa [prodMat, this] using Expands.one S
  | cons p P ih =>
    have ih := ih (fun p hp => hf p (List.mem_cons_of_mem _ hp)) fun p hp => hP p (List.mem_cons_of_mem _ hp)
    have h0 := hP p List.mem_cons_self
    have := (layMat_expands (w := fun y => w (p.1 y)) (κ := fun y => κ (p.1 y)) (hf p List.mem_cons_self) (fun y hy => (h0 y hy).1)
      (fun y hy => (h0 y hy).2.1) (fun y hy => (h0 y hy).2.2.1) (fun y hy => (h0 y hy).2.2.2.1) (fun y hy => (h0 y hy).2.2.2.2) hB).mul ih
    simpa only [rhsMat_add, prodMat, List.map_cons, List.prod_cons, List.sum_cons] using this

/-! ## The limit -/

theorem norm_one_mat : ‖(1 : CMat)‖ ≤ 1 := by
  rw [← Matrix.diagonal_one]
  refine (Matrix.linfty_opNorm_diagonal _).le.trans ?_
  rw [pi_norm_le_iff_of_nonneg zero_le_one]
  simp

/-- The slices carry a solution from the bottom to the top, up to an error that vanishes. -/
theorem slices_limit {T : ℝ} (hT : 0 < T) {F : ℝ → ℝ → CMat} {A : ℝ → CMat} (hF : Expands (Icc 0 T) F A) {x : ℝ → Fin 2 → ℂ}
    (hx : ContinuousOn x (Icc 0 T)) (hg : ContinuousOn (fun y => A y *ᵥ x y) (Icc 0 T))
    (hd : ∀ y ∈ Ioo 0 T, HasDerivAt x (A y *ᵥ x y) y) :
    Tendsto (fun N : ℕ => ((List.range N).map fun j : ℕ => F (T * j / N) (T / N)).prod *ᵥ x T) atTop (𝓝 (x 0)) := by
  obtain ⟨c, h₀, hh₀, hc, hF⟩ := hF
  obtain ⟨U, hU⟩ := isCompact_Icc.exists_bound_of_continuousOn hx
  have hU0 : 0 ≤ U := (norm_nonneg _).trans (hU 0 ⟨le_rfl, hT.le⟩)
  have ux := isCompact_Icc.uniformContinuousOn_of_continuous hx
  have ug := isCompact_Icc.uniformContinuousOn_of_continuous hg
  rw [Metric.uniformContinuousOn_iff_le] at ux ug
  rw [Metric.tendsto_atTop]
  intro ε hε
  set K := Real.exp (2 * c * T) with hK
  have hK0 : 0 < K := Real.exp_pos _
  set δ := ε / (2 * (K * T * (1 + c + c * U))) with hδ
  have hδ0 : 0 < δ := by positivity
  obtain ⟨d₁, hd₁, ux⟩ := ux δ hδ0
  obtain ⟨d₂, hd₂, ug⟩ := ug δ hδ0
  have hm : 0 < min (min (min d₁ d₂) h₀) (min δ 1) := by positivity
  obtain ⟨N₀, hN₀⟩ := exists_nat_gt (T / min (min (min d₁ d₂) h₀) (min δ 1))
  refine ⟨N₀ + 1, fun N hN => ?_⟩
  have hNp : (0 : ℝ) < N := by exact_mod_cast (by omega : 0 < N)
  set h := T / N with hh
  have hh0 : 0 < h := div_pos hT hNp
  have hhm : h ≤ min (min (min d₁ d₂) h₀) (min δ 1) := by
    rw [div_lt_iff₀ hm] at hN₀
    rw [hh, div_le_iff₀ hNp]
    have : (N₀ : ℝ) ≤ N := by exact_mod_cast (by omega : N₀ ≤ N)
    nlinarith
  have b1 : h ≤ d₁ := hhm.trans ((min_le_left _ _).trans ((min_le_left _ _).trans (min_le_left _ _)))
  have b2 : h ≤ d₂ := hhm.trans ((min_le_left _ _).trans ((min_le_left _ _).trans (min_le_right _ _)))
  have b3 : h ≤ h₀ := hhm.trans ((min_le_left _ _).trans (min_le_right _ _))
  have b4 : h ≤ δ := hhm.trans ((min_le_right _ _).trans (min_le_left _ _))
  have b5 : h ≤ 1 := hhm.trans ((min_le_right _ _).trans (min_le_right _ _))
  have hNh : N * h = T := by
    rw [hh]
    field_simp
  set y : ℕ → ℝ := fun j => T * j / N with hy
  have y0 : y 0 = 0 := by simp [hy]
  have yN : y N = T := by
    simp only [hy]
    field_simp
  have ys : ∀ j, y (j + 1) = y j + h := fun j => by
    simp only [hy, hh]
    push_cast
    ring
  have ym : ∀ j ≤ N, y j ∈ Icc 0 T := fun j hj => by
    refine ⟨by simp only [hy]; positivity, ?_⟩
    simp only [hy]
    rw [div_le_iff₀ hNp]
    exact mul_le_mul_of_nonneg_left (by exact_mod_cast hj) hT.le
  have hhn : ‖(h : ℂ)‖ = h := by rw [Complex.norm_real, Real.norm_of_nonneg hh0.le]
  -- one slice
  have loc : ∀ j < N, ‖x (y j) - F (y j) h *ᵥ x (y (j + 1))‖ ≤ h * (δ * (1 + c + c * U)) := by
    intro j hj
    have m0 := ym j hj.le
    have m1 := ym (j + 1) hj
    obtain ⟨A1, F1⟩ := hF _ m0
    have F1 := F1 h hh0.le b3
    have hlt : y j ≤ y (j + 1) := by rw [ys]; linarith
    have sub : Icc (y j) (y (j + 1)) ⊆ Icc 0 T := Icc_subset_Icc m0.1 m1.2
    have mv : ‖x (y (j + 1)) - x (y j) - (h : ℂ) • (A (y j) *ᵥ x (y j))‖ ≤ δ * h := by
      have hgc : ContinuousOn (fun z => A z *ᵥ x z) (Icc (y j) (y (j + 1))) := hg.mono sub
      have int : IntervalIntegrable (fun z => A z *ᵥ x z) MeasureTheory.volume (y j) (y (j + 1)) :=
        ContinuousOn.intervalIntegrable_of_Icc hlt hgc
      have ftc := intervalIntegral.integral_eq_sub_of_hasDerivAt_of_le hlt (hx.mono sub)
        (fun z hz => hd z ⟨m0.1.trans_lt hz.1, hz.2.trans_le m1.2⟩) int
      have e : x (y (j + 1)) - x (y j) - (h : ℂ) • (A (y j) *ᵥ x (y j)) =
          ∫ z in y j..y (j + 1), (A z *ᵥ x z - A (y j) *ᵥ x (y j)) := by
        rw [intervalIntegral.integral_sub int intervalIntegrable_const, ftc, intervalIntegral.integral_const, ys, add_sub_cancel_left]
        rfl
      rw [e]
      have := intervalIntegral.norm_integral_le_of_norm_le_const (a := y j) (b := y (j + 1)) (C := δ)
        (f := fun z => A z *ᵥ x z - A (y j) *ᵥ x (y j)) fun z hz => by
          rw [uIoc_of_le hlt] at hz
          rw [← dist_eq_norm]
          refine ug z (sub ⟨hz.1.le, hz.2⟩) _ m0 ?_
          have := hz.2
          rw [ys] at this
          rw [Real.dist_eq, abs_of_pos (by linarith [hz.1])]
          linarith
      rwa [show y (j + 1) - y j = h by rw [ys]; ring, abs_of_pos hh0] at this
    have dx : ‖x (y (j + 1)) - x (y j)‖ ≤ δ := by
      rw [← dist_eq_norm]
      refine ux _ m1 _ m0 ?_
      rw [ys, Real.dist_eq, add_sub_cancel_left, abs_of_pos hh0]
      exact b1
    have e : x (y j) - F (y j) h *ᵥ x (y (j + 1)) =
        -((F (y j) h - 1 + (h : ℂ) • A (y j)) *ᵥ x (y (j + 1))) + (h : ℂ) • (A (y j) *ᵥ (x (y (j + 1)) - x (y j))) -
          (x (y (j + 1)) - x (y j) - (h : ℂ) • (A (y j) *ᵥ x (y j))) := by
      rw [add_mulVec, sub_mulVec, one_mulVec, smul_mulVec, mulVec_sub, smul_sub]
      abel
    rw [e]
    have n1 : ‖(F (y j) h - 1 + (h : ℂ) • A (y j)) *ᵥ x (y (j + 1))‖ ≤ c * h ^ 2 * U :=
      (Matrix.linfty_opNorm_mulVec _ _).trans (mul_le_mul F1 (hU _ m1) (norm_nonneg _) (by positivity))
    have n2 : ‖(h : ℂ) • (A (y j) *ᵥ (x (y (j + 1)) - x (y j)))‖ ≤ h * (c * δ) := by
      rw [norm_smul, hhn]
      exact mul_le_mul_of_nonneg_left ((Matrix.linfty_opNorm_mulVec _ _).trans (mul_le_mul A1 dx (norm_nonneg _) hc)) hh0.le
    refine (norm_sub_le _ _).trans ((add_le_add ((norm_add_le _ _).trans (add_le_add ((norm_neg _).le.trans n1) n2)) mv).trans ?_)
    have : c * h ^ 2 * U ≤ h * (δ * (c * U)) := by
      have := mul_le_mul_of_nonneg_left b4 (mul_nonneg (mul_nonneg hc hU0) hh0.le)
      nlinarith
    nlinarith
  -- partial products
  set Q : ℕ → CMat := fun j => ((List.range j).map fun j : ℕ => F (y j) h).prod with hQ
  have Qs : ∀ j, Q (j + 1) = Q j * F (y j) h := fun j => by
    simp [hQ, List.range_succ]
  have Fn : ∀ j < N, ‖F (y j) h‖ ≤ Real.exp (2 * c * h) := by
    intro j hj
    obtain ⟨A1, F1⟩ := hF _ (ym j hj.le)
    have F1 := F1 h hh0.le b3
    have e : F (y j) h = (F (y j) h - 1 + (h : ℂ) • A (y j)) + (1 - (h : ℂ) • A (y j)) := by abel
    have s : ‖(h : ℂ) • A (y j)‖ ≤ h * c := by rw [norm_smul, hhn]; exact mul_le_mul_of_nonneg_left A1 hh0.le
    rw [e]
    refine (norm_add_le _ _).trans ((add_le_add F1 (norm_sub_le _ _)).trans ?_)
    have h2 : c * h ^ 2 ≤ c * h := by
      rw [sq, ← mul_assoc]
      exact mul_le_of_le_one_right (mul_nonneg hc hh0.le) b5
    have := Real.add_one_le_exp (2 * c * h)
    have := norm_one_mat
    linarith
  have Qn : ∀ j ≤ N, ‖Q j‖ ≤ K := by
    have : ∀ j ≤ N, ‖Q j‖ ≤ Real.exp (2 * c * h) ^ j := by
      intro j
      induction j with
      | zero => simp [hQ]
      | succ j ih =>
        intro hj
        rw [Qs, pow_succ]
        exact (norm_mul_le _ _).trans (mul_le_mul (ih (by omega)) (Fn j hj) (norm_nonneg _) (by positivity))
    intro j hj
    refine (this j hj).trans ?_
    rw [← Real.exp_nat_mul, hK, Real.exp_le_exp]
    have : (j : ℝ) * h ≤ T := by
      rw [← hNh]
      exact mul_le_mul_of_nonneg_right (by exact_mod_cast hj) hh0.le
    nlinarith
  have tel : Q 0 *ᵥ x (y 0) - Q N *ᵥ x (y N) = ∑ j ∈ Finset.range N, Q j *ᵥ (x (y j) - F (y j) h *ᵥ x (y (j + 1))) := by
    rw [← Finset.sum_range_sub' (fun j => Q j *ᵥ x (y j))]
    refine Finset.sum_congr rfl fun j _ => ?_
    rw [mulVec_sub, mulVec_mulVec, Qs]
  have Q0 : Q 0 *ᵥ x (y 0) = x 0 := by
    rw [y0]
    simp [hQ]
  rw [Q0, yN] at tel
  rw [dist_comm, dist_eq_norm]
  change ‖x 0 - Q N *ᵥ x T‖ < ε
  rw [tel]
  calc ‖∑ j ∈ Finset.range N, Q j *ᵥ (x (y j) - F (y j) h *ᵥ x (y (j + 1)))‖
      ≤ ∑ j ∈ Finset.range N, K * (h * (δ * (1 + c + c * U))) := by
        refine norm_sum_le_of_le _ fun j hj => ?_
        have hj := Finset.mem_range.1 hj
        exact (Matrix.linfty_opNorm_mulVec _ _).trans (mul_le_mul (Qn j hj.le) (loc j hj) (norm_nonneg _) hK0.le)
    _ = ε / 2 := by
        rw [Finset.sum_const, Finset.card_range, nsmul_eq_mul]
        have : (N : ℝ) * (K * (h * (δ * (1 + c + c * U)))) = (N * h) * K * (1 + c + c * U) * δ := by ring
        rw [this, hNh, hδ]
        have : 0 < 1 + c + c * U := by positivity
        field_simp
    _ < ε := by linarith

theorem prodMat_fine (w κ : ℂ → ℂ) (P : List ((ℝ → ℂ) × ℝ)) (T : ℝ) (N : ℕ) :
    prodMat w κ (fine P T N) = ((List.range N).map fun j : ℕ => prodMat w κ (P.map fun p => (p.1 (T * j / N), p.2 * (T / N)))).prod := by
  unfold fine prodMat
  rw [List.map_flatMap]
  induction List.range N with
  | nil => rfl
  | cons j l ih => rw [List.flatMap_cons, List.prod_append, ih, List.map_cons, List.prod_cons]

/-- Amplitudes above the film from those below. -/
theorem graded_amp {T : ℝ} (hT : 0 < T) (w κ : ℂ → ℂ) (env : ℂ) (P : List ((ℝ → ℂ) × ℝ)) (sub : ℂ) {B : ℝ} (hB : 1 ≤ B)
    (hf : ∀ p ∈ P, 0 ≤ p.2)
    (hP : ∀ p ∈ P, ∀ y ∈ Icc 0 T, w (p.1 y) ≠ 0 ∧ κ (p.1 y) ≠ 0 ∧ ‖w (p.1 y)‖ ≤ B ∧ ‖(w (p.1 y))⁻¹‖ ≤ B ∧ ‖κ (p.1 y)‖ ≤ B)
    (hws : w sub ≠ 0) (hκs : κ sub ≠ 0) {a b : ℝ → ℂ} (ha : ContinuousOn a (Icc 0 T)) (hb : ContinuousOn b (Icc 0 T))
    (ea : ∀ y ∈ Icc 0 T, a y = (P.map fun p => (p.2 : ℂ) * (w (p.1 y))⁻¹).sum)
    (eb : ∀ y ∈ Icc 0 T, b y = (P.map fun p => (p.2 : ℂ) * (w (p.1 y) * κ (p.1 y) ^ 2)).sum) {u v : ℝ → ℂ} (hu : Continuous u)
    (hv : Continuous v) (hd : ∀ y ∈ Ioo 0 T, HasDerivAt u (a y * v y) y ∧ HasDerivAt v (b y * u y) y) :
    Tendsto (fun N : ℕ => fieldMat w κ env (fine P T N) sub *ᵥ amp (w sub) (κ sub) u v T) atTop (𝓝 (amp (w env) (κ env) u v 0)) := by
  have hx : Continuous fun y => ![u y, v y] := by
    refine continuous_pi fun i => ?_
    fin_cases i
    · exact hu
    · exact hv
  have mv : ∀ y, rhsMat (a y) (b y) *ᵥ ![u y, v y] = ![a y * v y, b y * u y] := fun y => by
    ext i
    fin_cases i <;> simp [rhsMat, mulVec, dotProduct, Fin.sum_univ_two]
  have mem : ∀ N : ℕ, ∀ l ∈ fine P T N, w l.1 ≠ 0 ∧ κ l.1 ≠ 0 := by
    intro N l hl
    unfold fine at hl
    obtain ⟨j, hj, hl⟩ := List.mem_flatMap.1 hl
    obtain ⟨p, hp, rfl⟩ := List.mem_map.1 hl
    have hj := List.mem_range.1 hj
    have hN : (0 : ℝ) < N := by exact_mod_cast (by omega : 0 < N)
    have := hP p hp (T * j / N) ⟨by positivity, by
      rw [div_le_iff₀ hN]
      exact mul_le_mul_of_nonneg_left (by exact_mod_cast hj.le) hT.le⟩
    exact ⟨this.1, this.2.1⟩
  have hexp := slice_expands w κ P hB hf hP
  have hexp' : Expands (Icc 0 T) (fun y h => prodMat w κ (P.map fun p => (p.1 y, p.2 * h))) fun y => rhsMat (a y) (b y) := by
    obtain ⟨c, h₀, h1, h2, h3⟩ := hexp
    refine ⟨c, h₀, h1, h2, fun y hy => ?_⟩
    have := h3 y hy
    beta_reduce at this ⊢
    rwa [ea y hy, eb y hy]
  have lim := slices_limit hT hexp' hx.continuousOn (by
      simp only [mv]
      refine continuousOn_pi.2 fun i => ?_
      fin_cases i
      · exact ha.mul hv.continuousOn
      · exact hb.mul hu.continuousOn) (fun y hy => by
      rw [mv]
      refine hasDerivAt_pi.2 fun i => ?_
      fin_cases i
      · exact (hd y hy).1
      · exact (hd y hy).2)
  have e : ∀ N : ℕ, fieldMat w κ env (fine P T N) sub *ᵥ amp (w sub) (κ sub) u v T =
      ampMat (w env) (κ env) *ᵥ (((List.range N).map fun j : ℕ => prodMat w κ (P.map fun p => (p.1 (T * j / N), p.2 * (T / N)))).prod *ᵥ
        ![u T, v T]) := by
    intro N
    rw [amp_ampMat, mulVec_mulVec, fieldMat_prod w κ env _ sub (fun l hl => (mem N l hl).1) (fun l hl => (mem N l hl).2) hws hκs,
      prodMat_fine, mulVec_mulVec]
  simp only [e]
  rw [amp_ampMat]
  exact ((continuous_const (y := ampMat (w env) (κ env))).matrix_mulVec continuous_id).continuousAt.tendsto.comp lim

/-- Coefficients of the film. -/
theorem graded_coefs {M : ℕ → CMat} {a b c : ℂ} (ha : a ≠ 0) (h : Tendsto (fun N => M N *ᵥ ![c, 0]) atTop (𝓝 ![a, b])) :
    (∀ᶠ N in atTop, M N 0 0 ≠ 0) ∧ Tendsto (fun N => M N 1 0 / M N 0 0) atTop (𝓝 (b / a)) ∧
      Tendsto (fun N => 1 / M N 0 0) atTop (𝓝 (c / a)) := by
  rw [tendsto_pi_nhds] at h
  have h0 := h 0
  have h1 := h 1
  simp only [mulVec, dotProduct, Fin.sum_univ_two, cons_val_zero, cons_val_one, mul_zero, add_zero] at h0 h1
  have hc : c ≠ 0 := by
    rintro rfl
    simp only [mul_zero] at h0
    exact ha (tendsto_nhds_unique h0 tendsto_const_nhds)
  have g0 : Tendsto (fun N => M N 0 0) atTop (𝓝 (a / c)) := (h0.div_const c).congr fun N => mul_div_cancel_right₀ _ hc
  have g1 : Tendsto (fun N => M N 1 0) atTop (𝓝 (b / c)) := (h1.div_const c).congr fun N => mul_div_cancel_right₀ _ hc
  have hac : a / c ≠ 0 := div_ne_zero ha hc
  refine ⟨g0.eventually_ne hac, ?_, ?_⟩
  · have := g1.div g0 hac
    rwa [div_div_div_cancel_right₀ hc] at this
  · have := (tendsto_const_nhds (x := (1 : ℂ))).div g0 hac
    rwa [one_div_div] at this

end Snompy
