import Verif.Lemmas.Quad
import Verif.Lemmas.FarLimit
import Verif.Lemmas.LaguerreConv

/-!
# The reflection coefficient as a function of the momentum, and integrals over it
-/

namespace Snompy

open Filter Topology Set MeasureTheory

theorem FP.num_div_eq_num {a b c : ℂ} (h : (FP.num a / FP.num b : FP ℂ) = FP.num c) : b ≠ 0 ∧ a / b = c := by
  by_cases hb : b = 0
  · subst hb
    rw [FP.num_div_zero] at h
    cases h
  · rw [FP.num_div _ hb] at h
    exact ⟨hb, FP.num.inj h⟩

theorem continuous_clipped (t : ℝ) : Continuous fun q : ℝ => clipped (q * t) := by
  unfold clipped
  fun_prop

theorem clipped_eventually (t : ℝ) : ∃ l : ℝ, ∀ᶠ q in atTop, clipped (q * t) = l := by
  have hp := maxExpArg_pos
  rcases lt_trichotomy t 0 with ht | ht | ht
  · refine ⟨-maxExpArg, ?_⟩
    filter_upwards [eventually_ge_atTop (-maxExpArg / t)] with q hq
    have : q * t ≤ -maxExpArg := (div_le_iff_of_neg ht).1 hq
    rw [clipped, max_eq_right this, min_eq_left (by linarith)]
  · exact ⟨clipped 0, Eventually.of_forall fun q => by rw [ht, mul_zero]⟩
  · refine ⟨maxExpArg, ?_⟩
    filter_upwards [eventually_ge_atTop (maxExpArg / t)] with q hq
    have : maxExpArg ≤ q * t := (div_le_iff₀ ht).1 hq
    rw [clipped, max_eq_left (by linarith), min_eq_right this]

/-- The matrix is a continuous function of the momentum that is finally constant. -/
theorem qsMat_continuous (env : ℂ) (L : List (ℂ × ℝ)) (sub : ℂ) : Continuous fun q : ℝ => qsMat q env L sub := by
  unfold qsMat
  induction L generalizing env with
  | nil => exact continuous_const
  | cons l L ih =>
    simp only [List.map_cons, gen]
    refine continuous_const.mul (Continuous.mul ?_ (ih _))
    have : Continuous PM := by
      refine continuous_matrix fun i j => ?_
      fin_cases i <;> fin_cases j <;> simp [PM] <;> fun_prop
    exact this.comp (Complex.continuous_ofReal.comp (continuous_clipped l.2))

theorem qsMat_eventually (env : ℂ) (L : List (ℂ × ℝ)) (sub : ℂ) :
    ∃ M, ∀ᶠ q in atTop, qsMat q env L sub = M := by
  have : ∃ l : List (ℂ × ℂ), ∀ᶠ q : ℝ in atTop, (L.map fun l => (l.1, ((clipped (q * l.2) : ℝ) : ℂ))) = l := by
    induction L with
    | nil => exact ⟨[], Eventually.of_forall fun _ => rfl⟩
    | cons a L ih =>
      obtain ⟨l, hl⟩ := ih
      obtain ⟨x, hx⟩ := clipped_eventually a.2
      refine ⟨(a.1, (x : ℂ)) :: l, ?_⟩
      filter_upwards [hl, hx] with q h1 h2
      rw [List.map_cons, h1, h2]
  obtain ⟨l, hl⟩ := this
  exact ⟨_, hl.mono fun q hq => by unfold qsMat; rw [hq]⟩

/-- Reflection coefficients that are finite at every momentum. -/
theorem refl_regular (e : ℂ) (L : List (ℂ × ℝ)) (sub : ℂ) (nu : Option ℝ) (b : ℝ → ℂ)
    (hb : ∀ q, 0 ≤ q → (layered e L sub nu).reflCoefQs (FP.num q) = .ok (FP.num (b q))) :
    ContinuousOn b (Ici 0) ∧ ∃ l, ∀ᶠ q in atTop, b q = l := by
  have hne : ¬ ((∃ l ∈ L, l.1 = 0) ∨ sub = 0) := by
    intro h
    have h1 := hb 0 le_rfl
    unfold Stack.reflCoefQs at h1
    rw [transferMatrixQs_zero e L sub nu _ h, PyM.ok_bind] at h1
    simp only [nanMat, FP.nan_div, PyM.pure_eq_ok] at h1
    cases h1
  simp only [not_or, not_exists, not_and] at hne
  have key : ∀ q, 0 ≤ q → qsMat q e L sub 0 0 ≠ 0 ∧ qsMat q e L sub 1 0 / qsMat q e L sub 0 0 = b q := by
    intro q hq
    have h1 := hb q hq
    rw [reflCoefQs_eq e L sub nu q hne.1 hne.2] at h1
    exact FP.num_div_eq_num (Except.ok.inj h1)
  have hc := qsMat_continuous e L sub
  constructor
  · have hc' : ∀ i j, Continuous fun q : ℝ => qsMat q e L sub i j := fun i j => hc.matrix_elem i j
    exact (((hc' 1 0).continuousOn).div ((hc' 0 0).continuousOn) fun q hq => (key q hq).1).congr
      fun q hq => ((key q hq).2).symm
  · obtain ⟨M, hM⟩ := qsMat_eventually e L sub
    refine ⟨M 1 0 / M 0 0, ?_⟩
    filter_upwards [hM, eventually_ge_atTop 0] with q h1 h2
    rw [← (key q h2).2, h1]

/-! ### Complex integrands -/

namespace Laguerre

variable {rules : ℕ → List (ℝ × ℝ)} (hr : ∀ n, n ≠ 0 → GaussLaguerre n (rules n))

theorem re_sum (rule : List (ℝ × ℝ)) (j : ℕ) (g : ℝ → ℂ) :
    ((rule.map fun xw => ((xw.2 * xw.1 ^ j : ℝ) : ℂ) * g xw.1).sum).re = quad rule (fun x => x ^ j * (g x).re) ∧
    ((rule.map fun xw => ((xw.2 * xw.1 ^ j : ℝ) : ℂ) * g xw.1).sum).im = quad rule (fun x => x ^ j * (g x).im) := by
  induction rule with
  | nil => simp [quad]
  | cons a l ih =>
    simp only [quad, List.map_cons, List.sum_cons, Complex.add_re, Complex.add_im, Complex.re_ofReal_mul,
      Complex.im_ofReal_mul] at ih ⊢
    rw [ih.1, ih.2]
    constructor <;> ring

include hr in
theorem conv_complex {g : ℝ → ℂ} {l : ℂ} (hg : ContinuousOn g (Ici 0)) (hl : Tendsto g atTop (𝓝 l)) (j : ℕ) :
    Tendsto (fun n => ((rules n).map fun xw => ((xw.2 * xw.1 ^ j : ℝ) : ℂ) * g xw.1).sum) atTop
      (𝓝 (∫ x in Ioi (0 : ℝ), ((x ^ j * Real.exp (-x) : ℝ) : ℂ) * g x)) := by
  have hre := Complex.continuous_re.comp_continuousOn hg
  have him := Complex.continuous_im.comp_continuousOn hg
  have hlre := (Complex.continuous_re.tendsto l).comp hl
  have hlim := (Complex.continuous_im.tendsto l).comp hl
  have hint : ∫ x in Ioi (0 : ℝ), ((x ^ j * Real.exp (-x) : ℝ) : ℂ) * g x =
      ((∫ x in Ioi (0 : ℝ), x ^ j * (g x).re * Real.exp (-x) : ℝ) : ℂ) +
        ((∫ x in Ioi (0 : ℝ), x ^ j * (g x).im * Real.exp (-x) : ℝ) : ℂ) * Complex.I := by
    rw [← integral_complex_ofReal, ← integral_complex_ofReal, ← integral_mul_const, ← integral_add]
    · refine integral_congr_ae (Eventually.of_forall fun x => ?_)
      simp only
      conv_lhs => rw [← Complex.re_add_im (g x)]
      push_cast
      ring
    · exact (integrable_cont hre hlre j).ofReal
    · exact ((integrable_cont him hlim j).ofReal).mul_const _
  rw [hint]
  have h1 := (Complex.continuous_ofReal.tendsto _).comp (conv_cont hr hre hlre j)
  have h2 := ((Complex.continuous_ofReal.tendsto _).comp (conv_cont hr him hlim j)).mul_const Complex.I
  refine (h1.add h2).congr fun n => ?_
  rw [← Complex.re_add_im (List.sum _), (re_sum (rules n) j g).1, (re_sum (rules n) j g).2]
  rfl

/-- Change of variables `x = 2 z q`. -/
theorem scale_integral {z : ℝ} (hz : 0 < z) (j : ℕ) (b : ℝ → ℂ) :
    ∫ x in Ioi (0 : ℝ), ((x ^ j * Real.exp (-x) : ℝ) : ℂ) * b (x / (2 * z)) =
      ((2 * z) ^ (j + 1) : ℝ) * ∫ q in Ioi (0 : ℝ), ((q ^ j * Real.exp (-(2 * z * q)) : ℝ) : ℂ) * b q := by
  have h2 : (0 : ℝ) < 2 * z := by positivity
  have h := integral_comp_mul_left_Ioi (fun x => ((x ^ j * Real.exp (-x) : ℝ) : ℂ) * b (x / (2 * z))) 0 h2
  rw [mul_zero] at h
  have h3 : ∀ q : ℝ, (((2 * z * q) ^ j * Real.exp (-(2 * z * q)) : ℝ) : ℂ) * b (2 * z * q / (2 * z)) =
      ((2 * z) ^ j : ℝ) * (((q ^ j * Real.exp (-(2 * z * q)) : ℝ) : ℂ) * b q) := by
    intro q
    rw [mul_div_cancel_left₀ _ h2.ne', mul_pow]
    push_cast
    ring
  simp only [h3] at h
  rw [integral_const_mul] at h
  rw [pow_succ, mul_comm ((2 * z) ^ j), Complex.ofReal_mul, mul_assoc, h, Complex.real_smul, ← mul_assoc,
    ← Complex.ofReal_mul, mul_inv_cancel₀ h2.ne']
  simp

end Laguerre

end Snompy
