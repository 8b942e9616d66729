import Verif.Lemmas.Hurwitz
import Verif.Lemmas.Taylor
import Mathlib.Analysis.SpecialFunctions.Log.Basic

/-!
# Absolute convergence of the Taylor series in the reflection coefficient
-/

namespace Snompy

open Filter Topology Finset

theorem norm_wave_le {g : ℝ → ℂ} {x0 amp M : ℝ} (hA : 0 ≤ amp) (n θ : ℝ)
    (h : ∀ x, x0 - amp ≤ x → x ≤ x0 + amp → ‖g x‖ ≤ M) : ‖wave g x0 amp n θ‖ ≤ M := by
  unfold wave
  have : ‖Complex.exp (-Complex.I * n * θ)‖ = 1 := by
    rw [show (-Complex.I * n * θ : ℂ) = ((-(n * θ) : ℝ) : ℂ) * Complex.I by push_cast; ring,
      Complex.norm_exp_ofReal_mul_I]
  rw [norm_mul, this, mul_one]
  exact h _ (by nlinarith [Real.neg_one_le_cos θ]) (by nlinarith [Real.cos_le_one θ])

theorem norm_demodSum_le {g : ℝ → ℂ} {x0 amp M : ℝ} (hA : 0 ≤ amp) (n : ℝ) (N : ℕ) (hM : 0 ≤ M)
    (h : ∀ x, x0 - amp ≤ x → x ≤ x0 + amp → ‖g x‖ ≤ M) : ‖demodSum g x0 amp n N‖ ≤ M := by
  unfold demodSum
  rcases Nat.eq_zero_or_pos N with rfl | hN
  · simpa using hM
  · have hN' : (0 : ℝ) < N := by exact_mod_cast hN
    rw [norm_div, Complex.norm_natCast, div_le_iff₀ hN']
    refine (norm_sum_le _ _).trans ?_
    refine (sum_le_card_nsmul _ _ M fun k _ => ?_).trans_eq (by rw [card_range, nsmul_eq_mul, mul_comm])
    rw [norm_div, Complex.norm_ofNat, div_le_iff₀ two_pos]
    have h1 := norm_wave_le hA n (phase N (k + 1)) h
    have h2 := norm_wave_le hA n (phase N k) h
    have := norm_add_le (wave g x0 amp n (phase N (k + 1))) (wave g x0 amp n (phase N k))
    linarith

/-- A radius beyond two given moduli. -/
theorem exists_radius {f : ℝ → ℂ} {z A : ℝ} (hA : 0 ≤ A) (hf : ContinuousOn f (Set.Icc z (z + 2 * A))) {b w : ℂ}
    (hb : ∀ x, z ≤ x → x ≤ z + 2 * A → ‖b * f x‖ < 1) (hw : ∀ x, z ≤ x → x ≤ z + 2 * A → ‖w * f x‖ < 1) :
    ∃ R ρ, ‖b‖ < R ∧ ‖w‖ < R ∧ 0 ≤ ρ ∧ R * ρ < 1 ∧ ∀ x, z ≤ x → x ≤ z + 2 * A → ‖f x‖ ≤ ρ := by
  obtain ⟨y, hy, hmax⟩ := (isCompact_Icc (a := z) (b := z + 2 * A)).exists_isMaxOn
    (Set.nonempty_Icc.2 (by linarith)) hf.norm
  obtain ⟨ρ, hρ⟩ : ∃ ρ, ρ = ‖f y‖ := ⟨_, rfl⟩
  have h0 : 0 ≤ ρ := hρ ▸ norm_nonneg _
  obtain ⟨m, hm⟩ : ∃ m, m = max ‖b‖ ‖w‖ := ⟨_, rfl⟩
  have h1 : m * ρ < 1 := by
    rw [hm, hρ]
    rcases max_choice ‖b‖ ‖w‖ with h | h <;> rw [h, ← norm_mul]
    · exact hb y hy.1 hy.2
    · exact hw y hy.1 hy.2
  have h2 : 0 < (1 - m * ρ) / (2 * (ρ + 1)) := by
    apply div_pos <;> linarith
  have h3 : m < m + (1 - m * ρ) / (2 * (ρ + 1)) := by linarith
  refine ⟨m + (1 - m * ρ) / (2 * (ρ + 1)), ρ, ?_, ?_, h0, ?_, fun x hx hx' => hρ ▸ hmax ⟨hx, hx'⟩⟩
  · exact lt_of_le_of_lt (hm ▸ le_max_left _ _) h3
  · exact lt_of_le_of_lt (hm ▸ le_max_right _ _) h3
  · have : (1 - m * ρ) / (2 * (ρ + 1)) * ρ ≤ (1 - m * ρ) / 2 := by
      rw [div_mul_eq_mul_div, div_le_div_iff₀ (by linarith) two_pos]
      nlinarith
    rw [add_mul]
    linarith

theorem summable_of_geometric {c : ℕ → ℂ} {K R ρ : ℝ} (hR : 0 ≤ R) (h0 : 0 ≤ ρ) (h1 : R * ρ < 1)
    (h : ∀ j, ‖c (j + 1)‖ ≤ K * ρ ^ j) : Summable fun j => ‖c j‖ * R ^ j := by
  rw [← summable_nat_add_iff 1]
  refine Summable.of_nonneg_of_le (fun j => by positivity) (fun j => ?_)
    ((summable_geometric_of_lt_one (mul_nonneg hR h0) h1).mul_left (K * R))
  calc ‖c (j + 1)‖ * R ^ (j + 1) ≤ K * ρ ^ j * R ^ (j + 1) := by
        gcongr
        exact h j
    _ = K * R * (R * ρ) ^ j := by rw [pow_succ, mul_pow]; ring

theorem Fdm.continuousOn_geom {z d r l : ℝ} (h : Fdm.GeomOk z d r l) (g : ℂ) (A : ℝ) :
    ContinuousOn (fun x => Fdm.geom x d r l g) (Set.Icc z (z + 2 * A)) := by
  unfold Fdm.geom
  have hl := h.l_pos
  have hden : ∀ x ∈ Set.Icc z (z + 2 * A), r + 4 * x + 2 * d * r ≠ 0 := fun x hx =>
    (by linarith [h.den, hx.1] : 0 < r + 4 * x + 2 * d * r).ne'
  refine ContinuousOn.div_const (ContinuousOn.mul ?_ ?_) _
  · exact continuousOn_const.sub (Complex.continuous_ofReal.comp_continuousOn (by fun_prop))
  · refine Complex.continuous_ofReal.comp_continuousOn (ContinuousOn.log ?_ ?_)
    · exact ContinuousOn.div continuousOn_const (by fun_prop) hden
    · intro x hx
      exact div_ne_zero (by linarith) (hden x hx)

theorem Pdm.continuousOn_geom {z r : ℝ} (h : 0 < r + z) (α : ℂ) (A : ℝ) :
    ContinuousOn (fun x => Pdm.geom x r α) (Set.Icc z (z + 2 * A)) := by
  unfold Pdm.geom
  refine ContinuousOn.div continuousOn_const (by fun_prop) fun x hx => ?_
  have : 0 < 16 * Real.pi * (r + x) ^ 3 := by
    have := Real.pi_pos
    have : 0 < r + x := by linarith [hx.1]
    positivity
  exact_mod_cast this.ne'

theorem Fdm.summable_coef {z r l : ℝ} {g : ℂ} {d0 d1 : ℝ} (h0 : Fdm.GeomOk z d0 r l) (h1 : Fdm.GeomOk z d1 r l)
    {A : ℝ} (hA : 0 ≤ A) (n : ℝ) (N : ℕ) {b w : ℂ}
    (hb : ∀ x, z ≤ x → x ≤ z + 2 * A → ‖b * Fdm.geom x d1 r l g‖ < 1)
    (hw : ∀ x, z ≤ x → x ≤ z + 2 * A → ‖w * Fdm.geom x d1 r l g‖ < 1) :
    ∃ R, ‖b‖ < R ∧ ‖w‖ < R ∧ Summable fun j => ‖Fdm.coef z j A n r l g d0 d1 N‖ * R ^ j := by
  obtain ⟨R, ρ, h2, h3, h4, h5, h6⟩ := exists_radius hA (Fdm.continuousOn_geom h1 g A) hb hw
  obtain ⟨y, hy, hmax⟩ := (isCompact_Icc (a := z) (b := z + 2 * A)).exists_isMaxOn
    (Set.nonempty_Icc.2 (by linarith)) (Fdm.continuousOn_geom h0 g A).norm
  refine ⟨R, h2, h3, summable_of_geometric ((norm_nonneg b).trans h2.le) h4 h5 (K := ‖Fdm.geom y d0 r l g‖)
    fun j => ?_⟩
  unfold Fdm.coef
  rw [if_neg (Nat.succ_ne_zero j), Nat.add_sub_cancel, norm_div, Complex.norm_ofNat]
  have : ‖demodSum (fun x => Fdm.geom x d0 r l g * Fdm.geom x d1 r l g ^ j) (z + A) A n N‖ ≤
      ‖Fdm.geom y d0 r l g‖ * ρ ^ j := by
    refine norm_demodSum_le hA n N (by positivity) fun x hx hx' => ?_
    rw [norm_mul, norm_pow]
    have e1 := h6 x (by linarith) (by linarith)
    have e2 : ‖Fdm.geom x d0 r l g‖ ≤ ‖Fdm.geom y d0 r l g‖ := hmax ⟨by linarith, by linarith⟩
    gcongr
  have h7 : 0 ≤ ‖Fdm.geom y d0 r l g‖ * ρ ^ j := by positivity
  linarith

theorem Pdm.summable_coef {z r : ℝ} {α : ℂ} (h : 0 < r + z) {A : ℝ} (hA : 0 ≤ A) (n : ℝ) (N : ℕ) {b w : ℂ}
    (hb : ∀ x, z ≤ x → x ≤ z + 2 * A → ‖b * Pdm.geom x r α‖ < 1)
    (hw : ∀ x, z ≤ x → x ≤ z + 2 * A → ‖w * Pdm.geom x r α‖ < 1) :
    ∃ R, ‖b‖ < R ∧ ‖w‖ < R ∧ Summable fun j => ‖Pdm.coef z j A n r α N‖ * R ^ j := by
  obtain ⟨R, ρ, h2, h3, h4, h5, h6⟩ := exists_radius hA (Pdm.continuousOn_geom h α A) hb hw
  refine ⟨R, h2, h3, summable_of_geometric ((norm_nonneg b).trans h2.le) h4 h5 (K := ρ) fun j => ?_⟩
  unfold Pdm.coef
  refine norm_demodSum_le hA n N (by positivity) fun x hx hx' => ?_
  rw [norm_pow, pow_succ, mul_comm]
  have e1 := h6 x (by linarith) (by linarith)
  gcongr

end Snompy
