import Verif.Lemmas.DoubleInverse
import Verif.Props.DoubleFdm

/-!
# C101: the inverse functions in double precision

`F64 L`/`C128 L` are the double-precision readings (`Verif/Double.lean`). What `refl_coef_qs_from_eff_pol` returns is compared
with the reflection coefficient whose polarisability was given (`Verif/Spec/Geometry.lean`, `Verif/Spec/Condition.lean`), and
with the reflection coefficient of the sample that `eff_pol` was called with.
-/

namespace Snompy.Props

open Snompy

variable {L : Libm}

seal uro eta maxDouble

/-! ## C101 Inversion in double precision -/

/-- The reflection coefficient with the polarisability `w`, in the point dipole model. -/
theorem C101_pdm_inverse (cfg : Env) (z r : ℝ) (α β w : ℂ) (hr : 0 < r) (hz : 0 ≤ z) (h1 : (1 / 2) ^ 100 ≤ r + z)
    (h2 : r + z ≤ 2 ^ 100) (hα : ‖α‖ ≤ 2 ^ 300) (hw1 : (1 / 2) ^ 200 ≤ ‖w‖) (hw2 : ‖w‖ ≤ 2 ^ 400)
    (hf1 : (1 / 2) ^ 100 ≤ ‖Pdm.geom z r α‖) (hf2 : ‖Pdm.geom z r α‖ ≤ 2 ^ 100) (hβ : α / (1 - Pdm.geom z r α * β) = w) :
    ∃ b : ℂ, Pdm.reflCoefQsFromEffPol cfg ⟨.fin w.re, .fin w.im⟩ (some (.fin z))
        ⟨some (.fin r), none, some ⟨.fin α.re, .fin α.im⟩⟩ = .ok (⟨.fin b.re, .fin b.im⟩ : C128 L) ∧
      ‖b - β‖ ≤ 1 / 10 ^ 13 * (‖β‖ + ‖1 - Pdm.geom z r α * β‖ / ‖Pdm.geom z r α‖) := by
  have hu := uro_pos
  have hu' := uro_le
  have hfp : 0 < ‖Pdm.geom z r α‖ := lt_of_lt_of_le (by positivity) hf1
  have hwp : 0 < ‖w‖ := lt_of_lt_of_le (by positivity) hw1
  have hf : Pdm.geom z r α ≠ 0 := norm_pos_iff.1 hfp
  have hw : w ≠ 0 := norm_pos_iff.1 hwp
  have h0 : 1 - Pdm.geom z r α * β ≠ 0 := fun h => hw (by rw [← hβ, h, div_zero])
  have hρ : 0 < ‖1 - Pdm.geom z r α * β‖ := norm_pos_iff.2 h0
  have hαw : α = w * (1 - Pdm.geom z r α * β) := by rw [← hβ, div_mul_cancel₀ _ h0]
  obtain ⟨b, hb, eb⟩ := Pdm.inverse_near (L := L) cfg (a := ⟨some (.fin r), none, some ⟨.fin α.re, .fin α.im⟩⟩) (zT := .fin z)
    (ka := 0) (w := w) rfl (height_near (rh := r) (xh := z) (δ := 0) (by
      rw [sub_self, abs_zero]
      positivity) (by simp) hr hz (by positivity) h1 h2) (C128.near_mk' α) h1 h2 hα (by norm_num) (by norm_num) le_rfl
      (by norm_num) hw1 hw2 hf1 hf2
  have e1 : (w - α) / (Pdm.geom z r α * w) = β := by
    rw [div_eq_iff (mul_ne_zero hf hw)]
    conv_lhs => rw [hαw]
    ring
  have e2 : ‖α‖ / ‖Pdm.geom z r α * w‖ = ‖1 - Pdm.geom z r α * β‖ / ‖Pdm.geom z r α‖ := by
    have hαn : ‖α‖ = ‖w‖ * ‖1 - Pdm.geom z r α * β‖ := by
      conv_lhs => rw [hαw]
      rw [norm_mul]
    rw [hαn, norm_mul]
    field_simp
  rw [e1, e2] at eb
  refine ⟨b, hb, eb.trans ?_⟩
  have hβ0 := norm_nonneg β
  have hX : (0 : ℝ) ≤ ‖1 - Pdm.geom z r α * β‖ / ‖Pdm.geom z r α‖ := by positivity
  -- one of the two terms is not small
  have hlow : (1 / 2 : ℝ) ^ 101 ≤ ‖β‖ + ‖1 - Pdm.geom z r α * β‖ / ‖Pdm.geom z r α‖ := by
    have h3 : 1 / ‖Pdm.geom z r α‖ ≤ ‖β‖ + ‖1 - Pdm.geom z r α * β‖ / ‖Pdm.geom z r α‖ := by
      rw [div_le_iff₀ hfp, add_mul, div_mul_cancel₀ _ hfp.ne']
      have := norm_add_le (Pdm.geom z r α * β) (1 - Pdm.geom z r α * β)
      rw [add_sub_cancel, norm_one, norm_mul] at this
      linarith
    refine le_trans ?_ h3
    have : (1 / 2 : ℝ) ^ (0 + 100) ≤ 1 / ‖Pdm.geom z r α‖ := ratio_ge (by simp) hf2 hfp
    exact (pow_le_pow_of_le_one (by norm_num) (by norm_num) (by norm_num)).trans this
  have h3 : uro ^ 3 ≤ uro * (‖β‖ + ‖1 - Pdm.geom z r α * β‖ / ‖Pdm.geom z r α‖) := by
    rw [uro3_eq]
    exact mul_le_mul_of_nonneg_left ((pow_le_pow_of_le_one (by norm_num) (by norm_num) (by norm_num)).trans hlow) hu.le
  have k1 := mul_le_mul_of_nonneg_right hu' hβ0
  have k2 := mul_le_mul_of_nonneg_right hu' hX
  linarith

/-- From the reflection coefficient of a sample to the polarisability and back. -/
theorem C101_pdm_trip (cfg : Env) (env sub : ℂ) (he : Moderate env) (hs : Moderate sub) (h0 : sub + env ≠ 0) (β : ℂ)
    (hβ : β = (sub - env) / (sub + env)) (hβ2 : 1 + ‖β‖ ≤ 10 ^ 12) (z r : ℝ) (α : ℂ) (hr : 0 < r) (hz : 0 ≤ z)
    (h1 : (1 / 2) ^ 100 ≤ r + z) (h2 : r + z ≤ 2 ^ 100) (hα1 : (1 / 2) ^ 100 ≤ ‖α‖) (hα : ‖α‖ ≤ 2 ^ 300)
    (hf1 : (1 / 2) ^ 100 ≤ ‖Pdm.geom z r α‖) (hf2 : ‖Pdm.geom z r α‖ ≤ 2 ^ 10) (hD : 1 - Pdm.geom z r α * β ≠ 0)
    (hκ : Pdm.condition z r α β ≤ 10 ^ 10) :
    ∃ w c : ℂ, Pdm.effPol cfg (layeredC128 L env [] sub) (some (.fin z)) ⟨some (.fin r), none, some ⟨.fin α.re, .fin α.im⟩⟩ =
        .ok ⟨.fin w.re, .fin w.im⟩ ∧
      Pdm.reflCoefQsFromEffPol cfg ⟨.fin w.re, .fin w.im⟩ (some (.fin z)) ⟨some (.fin r), none, some ⟨.fin α.re, .fin α.im⟩⟩ =
        .ok (⟨.fin c.re, .fin c.im⟩ : C128 L) ∧
      ‖c - β‖ ≤ 4 / 10 ^ 13 * (1 / ‖Pdm.geom z r α‖ + (1 + ‖β‖) ^ 2) := by
  have hu := uro_pos
  subst hβ
  obtain ⟨b, hb, hbe⟩ := bulk_reflCoefQs (L := L) he hs h0 hβ2
  exact Pdm.trip (L := L) cfg (S := layeredC128 L env [] sub)
    (a := ⟨some (.fin r), none, some ⟨.fin α.re, .fin α.im⟩⟩) (zT := .fin z) (ka := 0) rfl hb hbe hβ2
    (height_near (rh := r) (xh := z) (δ := 0) (by
      rw [sub_self, abs_zero]
      positivity) (by simp) hr hz (by positivity) h1 h2) (C128.near_mk' α) h1 h2 hα1 hα (by norm_num) (by norm_num) le_rfl
      (by norm_num) hf1 hf2 hD hκ

/-- The reflection coefficient with the polarisability `w`, in the finite dipole model. -/
theorem C101_fdm_inverse (cfg : Env) (z r l : ℝ) (g β w : ℂ) (d0 d1 dA K : ℝ) (R0 : Fdm.Range z d0 r l g)
    (R1 : Fdm.Range z d1 r l g) (hw2 : 1 + ‖w - 1‖ ≤ 2 ^ 200) (hG : Fdm.geom z d0 r l g ≠ 0)
    (hD : 1 - β * Fdm.geom z d1 r l g ≠ 0) (hβ : Fdm.pol z d0 d1 r l g β = w)
    (hK : (1 + Fdm.size z d0 r l g + Fdm.size z d1 r l g) * (1 + ‖w - 1‖) * ‖1 - β * Fdm.geom z d1 r l g‖ ≤
      K * ‖Fdm.geom z d0 r l g‖) (hK2 : K ≤ 10 ^ 10) :
    ∃ b : ℂ, Fdm.reflCoefQsFromEffPol cfg ⟨.fin w.re, .fin w.im⟩ (some (.fin z)) (fdmTipC128 L r l g d0 d1 dA) =
        ⟨.fin b.re, .fin b.im⟩ ∧ ‖b - β‖ ≤ 6 / 10 ^ 13 * K * ‖β‖ + (1 / 2) ^ 158 := by
  have hu := uro_pos
  have hu' := uro_le
  have hGp : 0 < ‖Fdm.geom z d0 r l g‖ := norm_pos_iff.2 hG
  have hρ : 0 < ‖1 - β * Fdm.geom z d1 r l g‖ := norm_pos_iff.2 hD
  have hw : w - 1 = β * Fdm.geom z d0 r l g / (2 * (1 - β * Fdm.geom z d1 r l g)) := by rw [← hβ, Fdm.pol_sub_one]
  have hDw : Fdm.geom z d0 r l g + 2 * Fdm.geom z d1 r l g * (w - 1) =
      Fdm.geom z d0 r l g / (1 - β * Fdm.geom z d1 r l g) := by
    rw [hw]
    generalize Fdm.geom z d0 r l g = G0 at *
    generalize Fdm.geom z d1 r l g = G1 at *
    obtain ⟨D, hD'⟩ : ∃ D, D = 1 - β * G1 := ⟨_, rfl⟩
    have h1 : β * G1 = 1 - D := by rw [hD']; ring
    rw [← hD'] at hD ⊢
    rw [show 2 * G1 * (β * G0 / (2 * D)) = β * G1 * G0 / D by field_simp, h1]
    field_simp
    ring
  have hD0 : Fdm.geom z d0 r l g / (1 - β * Fdm.geom z d1 r l g) ≠ 0 := div_ne_zero hG hD
  have e : 2 * (w - 1) / (Fdm.geom z d0 r l g + 2 * Fdm.geom z d1 r l g * (w - 1)) = β := by
    rw [hDw, div_eq_iff hD0, hw]
    field_simp
  obtain ⟨b, hb, eb⟩ := Fdm.inverse_near (L := L) cfg (zT := .fin z) (K := K) (w := w)
    (fdmTipC128_near cfg r l g d0 d1 dA) R0 R1 ⟨z, rfl, by
      rw [sub_self, abs_zero]
      have := (Range.ok R0).r_pos
      have := R0.z_nonneg
      positivity⟩ hw2 (by rw [hDw]; exact hD0) (by
        rw [hDw, norm_div, ← mul_div_assoc, le_div_iff₀ hρ]
        exact hK) hK2
  rw [e] at eb
  refine ⟨b, hb, eb.trans ?_⟩
  have hK0 : 0 ≤ K := by
    by_contra hc
    have h1 := mul_neg_of_neg_of_pos (not_le.1 hc) hGp
    obtain ⟨f0, hf0, e0, n0, m0⟩ := Fdm.geom_near (L := L) R0 (fdmTipC128_near cfg r l g d0 d1 dA).r
      (fdmTipC128_near cfg r l g d0 d1 dA).l (fdmTipC128_near cfg r l g d0 d1 dA).g (zT := .fin z) ⟨z, rfl, by
      rw [sub_self, abs_zero]
      have := (Range.ok R0).r_pos
      have := R0.z_nonneg
      positivity⟩ (fdmTipC128_near (L := L) cfg r l g d0 d1 dA).d0 (by norm_num) le_rfl
    obtain ⟨f1, hf1, e1, n1, m1⟩ := Fdm.geom_near (L := L) R1 (fdmTipC128_near cfg r l g d0 d1 dA).r
      (fdmTipC128_near cfg r l g d0 d1 dA).l (fdmTipC128_near cfg r l g d0 d1 dA).g (zT := .fin z) ⟨z, rfl, by
      rw [sub_self, abs_zero]
      have := (Range.ok R0).r_pos
      have := R0.z_nonneg
      positivity⟩ (fdmTipC128_near (L := L) cfg r l g d0 d1 dA).d1 (by norm_num) le_rfl
    have hH0 := (norm_nonneg _).trans n0
    have hH1 := (norm_nonneg _).trans n1
    have : 0 ≤ (1 + Fdm.size z d0 r l g + Fdm.size z d1 r l g) * (1 + ‖w - 1‖) * ‖1 - β * Fdm.geom z d1 r l g‖ := by positivity
    linarith
  have k1 := mul_le_mul_of_nonneg_right hu' (mul_nonneg hK0 (norm_nonneg β))
  have k2 : 2 * uro ^ 3 = (1 / 2) ^ 158 := by
    rw [uro3_pow]
    norm_num
  have := mul_nonneg hK0 (norm_nonneg β)
  linarith

/-- From the reflection coefficient of a sample to the polarisability and back. -/
theorem C101_fdm_trip (cfg : Env) (env sub : ℂ) (he : Moderate env) (hs : Moderate sub) (h0 : sub + env ≠ 0) (β : ℂ)
    (hβ : β = (sub - env) / (sub + env)) (hβ2 : 1 + ‖β‖ ≤ 10 ^ 12) (z r l : ℝ) (g : ℂ) (d0 d1 dA : ℝ)
    (R0 : Fdm.Range z d0 r l g) (R1 : Fdm.Range z d1 r l g) (hG : Fdm.geom z d0 r l g ≠ 0)
    (hD : 1 - β * Fdm.geom z d1 r l g ≠ 0)
    (hκ : Fdm.condition z d0 d1 r l g β * ((1 + ‖β‖) ^ 3 * (1 + Fdm.size z d0 r l g + Fdm.size z d1 r l g) ^ 2 /
      ‖Fdm.geom z d0 r l g‖) ≤ 10 ^ 9) (nLag : Option ℕ) :
    ∃ w c : ℂ, Fdm.effPol cfg (layeredC128 L env [] sub) (some (.fin z)) (fdmTipC128 L r l g d0 d1 dA) nLag none =
        .ok ⟨.fin w.re, .fin w.im⟩ ∧
      Fdm.reflCoefQsFromEffPol cfg ⟨.fin w.re, .fin w.im⟩ (some (.fin z)) (fdmTipC128 L r l g d0 d1 dA) =
        ⟨.fin c.re, .fin c.im⟩ ∧
      ‖c - β‖ ≤ 5 / 10 ^ 12 * ((1 + ‖β‖) ^ 3 * (1 + Fdm.size z d0 r l g + Fdm.size z d1 r l g) ^ 2 /
        ‖Fdm.geom z d0 r l g‖) := by
  have hu := uro_pos
  subst hβ
  obtain ⟨b, hb, hbe⟩ := bulk_reflCoefQs (L := L) he hs h0 hβ2
  exact Fdm.trip (L := L) cfg (S := layeredC128 L env [] sub) rfl (zT := .fin z) nLag
    (fdmTipC128_near cfg r l g d0 d1 dA) hb hbe hβ2 R0 R1 ⟨z, rfl, by
      rw [sub_self, abs_zero]
      have := (Range.ok R0).r_pos
      have := R0.z_nonneg
      positivity⟩ hG hD hκ

/-! ### The default tip -/

theorem geom_default_ge {x d : ℝ} (hd : 1 / 2 ≤ d) (hd' : d ≤ 2) (hx : 0 ≤ x) (hx' : x ≤ 120e-9) :
    1 / 40 ≤ ‖Fdm.geom x d 20e-9 300e-9 gDefault‖ := by
  unfold Fdm.geom
  have hpos : (0 : ℝ) < 20e-9 + 4 * x + 2 * d * 20e-9 := by linarith
  have hu' : (2 : ℝ) ≤ 4 * 300e-9 / (20e-9 + 4 * x + 2 * d * 20e-9) := by
    rw [le_div_iff₀ hpos]
    linarith
  have h1 : 0.69 ≤ Real.log (4 * 300e-9 / (20e-9 + 4 * x + 2 * d * 20e-9)) := by
    refine le_trans ?_ (Real.log_le_log (by norm_num) hu')
    have := Real.log_two_gt_d9
    norm_num at this ⊢
    linarith
  have h60 : Real.log 60 ≤ 4.2 := by
    refine (Real.log_le_log (by norm_num) (by norm_num : (60 : ℝ) ≤ 2 ^ 6)).trans ?_
    rw [Real.log_pow]
    have := Real.log_two_lt_d9
    norm_num at this ⊢
    linarith
  have h3 : 0 < Real.log 60 := Real.log_pos (by norm_num)
  have hg : 0.19 ≤ ‖gDefault - (((20e-9 + 2 * x + d * 20e-9) / (2 * 300e-9) : ℝ) : ℂ)‖ := by
    refine le_trans ?_ ((le_abs_self _).trans (Complex.abs_re_le_norm _))
    rw [gDefault_re]
    have hc : 0.998 ≤ Real.cos 0.06 := by
      have := Real.one_sub_sq_div_two_le_cos (x := 0.06)
      norm_num at this ⊢
      linarith
    have : (20e-9 + 2 * x + d * 20e-9) / (2 * 300e-9) ≤ 0.5 := by
      rw [div_le_iff₀ (by norm_num)]
      linarith
    norm_num at hc this ⊢
    linarith
  rw [show (4 * 300e-9 / 20e-9 : ℝ) = 60 by norm_num, norm_div, norm_mul, Complex.norm_real, Complex.norm_real,
    Real.norm_of_nonneg (by linarith : 0 ≤ Real.log (4 * 300e-9 / (20e-9 + 4 * x + 2 * d * 20e-9))),
    Real.norm_of_nonneg h3.le, le_div_iff₀ h3]
  refine le_trans ?_ (mul_le_mul hg h1 (by norm_num) (norm_nonneg _))
  norm_num at h60 ⊢
  linarith

/-- The default tip within 120 nm of a bulk sample with `|β| ≤ 1`: `β` is recovered up to `4 · 10⁻⁸`. -/
theorem C101_default (lag : ℕ → List (ℝ × ℝ)) (env sub : ℂ) (he : Moderate env) (hs : Moderate sub) (h0 : sub + env ≠ 0)
    (hβ : ‖(sub - env) / (sub + env)‖ ≤ 1) (z : ℝ) (hz : 0 ≤ z) (hz' : z ≤ 120e-9) :
    ∃ w c : ℂ, Fdm.effPol ⟨Defaults.initial, lag⟩ (layeredC128 L env [] sub) (some (.fin z)) {} none none =
        .ok ⟨.fin w.re, .fin w.im⟩ ∧
      Fdm.reflCoefQsFromEffPol ⟨Defaults.initial, lag⟩ ⟨.fin w.re, .fin w.im⟩ (some (.fin z)) {} =
        (⟨.fin c.re, .fin c.im⟩ : C128 L) ∧
      ‖c - (sub - env) / (sub + env)‖ ≤ 4e-8 := by
  have hu := uro_pos
  obtain ⟨b, hb, hbe⟩ := bulk_reflCoefQs (L := L) he hs h0 (by linarith)
  obtain ⟨g0, g0'⟩ := d0_default
  obtain ⟨hD, hκ, -⟩ := condition_default (x := z) (d1 := 0.5) g0 g0' (by norm_num) (by norm_num) hz hz' hβ
  have hG := geom_default_ge g0 g0' hz hz'
  obtain ⟨s0, s0'⟩ := size_default g0 g0' hz hz'
  obtain ⟨s1, s1'⟩ := size_default (d := 0.5) (by norm_num) (by norm_num) hz hz'
  set d0 : ℝ := 1.31 * 300e-9 / (300e-9 + 2 * 20e-9) with hd0
  have hβ0 := norm_nonneg ((sub - env) / (sub + env))
  have hR : (1 + ‖(sub - env) / (sub + env)‖) ^ 3 *
      (1 + Fdm.size z d0 20e-9 300e-9 gDefault + Fdm.size z 0.5 20e-9 300e-9 gDefault) ^ 2 /
      ‖Fdm.geom z d0 20e-9 300e-9 gDefault‖ ≤ 8000 := by
    rw [div_le_iff₀ (by linarith)]
    have k1 : (1 + ‖(sub - env) / (sub + env)‖) ^ 3 ≤ 2 ^ 3 := pow_le_pow_left₀ (by linarith) (by linarith) 3
    have k2 : (1 + Fdm.size z d0 20e-9 300e-9 gDefault + Fdm.size z 0.5 20e-9 300e-9 gDefault) ^ 2 ≤ 5 ^ 2 :=
      pow_le_pow_left₀ (by linarith) (by linarith) 2
    have := mul_le_mul k1 k2 (sq_nonneg _) (by norm_num)
    linarith
  obtain ⟨w, c, hw, hc, ec⟩ := Fdm.trip (L := L) ⟨Defaults.initial, lag⟩ (S := layeredC128 L env [] sub) rfl (a := {}) (zT := .fin z)
    none (default_fdm_near lag) hb hbe (by linarith) (range_default g0 g0' hz hz')
    (range_default (by norm_num) (by norm_num) hz hz') ⟨z, rfl, by
      rw [sub_self, abs_zero]
      positivity⟩ (norm_pos_iff.1 (by linarith)) hD (by
        refine (mul_le_mul hκ hR (by positivity) (by norm_num)).trans (by norm_num))
  refine ⟨w, c, hw, hc, ec.trans ?_⟩
  refine (mul_le_mul_of_nonneg_left hR (by norm_num)).trans (by norm_num)

/-- A conducting sphere of radius 1 on a surface of permittivity 2. -/
theorem conductor_geom : Pdm.geom 0 1 ((4 * Real.pi * 1 ^ 3 : ℝ) : ℂ) = 1 / 4 := by
  unfold Pdm.geom
  have : (Real.pi : ℂ) ≠ 0 := by exact_mod_cast Real.pi_ne_zero
  push_cast
  field_simp
  norm_num

theorem conductor_one_ge : (1 / 2) ^ 100 ≤ ‖((4 * Real.pi * 1 ^ 3 : ℝ) : ℂ)‖ := by
  rw [norm_conductor_one]
  have := Real.pi_gt_three
  norm_num
  linarith

example (cfg : Env) := C101_pdm_trip (L := Libm.exact) cfg 1 2 moderate_one moderate_two (by norm_num) (1 / 3) (by norm_num)
    (by norm_num) 0 1 ((4 * Real.pi * 1 ^ 3 : ℝ) : ℂ) one_pos le_rfl (by norm_num) (by norm_num) conductor_one_ge conductor_one_le
    (by rw [conductor_geom]; norm_num) (by rw [conductor_geom]; norm_num)
    (condition_conductor one_pos le_rfl (by norm_num)).1
    ((condition_conductor one_pos le_rfl (by norm_num)).2.trans (by norm_num))

/-- A polarisability of `48 π / 11`: that of a sample with `β = 1/3`. -/
example (cfg : Env) := C101_pdm_inverse (L := Libm.exact) cfg 0 1 ((4 * Real.pi * 1 ^ 3 : ℝ) : ℂ) (1 / 3)
    (((48 / 11 * Real.pi : ℝ) : ℂ)) one_pos le_rfl (by norm_num) (by norm_num) conductor_one_le
    (by
      rw [Complex.norm_real, Real.norm_of_nonneg (by positivity)]
      have := Real.pi_gt_three
      exact (pow_le_one₀ (by norm_num) (by norm_num)).trans (by linarith))
    (by
      rw [Complex.norm_real, Real.norm_of_nonneg (by positivity)]
      have := Real.pi_le_four
      exact (by linarith : 48 / 11 * Real.pi ≤ 2 ^ 5).trans (pow_le_pow_right₀ one_le_two (by norm_num)))
    (by rw [conductor_geom]; norm_num) (by rw [conductor_geom]; norm_num)
    (by
      rw [conductor_geom]
      push_cast
      ring)

/-- The default tip at rest on a surface of permittivity 2. -/
example (cfg : Env) := C101_fdm_trip (L := Libm.exact) cfg 1 2 moderate_one moderate_two (by norm_num) (1 / 3) (by norm_num)
    (by norm_num) 0 20e-9 300e-9 gDefault 1 0.5 1.4 (range_default (by norm_num) (by norm_num) le_rfl (by norm_num))
    (range_default (by norm_num) (by norm_num) le_rfl (by norm_num))
    (norm_pos_iff.1 (lt_of_lt_of_le (by norm_num) (geom_default_ge (by norm_num) (by norm_num) le_rfl (by norm_num))))
    (condition_default (d0 := 1) (by norm_num) (by norm_num) (by norm_num) (by norm_num) le_rfl (by norm_num)
      (by norm_num)).1 (by
    have h1 := (condition_default (x := 0) (d0 := 1) (d1 := 0.5) (β := 1 / 3) (by norm_num) (by norm_num) (by norm_num)
      (by norm_num) le_rfl (by norm_num) (by norm_num)).2.1
    have hG := geom_default_ge (x := 0) (d := 1) (by norm_num) (by norm_num) le_rfl (by norm_num)
    obtain ⟨s0, s0'⟩ := size_default (x := 0) (d := 1) (by norm_num) (by norm_num) le_rfl (by norm_num)
    obtain ⟨s1, s1'⟩ := size_default (x := 0) (d := 0.5) (by norm_num) (by norm_num) le_rfl (by norm_num)
    have k2 : (1 + Fdm.size 0 1 20e-9 300e-9 gDefault + Fdm.size 0 0.5 20e-9 300e-9 gDefault) ^ 2 ≤ 5 ^ 2 :=
      pow_le_pow_left₀ (by linarith) (by linarith) 2
    have hR : (1 + ‖(1 / 3 : ℂ)‖) ^ 3 * (1 + Fdm.size 0 1 20e-9 300e-9 gDefault + Fdm.size 0 0.5 20e-9 300e-9 gDefault) ^ 2 /
        ‖Fdm.geom 0 1 20e-9 300e-9 gDefault‖ ≤ 8000 := by
      rw [div_le_iff₀ (by linarith), show ‖(1 / 3 : ℂ)‖ = 1 / 3 by norm_num]
      linarith
    refine (mul_le_mul h1 hR (by positivity) (by norm_num)).trans (by norm_num)) none

/-- A vanishing reflection coefficient: polarisability 1. -/
example (cfg : Env) := C101_fdm_inverse (L := Libm.exact) cfg 0 20e-9 300e-9 gDefault 0 1 1 0.5 1.4 1000
    (range_default (by norm_num) (by norm_num) le_rfl (by norm_num))
    (range_default (by norm_num) (by norm_num) le_rfl (by norm_num))
    (by rw [sub_self, norm_zero, add_zero]; exact one_le_pow₀ one_le_two)
    (norm_pos_iff.1 (lt_of_lt_of_le (by norm_num) (geom_default_ge (by norm_num) (by norm_num) le_rfl (by norm_num))))
    (by rw [zero_mul, sub_zero]; exact one_ne_zero)
    (by unfold Fdm.pol; rw [zero_mul, zero_div, add_zero])
    (by
      have hG := geom_default_ge (x := 0) (d := 1) (by norm_num) (by norm_num) le_rfl (by norm_num)
      have s0 := (size_default (x := 0) (d := 1) (by norm_num) (by norm_num) le_rfl (by norm_num)).2
      have s1 := (size_default (x := 0) (d := 0.5) (by norm_num) (by norm_num) le_rfl (by norm_num)).2
      rw [sub_self, norm_zero, add_zero, zero_mul, sub_zero, norm_one, mul_one, mul_one]
      linarith) (by norm_num)

example (lag : ℕ → List (ℝ × ℝ)) := C101_default (L := Libm.exact) lag 1 2 moderate_one moderate_two (by norm_num)
    (by norm_num) 10e-9 (by norm_num) (by norm_num)

end Snompy.Props
