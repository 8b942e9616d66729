import Verif.Lemmas.Approach
import Verif.Props.TaylorError
import Verif.Props.Pdm
import Verif.Props.Monotone
import Mathlib.Analysis.Real.Pi.Bounds

/-!
# C95: approach curves over absorbing samples, and with the default tip

C39, C68 and C72 are about lossless samples and tips without phase; the default `g_factor` has a phase.
-/

namespace Snompy.Props

open Snompy

/-! ## C95 Approach curves over absorbing samples -/

/-- Finite dipole model: the approach curve decays up to the height `Z`, if the phases of the tip (slope `κ`) and of
`1/β - f₁` (slope `τ`) are together at most 45°. -/
theorem C95_fdm (env : Env) (s : Stack (FP ℝ) (FP ℂ)) (hm : s.multilayer = false) (β : ℂ)
    (hβ : s.reflCoefQs = .ok (FP.num β)) (r l : ℝ) (g : ℂ) (d0 d1 dA κ τ Z : ℝ) (nLag : Option ℕ)
    (h0 : Fdm.Phase κ Z d0 r l g) (h1 : Fdm.Phase κ Z d1 r l g) (hw : (Fdm.geom 0 d1 r l g).re < β⁻¹.re)
    (hτ : |β⁻¹.im| + |g.im| ≤ τ * (β⁻¹.re - (Fdm.geom 0 d1 r l g).re)) (hκτ : (1 + κ) * (1 + τ) ≤ 2)
    (z₁ z₂ : ℝ) (hz : 0 ≤ z₂) (hz' : z₂ < z₁) (hZ : z₁ ≤ Z) :
    ∃ v₁ v₂ : ℂ,
      Fdm.effPol env s (some (FP.num z₁)) (fdmTip r l g d0 d1 dA) nLag (some "bulk") = .ok (FP.num v₁) ∧
      Fdm.effPol env s (some (FP.num z₂)) (fdmTip r l g d0 d1 dA) nLag (some "bulk") = .ok (FP.num v₂) ∧
      1 < ‖v₁‖ ∧ ‖v₁‖ < ‖v₂‖ := by
  have hβ0 : β ≠ 0 := by
    rintro rfl
    have p := (h1.geom le_rfl (hz.trans (hz'.le.trans hZ))).re_pos
    rw [inv_zero, Complex.zero_re] at hw
    linarith
  have hden : ∀ z, 0 ≤ z → z ≤ Z → 1 - β * Fdm.geom z d1 r l g ≠ 0 := fun z a b h => by
    refine Fdm.approach_den h1 hw a b ?_
    have : β * (β⁻¹ - Fdm.geom z d1 r l g) = 0 := by
      rw [mul_sub, mul_inv_cancel₀ hβ0, h]
    exact (mul_eq_zero.1 this).resolve_left hβ0
  have val : ∀ z, 0 ≤ z → z ≤ Z →
      Fdm.effPol env s (some (FP.num z)) (fdmTip r l g d0 d1 dA) nLag (some "bulk") =
        .ok (FP.num (1 + Fdm.geom z d0 r l g * (β⁻¹ - Fdm.geom z d1 r l g)⁻¹ / 2)) := fun z a b => by
    rw [effPol_val env s hm β hβ z r l g d0 d1 dA (h0.ok a) (h1.ok a) (hden z a b) nLag]
    have e : 1 - β * Fdm.geom z d1 r l g = β * (β⁻¹ - Fdm.geom z d1 r l g) := by
      rw [mul_sub, mul_inv_cancel₀ hβ0]
    have hne := Fdm.approach_den h1 hw a b
    rw [e]
    congr 3
    field_simp
  refine ⟨_, _, val z₁ (hz.trans hz'.le) hZ, val z₂ hz (hz'.le.trans hZ), ?_, ?_⟩
  · have p := Fdm.approach_re h0 h1 hw hτ hκτ (hz.trans hz'.le) hZ
    refine lt_of_lt_of_le ?_ (Complex.re_le_norm _)
    rw [Complex.add_re, Complex.one_re]
    linarith
  · have := Fdm.approach_anti h0 h1 hw hτ hκτ ⟨hz, hz'.le.trans hZ⟩ ⟨hz.trans hz'.le, hZ⟩ hz'
    simp only [Complex.normSq_eq_norm_sq] at this
    exact lt_of_pow_lt_pow_left₀ 2 (norm_nonneg _) this


example (env : Env) := C95_fdm env (bulk 1 3) rfl (1 / 2) (by rw [C09_refl] <;> norm_num) 20 300 ((0.7 : ℝ) : ℂ) 1 0.5 1.4
  0 1 100 none ⟨by norm_num, by norm_num, by norm_num, by norm_num, by norm_num, by norm_num⟩
  ⟨by norm_num, by norm_num, by norm_num, by norm_num, by norm_num, by norm_num⟩
  (by
    rw [geom_rgeom, Complex.ofReal_re]
    have := rgeom_lt_one (z := 0) (d := 0.5) (r := 20) (l := 300) (g := 0.7)
      ⟨by norm_num, by norm_num, by norm_num, by norm_num, by norm_num, by norm_num, by norm_num⟩
    norm_num at this ⊢
    linarith)
  (by
    rw [geom_rgeom, Complex.ofReal_re, Complex.ofReal_im]
    have := rgeom_lt_one (z := 0) (d := 0.5) (r := 20) (l := 300) (g := 0.7)
      ⟨by norm_num, by norm_num, by norm_num, by norm_num, by norm_num, by norm_num, by norm_num⟩
    norm_num at this ⊢
    linarith) (by norm_num) 100 0 le_rfl (by norm_num) le_rfl

/-- The default tip meets the conditions up to 100 nm, with a slope of 0.145. -/
theorem phase_default {d : ℝ} (hd : 1 / 2 ≤ d) (hd' : d ≤ 1.16) : Fdm.Phase 0.145 100e-9 d 20e-9 300e-9 gDefault := by
  have hre : gDefault.re = 0.7 * Real.cos 0.06 := by
    have h : gDefault = ((0.7 : ℝ) : ℂ) * Complex.exp (((0.06 : ℝ) : ℂ) * Complex.I) := by
      unfold gDefault
      norm_num
    rw [h, Complex.re_ofReal_mul, Complex.exp_ofReal_mul_I_re]
  have him : gDefault.im = 0.7 * Real.sin 0.06 := by
    have := gDefault_im 0
    rwa [Complex.sub_im, Complex.ofReal_im, sub_zero] at this
  have hc := Real.one_sub_sq_div_two_le_cos (x := 0.06)
  have hs' : Real.sin 0.06 ≤ 0.06 := Real.sin_le (by norm_num)
  have hs : 0 ≤ Real.sin 0.06 := Real.sin_nonneg_of_nonneg_of_le_pi (by norm_num) (by linarith [Real.pi_gt_three])
  refine ⟨by norm_num, by norm_num, by linarith, ?_, ?_, ?_⟩
  · norm_num at hd' ⊢
    linarith
  · rw [hre]
    norm_num at hd' hc ⊢
    linarith
  · rw [hre, him, abs_of_nonneg (by linarith)]
    have : (20e-9 + 2 * 100e-9 + d * 20e-9) / (2 * 300e-9) ≤ 0.4054 := by
      rw [div_le_iff₀ (by norm_num)]
      norm_num at hd' ⊢
      linarith
    norm_num at hs' this hc ⊢
    linarith

/-- The default tip over any bulk sample with `|Im 1/β| ≤ 0.74 (Re 1/β - 0.6)`: the approach curve decays from contact to
100 nm. -/
theorem C95_default (lag : ℕ → List (ℝ × ℝ)) (s : Stack (FP ℝ) (FP ℂ)) (hm : s.multilayer = false) (β : ℂ)
    (hβ : s.reflCoefQs = .ok (FP.num β)) (nLag : Option ℕ) (hw : |β⁻¹.im| ≤ 0.74 * (β⁻¹.re - 0.6))
    (z₁ z₂ : ℝ) (hz : 0 ≤ z₂) (hz' : z₂ < z₁) (hZ : z₁ ≤ 100e-9) :
    ∃ v₁ v₂ : ℂ,
      Fdm.effPol ⟨Defaults.initial, lag⟩ s (some (FP.num z₁)) {} nLag none = .ok (FP.num v₁) ∧
      Fdm.effPol ⟨Defaults.initial, lag⟩ s (some (FP.num z₂)) {} nLag none = .ok (FP.num v₂) ∧
      1 < ‖v₁‖ ∧ ‖v₁‖ < ‖v₂‖ := by
  have hg : (Fdm.geom 0 0.5 20e-9 300e-9 gDefault).re ≤ 0.541 :=
    (Complex.re_le_norm _).trans (geom_default (by norm_num) (by norm_num) le_rfl (by norm_num))
  have him : |gDefault.im| ≤ 0.042 := by
    have := gDefault_im 0
    rw [Complex.sub_im, Complex.ofReal_im, sub_zero] at this
    have hs' : Real.sin 0.06 ≤ 0.06 := Real.sin_le (by norm_num)
    have hs : 0 ≤ Real.sin 0.06 :=
      Real.sin_nonneg_of_nonneg_of_le_pi (by norm_num) (by linarith [Real.pi_gt_three])
    rw [this, abs_of_nonneg (by linarith)]
    norm_num at hs' ⊢
    linarith
  have hw0 := (abs_nonneg _).trans hw
  have hw1 : 0.6 ≤ β⁻¹.re := by
    generalize β⁻¹.re = x at *
    norm_num at hw0 ⊢
    linarith
  have key := C95_fdm ⟨Defaults.initial, lag⟩ s hm β hβ 20e-9 300e-9 gDefault (1.31 * 300e-9 / (300e-9 + 2 * 20e-9)) 0.5
    1.4 0.145 0.745 100e-9 nLag (phase_default (by norm_num) (by norm_num)) (phase_default (by norm_num) (by norm_num))
    (lt_of_le_of_lt hg (lt_of_lt_of_le (by norm_num) hw1)) (by
      generalize |gDefault.im| = x at *
      generalize β⁻¹.re = y at *
      generalize |β⁻¹.im| = y' at *
      generalize (Fdm.geom 0 0.5 20e-9 300e-9 gDefault).re = q at *
      norm_num at hg him hw hw1 ⊢
      linarith) (by norm_num) z₁ z₂ hz hz' hZ
  have e : ∀ z, Fdm.effPol ⟨Defaults.initial, lag⟩ s (some (FP.num z)) {} nLag none =
      Fdm.effPol ⟨Defaults.initial, lag⟩ s (some (FP.num z)) (fdmTip 20e-9 300e-9 gDefault
        (1.31 * 300e-9 / (300e-9 + 2 * 20e-9)) 0.5 1.4) nLag (some "bulk") := fun z => by
    rw [Fdm.effPol_default, hm]
    unfold Fdm.effPol
    rw [fdm_default]
    rfl
  rw [e, e]
  exact key

/-- A dielectric of permittivity 3. -/
example (lag : ℕ → List (ℝ × ℝ)) := C95_default lag (bulk 1 3) rfl (1 / 2) (by rw [C09_refl] <;> norm_num) none
  (by norm_num) 100e-9 0 le_rfl (by norm_num) le_rfl

/-- The same in terms of the permittivity of the sample: dielectrics, weak absorbers and good conductors. -/
theorem C95_material (lag : ℕ → List (ℝ × ℝ)) (e : ℝ) (ε : ℂ) (he : 0 < e) (h : ε ≠ e)
    (hε : e * |ε.im| ≤ 0.148 * Complex.normSq (ε - e) + 0.74 * e * (ε.re - e)) (nLag : Option ℕ)
    (z₁ z₂ : ℝ) (hz : 0 ≤ z₂) (hz' : z₂ < z₁) (hZ : z₁ ≤ 100e-9) :
    ∃ v₁ v₂ : ℂ,
      Fdm.effPol ⟨Defaults.initial, lag⟩ (bulk e ε) (some (FP.num z₁)) {} nLag none = .ok (FP.num v₁) ∧
      Fdm.effPol ⟨Defaults.initial, lag⟩ (bulk e ε) (some (FP.num z₂)) {} nLag none = .ok (FP.num v₂) ∧
      1 < ‖v₁‖ ∧ ‖v₁‖ < ‖v₂‖ := by
  have hd : ε - e ≠ 0 := sub_ne_zero.2 h
  have hn : 0 < Complex.normSq (ε - e) := Complex.normSq_pos.2 hd
  have e1 : (ε + e) / (ε - e) = 1 + ((2 * e / Complex.normSq (ε - e) : ℝ) : ℂ) * (starRingEnd ℂ) (ε - e) := by
    rw [div_eq_iff hd]
    have := Complex.mul_conj (ε - e)
    push_cast
    have hn' : (Complex.normSq (ε - e) : ℂ) ≠ 0 := by exact_mod_cast hn.ne'
    rw [add_mul, one_mul, mul_assoc, mul_comm ((starRingEnd ℂ) (ε - e)), this, div_mul_cancel₀ _ hn']
    ring
  have hre : ((ε + e) / (ε - e)).re = 1 + 2 * e / Complex.normSq (ε - e) * (ε.re - e) := by
    rw [e1, Complex.add_re, Complex.one_re, Complex.re_ofReal_mul, Complex.conj_re, Complex.sub_re, Complex.ofReal_re]
  have him : |((ε + e) / (ε - e)).im| = 2 * e / Complex.normSq (ε - e) * |ε.im| := by
    rw [e1, Complex.add_im, Complex.one_im, Complex.im_ofReal_mul, Complex.conj_im, Complex.sub_im, Complex.ofReal_im,
      sub_zero, zero_add, abs_mul, abs_neg, abs_of_pos (by positivity)]
  have hb : |((ε + e) / (ε - e)).im| ≤ 0.74 * (((ε + e) / (ε - e)).re - 0.6) := by
    rw [hre, him]
    have k : 0.148 * Complex.normSq (ε - e) * (2 / Complex.normSq (ε - e)) = 0.296 := by
      field_simp
      norm_num
    have := mul_le_mul_of_nonneg_right hε (by positivity : 0 ≤ 2 / Complex.normSq (ε - e))
    rw [add_mul, k] at this
    have k2 : e * |ε.im| * (2 / Complex.normSq (ε - e)) = 2 * e / Complex.normSq (ε - e) * |ε.im| := by ring
    have k3 : 0.74 * e * (ε.re - e) * (2 / Complex.normSq (ε - e)) =
        0.74 * (2 * e / Complex.normSq (ε - e) * (ε.re - e)) := by ring
    rw [k2, k3] at this
    generalize 2 * e / Complex.normSq (ε - e) * |ε.im| = x at *
    generalize 2 * e / Complex.normSq (ε - e) * (ε.re - e) = y at *
    norm_num at this ⊢
    linarith
  have hsum : ε + e ≠ 0 := by
    intro h0
    rw [h0, zero_div] at hb
    norm_num at hb
  have hs0 : ε ≠ 0 := by
    rintro rfl
    rw [zero_add, zero_sub, div_neg, div_self (by exact_mod_cast he.ne')] at hb
    norm_num at hb
  refine C95_default lag (bulk e ε) rfl ((ε - e) / (ε + e)) (C09_refl e ε none _ hs0 hsum) nLag ?_ z₁ z₂ hz hz' hZ
  rw [inv_div]
  exact hb

/-- The sample of the test suite (`bulk_sample(2 + 1j)`) and its range of heights, and a metal. -/
example (lag : ℕ → List (ℝ × ℝ)) := C95_material lag 1 (2 + Complex.I) one_pos
  (by intro h; simpa using congrArg Complex.im h)
  (by simp [Complex.normSq_apply]; norm_num) none 100e-9 1e-9 (by norm_num) (by norm_num) le_rfl

example (lag : ℕ → List (ℝ × ℝ)) := C95_material lag 1 (-5000 + 1000 * Complex.I) one_pos
  (by intro h; simpa using congrArg Complex.im h)
  (by simp [Complex.normSq_apply]; norm_num) none 100e-9 0 (by norm_num) (by norm_num) le_rfl

/-- Point dipole model, for every tip and sample: between two heights the approach curve decays exactly if
`|b|² (1/(16π(r+z₁)³) + 1/(16π(r+z₂)³)) < 2 Re b`, where `b = α_tip β`. -/
theorem C95_pdm (env : Env) (s : Stack (FP ℝ) (FP ℂ)) (β : ℂ) (hβ : s.reflCoefQs = .ok (FP.num β)) (r : ℝ) (α : ℂ)
    (hα : α ≠ 0) (z₁ z₂ : ℝ) (hz : 0 < r + z₂) (hz' : z₂ < z₁) (h1 : 1 - Pdm.geom z₁ r α * β ≠ 0)
    (h2 : 1 - Pdm.geom z₂ r α * β ≠ 0) :
    ∃ v₁ v₂ : ℂ,
      Pdm.effPol env s (some (FP.num z₁)) (tip r α) = .ok (FP.num v₁) ∧
      Pdm.effPol env s (some (FP.num z₂)) (tip r α) = .ok (FP.num v₂) ∧
      (‖v₁‖ < ‖v₂‖ ↔ ‖α * β‖ ^ 2 * (1 / (16 * Real.pi * (r + z₁) ^ 3) + 1 / (16 * Real.pi * (r + z₂) ^ 3)) <
        2 * (α * β).re) := by
  refine ⟨_, _, Pdm.effPol_val env s _ z₁ r α β (pdm_tip env r α) hβ (by linarith) h1,
    Pdm.effPol_val env s _ z₂ r α β (pdm_tip env r α) hβ hz.ne' h2, ?_⟩
  have hpi := Real.pi_pos
  have hs : 1 / (16 * Real.pi * (r + z₁) ^ 3) < 1 / (16 * Real.pi * (r + z₂) ^ 3) := by
    have : (r + z₂) ^ 3 < (r + z₁) ^ 3 := by gcongr
    gcongr
  have e : ∀ z, Pdm.geom z r α * β = ((1 / (16 * Real.pi * (r + z) ^ 3) : ℝ) : ℂ) * (α * β) := fun z => by
    unfold Pdm.geom
    push_cast
    ring
  rw [e] at h1 h2
  rw [e, e]
  generalize 1 / (16 * Real.pi * (r + z₁) ^ 3) = σ₁ at *
  generalize 1 / (16 * Real.pi * (r + z₂) ^ 3) = σ₂ at *
  rw [norm_div, norm_div, div_lt_div_iff_of_pos_left (norm_pos_iff.2 hα) (norm_pos_iff.2 h1) (norm_pos_iff.2 h2)]
  have n : ∀ σ : ℝ, ‖1 - (σ : ℂ) * (α * β)‖ ^ 2 = 1 - 2 * σ * (α * β).re + σ ^ 2 * ‖α * β‖ ^ 2 := fun σ => by
    rw [Complex.sq_norm, Complex.sq_norm, Complex.normSq_apply, Complex.normSq_apply, Complex.sub_re, Complex.sub_im,
      Complex.one_re, Complex.one_im, Complex.re_ofReal_mul, Complex.im_ofReal_mul]
    ring
  rw [← pow_lt_pow_iff_left₀ (norm_nonneg _) (norm_nonneg _) two_ne_zero, n, n]
  have hd : 0 < σ₂ - σ₁ := by linarith
  have f : 1 - 2 * σ₁ * (α * β).re + σ₁ ^ 2 * ‖α * β‖ ^ 2 - (1 - 2 * σ₂ * (α * β).re + σ₂ ^ 2 * ‖α * β‖ ^ 2) =
      (σ₂ - σ₁) * (2 * (α * β).re - ‖α * β‖ ^ 2 * (σ₁ + σ₂)) := by ring
  rw [← sub_pos, f, mul_pos_iff_of_pos_left hd, sub_pos]

example (env : Env) := C95_pdm env (bulk 1 3) (1 / 2) (by rw [C09_refl] <;> norm_num) 1 Complex.I Complex.I_ne_zero 1 0
  (by norm_num) one_pos
  (by
    intro h
    have := congrArg Complex.re h
    unfold Pdm.geom at this
    rw [show (Complex.I / (16 * Real.pi * ((1 : ℝ) + (1 : ℝ)) ^ 3) * (1 / 2) : ℂ) =
      ((1 / (16 * Real.pi * 8) / 2 : ℝ) : ℂ) * Complex.I by push_cast; ring, Complex.sub_re, Complex.re_ofReal_mul] at this
    simp at this)
  (by
    intro h
    have := congrArg Complex.re h
    unfold Pdm.geom at this
    rw [show (Complex.I / (16 * Real.pi * ((1 : ℝ) + (0 : ℝ)) ^ 3) * (1 / 2) : ℂ) =
      ((1 / (16 * Real.pi) / 2 : ℝ) : ℂ) * Complex.I by push_cast; ring, Complex.sub_re, Complex.re_ofReal_mul] at this
    simp at this)

/-- A conducting tip over any sample with `‖β‖² < 4 Re β`, at any height. -/
theorem C95_pdm_conductor (env : Env) (s : Stack (FP ℝ) (FP ℂ)) (β : ℂ)
    (hβ : s.reflCoefQs = .ok (FP.num β)) (hw : ‖β‖ ^ 2 < 4 * β.re) (r z₁ z₂ : ℝ) (hr : 0 < r) (hz : 0 ≤ z₂)
    (hz' : z₂ < z₁) :
    ∃ v₁ v₂ : ℂ,
      Pdm.effPol env s (some (FP.num z₁)) (conductor r) = .ok (FP.num v₁) ∧
      Pdm.effPol env s (some (FP.num z₂)) (conductor r) = .ok (FP.num v₂) ∧ ‖v₁‖ < ‖v₂‖ := by
  have hpi := Real.pi_pos
  have hg : ∀ z, 0 ≤ z → r ^ 3 / (4 * (r + z) ^ 3) ≤ 1 / 4 := fun z h => by
    rw [div_le_div_iff₀ (by positivity) (by norm_num)]
    have : r ^ 3 ≤ (r + z) ^ 3 := pow_le_pow_left₀ hr.le (by linarith) 3
    linarith
  have hre : 0 < β.re := by linarith [sq_nonneg ‖β‖]
  have hne : ∀ z, 0 ≤ z → 1 - Pdm.geom z r ((4 * Real.pi * r ^ 3 : ℝ) : ℂ) * β ≠ 0 := fun z h h0 => by
    rw [geom_conductor hr h] at h0
    have g := hg z h
    have g0 : 0 < r ^ 3 / (4 * (r + z) ^ 3) := by positivity
    generalize r ^ 3 / (4 * (r + z) ^ 3) = x at *
    have hβ' : β = ((x⁻¹ : ℝ) : ℂ) := by
      rw [sub_eq_zero] at h0
      rw [Complex.ofReal_inv]
      exact eq_inv_of_mul_eq_one_right h0.symm
    rw [hβ', Complex.ofReal_re, Complex.norm_real, Real.norm_of_nonneg (by positivity)] at hw
    have : (1 : ℝ) ≤ x⁻¹ / 4 := by
      rw [le_div_iff₀ (by norm_num), one_mul, le_inv_comm₀ (by norm_num) g0]
      linarith
    nlinarith [inv_pos.2 g0]
  have hα : ((4 * Real.pi * r ^ 3 : ℝ) : ℂ) ≠ 0 := by
    have : (4 * Real.pi * r ^ 3 : ℝ) ≠ 0 := by positivity
    exact_mod_cast this
  obtain ⟨v₁, v₂, e1, e2, iff⟩ := C95_pdm env s β hβ r ((4 * Real.pi * r ^ 3 : ℝ) : ℂ) hα z₁ z₂ (by linarith) hz'
    (hne z₁ (by linarith)) (hne z₂ hz)
  refine ⟨v₁, v₂, e1, e2, iff.2 ?_⟩
  have q : ∀ z, 0 ≤ z → 4 * Real.pi * r ^ 3 * (1 / (16 * Real.pi * (r + z) ^ 3)) ≤ 1 / 4 := fun z h => by
    refine le_trans (le_of_eq ?_) (hg z h)
    have : r + z ≠ 0 := by positivity
    field_simp
    norm_num
  have q1 := q z₁ (by linarith)
  have q2 := q z₂ hz
  have hα0 : 0 < 4 * Real.pi * r ^ 3 := by positivity
  rw [norm_mul, Complex.norm_real, Real.norm_of_nonneg hα0.le, Complex.re_ofReal_mul]
  generalize 1 / (16 * Real.pi * (r + z₁) ^ 3) = σ₁ at *
  generalize 1 / (16 * Real.pi * (r + z₂) ^ 3) = σ₂ at *
  generalize 4 * Real.pi * r ^ 3 = a at *
  have k := mul_le_mul_of_nonneg_left (add_le_add q1 q2) (sq_nonneg ‖β‖)
  have k2 : (a * ‖β‖) ^ 2 * (σ₁ + σ₂) = a * (‖β‖ ^ 2 * (a * σ₁ + a * σ₂)) := by ring
  rw [k2]
  have := mul_lt_mul_of_pos_left (show ‖β‖ ^ 2 * (a * σ₁ + a * σ₂) < 2 * β.re by linarith) hα0
  linarith

example (env : Env) := C95_pdm_conductor env (bulk 1 (2 + Complex.I)) ((2 + Complex.I - 1) / (2 + Complex.I + 1))
  (C09_refl 1 _ none _ (by intro h; simpa using congrArg Complex.im h) (by intro h; simpa using congrArg Complex.im h))
  (by
    rw [Complex.sq_norm]
    simp [Complex.normSq_apply, Complex.div_re]
    norm_num) 20e-9 100e-9 1e-9 (by norm_num) (by norm_num) (by norm_num)

end Snompy.Props
