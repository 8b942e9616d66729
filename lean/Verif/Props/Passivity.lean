import Verif.Props.Fdm

/-!
# C67, C68: absorption and monotonicity of the tip models
-/

namespace Snompy.Props

open Snompy

/-! ## C67 A passive tip over a passive sample absorbs -/

/-- Point dipole model, in terms of the polarizability of the tip and the reflection coefficient of the sample: where
the result is finite it does not amplify, and it is finite and absorbs if the tip or the sample does. -/
theorem C67_pdm (env : Env) (s : Stack (FP ℝ) (FP ℂ)) (z r : ℝ) (α β : ℂ) (hβ : s.reflCoefQs = .ok (FP.num β))
    (hrz : 0 < r + z) (hα : 0 ≤ α.im) (hb : 0 ≤ β.im) :
    ((0 < α.im ∨ α ≠ 0 ∧ 0 < β.im) →
      ∃ v : ℂ, Pdm.effPol env s (some (FP.num z)) (tip r α) = .ok (FP.num v) ∧ 0 < v.im) ∧
    ∀ v : ℂ, Pdm.effPol env s (some (FP.num z)) (tip r α) = .ok (FP.num v) → 0 ≤ v.im := by
  have hpi := Real.pi_pos
  obtain ⟨κ, hκ, hg⟩ : ∃ κ : ℝ, 0 < κ ∧ Pdm.geom z r α = α * κ := by
    refine ⟨1 / (16 * Real.pi * (r + z) ^ 3), by positivity, ?_⟩
    unfold Pdm.geom
    push_cast
    rw [mul_one_div]
  -- the imaginary part of the inverse
  have key : α ≠ 0 → 1 - Pdm.geom z r α * β ≠ 0 →
      (α / (1 - Pdm.geom z r α * β)).im * Complex.normSq (α⁻¹ - κ * β) =
        α.im / Complex.normSq α + κ * β.im := by
    intro h0 h1
    have e : α⁻¹ - κ * β ≠ 0 := by
      intro h
      apply h1
      rw [hg]
      have := congrArg (α * ·) h
      simp only [mul_sub, mul_inv_cancel₀ h0, mul_zero] at this
      linear_combination this
    have e1 : α / (1 - Pdm.geom z r α * β) = (α⁻¹ - κ * β)⁻¹ := by
      rw [hg] at h1 ⊢
      apply eq_inv_of_mul_eq_one_left
      rw [div_mul_eq_mul_div, div_eq_one_iff_eq h1, mul_sub, mul_inv_cancel₀ h0]
      ring
    rw [e1, Complex.inv_im, div_mul_cancel₀ _ (by simpa using e), Complex.sub_im, Complex.inv_im,
      Complex.im_ofReal_mul]
    ring
  constructor
  · intro h
    have h0 : α ≠ 0 := by
      rcases h with h | h
      · rintro rfl
        simp at h
      · exact h.1
    have hnα : 0 < Complex.normSq α := Complex.normSq_pos.2 h0
    have hpos : 0 < α.im / Complex.normSq α + κ * β.im := by
      rcases h with h | h
      · have := div_pos h hnα
        have := mul_nonneg hκ.le hb
        linarith
      · have := div_nonneg hα hnα.le
        have := mul_pos hκ h.2
        linarith
    have h1 : 1 - Pdm.geom z r α * β ≠ 0 := by
      intro h1
      rw [hg] at h1
      have h2 : α⁻¹ = κ * β := by
        apply inv_eq_of_mul_eq_one_right
        linear_combination -h1
      have h3 := congrArg Complex.im h2
      rw [Complex.inv_im, Complex.im_ofReal_mul, neg_div] at h3
      linarith
    refine ⟨_, Pdm.effPol_val env s _ z r α β (pdm_tip env r α) hβ hrz.ne' h1, ?_⟩
    have h2 := key h0 h1
    have h3 : 0 ≤ Complex.normSq (α⁻¹ - κ * β) := Complex.normSq_nonneg _
    by_contra h4
    have := mul_nonpos_of_nonpos_of_nonneg (not_lt.1 h4) h3
    linarith
  · intro v hv
    rw [Pdm.effPol_num env s _ z r α β (pdm_tip env r α) hβ hrz.ne'] at hv
    by_cases h1 : 1 - Pdm.geom z r α * β = 0
    · rw [h1, FP.num_div_zero] at hv
      cases hv
    · rw [FP.num_div _ h1] at hv
      cases hv
      by_cases h0 : α = 0
      · simp [h0]
      · have h2 := key h0 h1
        have hnα : 0 < Complex.normSq α := Complex.normSq_pos.2 h0
        have h3 : 0 < Complex.normSq (α⁻¹ - κ * β) := by
          rw [Complex.normSq_pos]
          intro h
          apply h1
          rw [hg]
          have := congrArg (α * ·) h
          simp only [mul_sub, mul_inv_cancel₀ h0, mul_zero] at this
          linear_combination this
        have h4 : 0 ≤ α.im / Complex.normSq α + κ * β.im :=
          add_nonneg (div_nonneg hα hnα.le) (mul_nonneg hκ.le hb)
        rw [← h2] at h4
        exact nonneg_of_mul_nonneg_left h4 h3

/-- A tip of an absorbing material over a passive layered sample, in terms of permittivities. -/
theorem C67_pdm_materials (env : Env) (e : ℝ) (L : List (ℂ × ℝ)) (sub : ℂ) (nu : Option ℝ) (h0 : 0 < e)
    (hL : ∀ l ∈ L, Passive l.1 ∧ 0 ≤ l.2) (hs : Passive sub) (z r : ℝ) (hr : 0 < r) (hz : 0 ≤ z) (eps : ℂ)
    (he : 0 < eps.im) :
    ∃ v : ℂ, Pdm.effPol env (layered e L sub nu) (some (FP.num z)) ⟨some (FP.num r), some (FP.num eps), none⟩ =
      .ok (FP.num v) ∧ 0 < v.im := by
  obtain ⟨β, hβ, hb⟩ := C15_passive e L sub nu 0 h0 hL hs le_rfl
  have hne : eps ≠ -2 := by
    rintro rfl
    simp at he
  have h2 : eps + 2 ≠ 0 := fun h => hne (eq_neg_of_add_eq_zero_left h)
  have h1 := (C40_dielectric env (layered e L sub nu) (some r) (some (FP.num z)) FP.nan FP.nan none none FP.nan eps
    hne).1
  simp only [Option.map_some, Option.getD_some] at h1
  rw [h1]
  have him : 0 < (4 * Real.pi * r ^ 3 * (eps - 1) / (eps + 2) : ℂ).im := by
    have e1 : (4 * Real.pi * r ^ 3 * (eps - 1) / (eps + 2) : ℂ) =
        ((4 * Real.pi * r ^ 3 : ℝ) : ℂ) * (1 - ((3 : ℝ) : ℂ) * (eps + 2)⁻¹) := by
      push_cast
      field_simp
      ring
    rw [e1, Complex.im_ofReal_mul, Complex.sub_im, Complex.one_im, Complex.im_ofReal_mul, Complex.inv_im]
    have hn : 0 < Complex.normSq (eps + 2) := Complex.normSq_pos.2 h2
    have h3 : (eps + 2).im = eps.im := by simp
    rw [h3, neg_div]
    have := div_pos he hn
    have hp := Real.pi_pos
    have : 0 < 0 - 3 * -(eps.im / Complex.normSq (eps + 2)) := by linarith
    positivity
  exact (C67_pdm env _ z r _ β hβ (by linarith) him.le hb).1 (Or.inl him)

example (env : Env) := C67_pdm_materials env 1 [(⟨2, 0⟩, 3)] ⟨-4, 1⟩ none one_pos
  (by simp [Passive]) (Or.inl one_pos) 0 1 one_pos le_rfl ⟨5, 2⟩ two_pos
example (env : Env) := C67_pdm env (bulk 1 ⟨0, 1⟩) 0 1 5 _
  (C09_refl 1 ⟨0, 1⟩ none _ (by simp [Complex.ext_iff]) (by simp [Complex.ext_iff])) (by norm_num) (by norm_num)
  (by norm_num [Complex.div_im, Complex.normSq_apply])

/-- Finite dipole model with a real factor `g`: what the sample absorbs, weighted with the geometry function. -/
theorem C67_fdm (env : Env) (s : Stack (FP ℝ) (FP ℂ)) (hm : s.multilayer = false) (β : ℂ)
    (hβ : s.reflCoefQs = .ok (FP.num β)) (z r l g d0 d1 dA : ℝ) (h0 : Fdm.GeomOk z d0 r l)
    (h1 : Fdm.GeomOk z d1 r l) (hb : β.im ≠ 0) (nLag : Option ℕ) :
    ∃ v : ℂ, Fdm.effPol env s (some (FP.num z)) (fdmTip r l g d0 d1 dA) nLag (some "bulk") = .ok (FP.num v) ∧
      v.im * (2 * ‖1 - β * Fdm.geom z d1 r l g‖ ^ 2) =
        β.im * ((g - (r + 2 * z + d0 * r) / (2 * l)) * Real.log (4 * l / (r + 4 * z + 2 * d0 * r)) /
          Real.log (4 * l / r)) ∧ 0 < ‖1 - β * Fdm.geom z d1 r l g‖ := by
  have hg : ∀ d, Fdm.geom z d r l g = (((g - (r + 2 * z + d * r) / (2 * l)) *
      Real.log (4 * l / (r + 4 * z + 2 * d * r)) / Real.log (4 * l / r) : ℝ) : ℂ) := by
    intro d
    unfold Fdm.geom
    push_cast
    rfl
  set f0 := (g - (r + 2 * z + d0 * r) / (2 * l)) * Real.log (4 * l / (r + 4 * z + 2 * d0 * r)) / Real.log (4 * l / r)
    with hf0
  set f1 := (g - (r + 2 * z + d1 * r) / (2 * l)) * Real.log (4 * l / (r + 4 * z + 2 * d1 * r)) / Real.log (4 * l / r)
    with hf1
  have hd : 1 - β * (f1 : ℂ) ≠ 0 := by
    intro h
    have h2 := congrArg Complex.im h
    have h3 := congrArg Complex.re h
    rw [Complex.sub_im, Complex.one_im, Complex.im_mul_ofReal, Complex.zero_im, zero_sub, neg_eq_zero] at h2
    rw [Complex.sub_re, Complex.one_re, Complex.re_mul_ofReal, Complex.zero_re] at h3
    rcases mul_eq_zero.1 h2 with h2 | h2
    · exact hb h2
    · rw [h2, mul_zero] at h3
      norm_num at h3
  have hd' := hd
  rw [hf1, ← hg] at hd'
  refine ⟨_, effPol_val env s hm β hβ z r l g d0 d1 dA h0 h1 hd' nLag, ?_, norm_pos_iff.2 hd'⟩
  rw [hg d0, hg d1, ← hf0, ← hf1, ← Complex.normSq_eq_norm_sq]
  have hn : Complex.normSq (1 - β * f1) ≠ 0 := by simpa using hd
  have e1 : (1 + β * f0 / (2 * (1 - β * f1)) : ℂ) = 1 + ((f0 / 2 : ℝ) : ℂ) * (β / (1 - β * f1)) := by
    push_cast
    field_simp
  rw [e1, Complex.add_im, Complex.one_im, Complex.im_ofReal_mul, Complex.div_im]
  simp only [Complex.sub_re, Complex.sub_im, Complex.one_re, Complex.one_im, Complex.re_mul_ofReal,
    Complex.im_mul_ofReal]
  field_simp
  ring

/-- So it absorbs as long as the tip is not too far away, -/
theorem C67_fdm_near (env : Env) (s : Stack (FP ℝ) (FP ℂ)) (hm : s.multilayer = false) (β : ℂ)
    (hβ : s.reflCoefQs = .ok (FP.num β)) (z r l g d0 d1 dA : ℝ) (h0 : Fdm.GeomOk z d0 r l)
    (h1 : Fdm.GeomOk z d1 r l) (hb : 0 < β.im) (nLag : Option ℕ) (hl : r < 4 * l)
    (hg : r + 2 * z + d0 * r < 2 * l * g) (hz : r + 4 * z + 2 * d0 * r < 4 * l) :
    ∃ v : ℂ, Fdm.effPol env s (some (FP.num z)) (fdmTip r l g d0 d1 dA) nLag (some "bulk") = .ok (FP.num v) ∧
      0 < v.im := by
  obtain ⟨v, hv, h2, h3⟩ := C67_fdm env s hm β hβ z r l g d0 d1 dA h0 h1 hb.ne' nLag
  refine ⟨v, hv, ?_⟩
  have hl0 := h0.l_pos
  have e1 : 0 < g - (r + 2 * z + d0 * r) / (2 * l) := by
    rw [sub_pos, div_lt_iff₀ (by positivity)]
    linarith
  have e2 : 0 < Real.log (4 * l / (r + 4 * z + 2 * d0 * r)) :=
    Real.log_pos (by rw [one_lt_div h0.den]; exact hz)
  have e3 : 0 < Real.log (4 * l / r) := Real.log_pos (by rw [one_lt_div h0.r_pos]; exact hl)
  have h4 : 0 < v.im * (2 * ‖1 - β * Fdm.geom z d1 r l g‖ ^ 2) := by
    rw [h2]
    positivity
  exact pos_of_mul_pos_left h4 (by positivity)

/-- and amplifies beyond, until the logarithm changes its sign as well. -/
theorem C67_fdm_gain (env : Env) (s : Stack (FP ℝ) (FP ℂ)) (hm : s.multilayer = false) (β : ℂ)
    (hβ : s.reflCoefQs = .ok (FP.num β)) (z r l g d0 d1 dA : ℝ) (h0 : Fdm.GeomOk z d0 r l)
    (h1 : Fdm.GeomOk z d1 r l) (hb : 0 < β.im) (nLag : Option ℕ) (hl : r < 4 * l)
    (hg : 2 * l * g < r + 2 * z + d0 * r) (hz : r + 4 * z + 2 * d0 * r < 4 * l) :
    ∃ v : ℂ, Fdm.effPol env s (some (FP.num z)) (fdmTip r l g d0 d1 dA) nLag (some "bulk") = .ok (FP.num v) ∧
      v.im < 0 := by
  obtain ⟨v, hv, h2, h3⟩ := C67_fdm env s hm β hβ z r l g d0 d1 dA h0 h1 hb.ne' nLag
  refine ⟨v, hv, ?_⟩
  have hl0 := h0.l_pos
  have e1 : g - (r + 2 * z + d0 * r) / (2 * l) < 0 := by
    rw [sub_neg, lt_div_iff₀ (by positivity)]
    linarith
  have e2 : 0 < Real.log (4 * l / (r + 4 * z + 2 * d0 * r)) :=
    Real.log_pos (by rw [one_lt_div h0.den]; exact hz)
  have e3 : 0 < Real.log (4 * l / r) := Real.log_pos (by rw [one_lt_div h0.r_pos]; exact hl)
  have h4 : v.im * (2 * ‖1 - β * Fdm.geom z d1 r l g‖ ^ 2) < 0 := by
    rw [h2]
    exact mul_neg_of_pos_of_neg hb (div_neg_of_neg_of_pos (mul_neg_of_neg_of_pos e1 e2) e3)
  by_contra h5
  have := mul_nonneg (not_lt.1 h5) (by positivity : (0 : ℝ) ≤ 2 * ‖1 - β * Fdm.geom z d1 r l g‖ ^ 2)
  linarith

/-- The default tip (20 nm, 600 nm, `|g| = 0.7`) at 1 nm and at 250 nm over a sample of permittivity `i`. -/
theorem example_refl_i : (bulk 1 ⟨0, 1⟩).reflCoefQs = .ok (FP.num ((⟨0, 1⟩ - 1) / (⟨0, 1⟩ + 1) : ℂ)) :=
  C09_refl 1 ⟨0, 1⟩ none _ (by simp [Complex.ext_iff]) (by simp [Complex.ext_iff])

example (env : Env) := C67_fdm_near env (bulk 1 ⟨0, 1⟩) rfl _ example_refl_i 1 20 300 0.7 1 0.5 1.4
  ⟨by norm_num, by norm_num, by norm_num, by norm_num⟩ ⟨by norm_num, by norm_num, by norm_num, by norm_num⟩
  (by norm_num [Complex.div_im, Complex.normSq_apply]) none (by norm_num) (by norm_num) (by norm_num)
example (env : Env) := C67_fdm_gain env (bulk 1 ⟨0, 1⟩) rfl _ example_refl_i 250 20 300 0.7 1 0.5 1.4
  ⟨by norm_num, by norm_num, by norm_num, by norm_num⟩ ⟨by norm_num, by norm_num, by norm_num, by norm_num⟩
  (by norm_num [Complex.div_im, Complex.normSq_apply]) none (by norm_num) (by norm_num) (by norm_num)

end Snompy.Props
