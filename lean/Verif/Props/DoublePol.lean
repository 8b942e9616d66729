import Verif.Lemmas.DoublePol
import Verif.Props.Rounding
import Verif.Props.DemodRate

/-!
# C92: rounding errors of the effective polarisability

`F64 L`/`C128 L` are the double-precision readings (`Verif/Double.lean`), `Pdm.condition` the condition number of the
point dipole model (`Verif/Spec/Condition.lean`).
-/

namespace Snompy.Props

open Snompy

variable {L : Libm}

seal uro eta maxDouble

/-! ## C92 Rounding errors of the effective polarisability -/

theorem bulk_reflCoefQs {env sub : ℂ} (he : Moderate env) (hs : Moderate sub) (h0 : sub + env ≠ 0)
    (hr : 1 + ‖(sub - env) / (sub + env)‖ ≤ 10 ^ 12) :
    ∃ b, (layeredC128 L env [] sub).reflCoefQs = .ok (C128.mk' L b) ∧
      ‖b - (sub - env) / (sub + env)‖ ≤ 1 / 10 ^ 13 * (1 + ‖(sub - env) / (sub + env)‖) ^ 2 := by
  obtain ⟨b, h1, h2⟩ := C83_bulk (L := L) env sub 0 he hs h0 hr
  refine ⟨b, ?_, h2⟩
  rw [← F64.ofReal_zero] at h1
  exact h1

/-- The perfectly conducting sphere is well conditioned above every sample with `|β| ≤ 1`. -/
theorem condition_conductor {x r : ℝ} {β : ℂ} (hr : 0 < r) (hx : 0 ≤ x) (hβ : ‖β‖ ≤ 1) :
    1 - Pdm.geom x r ((4 * Real.pi * r ^ 3 : ℝ) : ℂ) * β ≠ 0 ∧
      Pdm.condition x r ((4 * Real.pi * r ^ 3 : ℝ) : ℂ) β ≤ 8 / 3 := by
  have hpi := Real.pi_pos
  have hg : ‖Pdm.geom x r ((4 * Real.pi * r ^ 3 : ℝ) : ℂ)‖ ≤ 1 / 4 := by
    have e : Pdm.geom x r ((4 * Real.pi * r ^ 3 : ℝ) : ℂ) =
        ((4 * Real.pi * r ^ 3 / (16 * Real.pi * (r + x) ^ 3) : ℝ) : ℂ) := by
      unfold Pdm.geom
      push_cast
      ring
    rw [e, Complex.norm_real, Real.norm_of_nonneg (by positivity), div_le_iff₀ (by positivity)]
    have h1 : r ^ 3 ≤ (r + x) ^ 3 := pow_le_pow_left₀ hr.le (by linarith) 3
    have := mul_le_mul_of_nonneg_left h1 hpi.le
    linarith
  have hg0 := norm_nonneg (Pdm.geom x r ((4 * Real.pi * r ^ 3 : ℝ) : ℂ))
  have hβ0 := norm_nonneg β
  have hD : 3 / 4 ≤ ‖1 - Pdm.geom x r ((4 * Real.pi * r ^ 3 : ℝ) : ℂ) * β‖ := by
    have h1 := norm_sub_norm_le (1 : ℂ) (Pdm.geom x r ((4 * Real.pi * r ^ 3 : ℝ) : ℂ) * β)
    rw [norm_one, norm_mul] at h1
    have := mul_le_mul hg hβ hβ0 (by norm_num)
    linarith
  refine ⟨norm_pos_iff.1 (by linarith), ?_⟩
  unfold Pdm.condition
  rw [div_le_iff₀ (by linarith)]
  have h2 : (1 + ‖β‖) ^ 2 ≤ 4 := by nlinarith
  have h3 := mul_le_mul hg h2 (sq_nonneg _) (by norm_num)
  linarith

theorem moderate_one : Moderate 1 := by
  constructor
  · rw [norm_one]; exact pow_le_one₀ (by norm_num) (by norm_num)
  · rw [norm_one]; exact one_le_pow₀ (by norm_num)

theorem moderate_two : Moderate 2 := by
  constructor
  · rw [Complex.norm_ofNat]; exact (pow_le_one₀ (by norm_num) (by norm_num)).trans one_le_two
  · rw [Complex.norm_ofNat]; exact le_self_pow₀ one_le_two (by norm_num)

theorem norm_conductor_one : ‖((4 * Real.pi * 1 ^ 3 : ℝ) : ℂ)‖ = 4 * Real.pi := by
  rw [Complex.norm_real, Real.norm_of_nonneg (by positivity)]
  ring

theorem conductor_one_le : ‖((4 * Real.pi * 1 ^ 3 : ℝ) : ℂ)‖ ≤ 2 ^ 300 := by
  rw [norm_conductor_one]
  have := Real.pi_le_four
  exact (by linarith : 4 * Real.pi ≤ 2 ^ 4 * 1).trans ((by norm_num : (2 : ℝ) ^ 4 * 1 ≤ 2 ^ 4).trans
    (pow_le_pow_right₀ one_le_two (by norm_num)))

/-- A tip given by its radius and polarisability, at one height above a bulk sample. -/
theorem C92_tip (cfg : Env) (env sub : ℂ) (he : Moderate env) (hs : Moderate sub) (h0 : sub + env ≠ 0) (β : ℂ)
    (hβ : β = (sub - env) / (sub + env)) (hβ2 : 1 + ‖β‖ ≤ 10 ^ 12) (z r : ℝ) (α : ℂ) (hr : 0 < r) (hz : 0 ≤ z)
    (h1 : (1 / 2) ^ 100 ≤ r + z) (h2 : r + z ≤ 2 ^ 100) (hα : ‖α‖ ≤ 2 ^ 300) (hD : 1 - Pdm.geom z r α * β ≠ 0)
    (hκ : Pdm.condition z r α β ≤ 10 ^ 10) :
    ∃ w v : ℂ, Pdm.effPol cfg (layeredC128 L env [] sub) (some (.fin z)) ⟨some (.fin r), none, some ⟨.fin α.re, .fin α.im⟩⟩ =
        .ok ⟨.fin w.re, .fin w.im⟩ ∧
      Pdm.effPol cfg (bulk env sub) (some (FP.num z)) (tip r α) = .ok (FP.num v) ∧
      ‖w - v‖ ≤ 2 / 10 ^ 13 * Pdm.condition z r α β * ‖v‖ + (1 / 2) ^ 159 := by
  have hs0 := hs.ne_zero
  subst hβ
  obtain ⟨b, hb, hbe⟩ := bulk_reflCoefQs (L := L) he hs h0 hβ2
  obtain ⟨w, hw, ew⟩ := Pdm.effPol_near (L := L) cfg (S := layeredC128 L env [] sub)
    (a := ⟨some (.fin r), none, some ⟨.fin α.re, .fin α.im⟩⟩) (zT := .fin z) (ka := 0) rfl hb hbe hβ2
    (height_near (rh := r) (xh := z) (δ := 0) (by
      rw [sub_self, abs_zero]
      have := uro_pos
      positivity) (by simp) hr hz (by
      have := uro_pos
      positivity) h1 h2) (C128.near_mk' α) h1 h2 hα (by norm_num) (by norm_num) le_rfl (by norm_num) hD hκ
  rw [uro3_pow] at ew
  exact ⟨w, _, hw, Pdm.effPol_val cfg _ _ z r α _ (pdm_tip cfg r α) (C09_refl env sub none _ hs0 h0) (by linarith) hD, ew⟩

/-- A conducting sphere of radius 1 on a surface of permittivity 2. -/
example (cfg : Env) := C92_tip (L := Libm.exact) cfg 1 2 moderate_one moderate_two (by norm_num) (1 / 3) (by norm_num)
    (by norm_num) 0 1 ((4 * Real.pi * 1 ^ 3 : ℝ) : ℂ) one_pos le_rfl (by norm_num) (by norm_num) conductor_one_le
    (condition_conductor one_pos le_rfl (by norm_num)).1
    ((condition_conductor one_pos le_rfl (by norm_num)).2.trans (by norm_num))

/-- The harmonics of the signal of such a tip. -/
theorem C92_harmonics (cfg : Env) (env sub : ℂ) (he : Moderate env) (hs : Moderate sub) (h0 : sub + env ≠ 0) (β : ℂ)
    (hβ : β = (sub - env) / (sub + env)) (hβ2 : 1 + ‖β‖ ≤ 10 ^ 12) (z amp r κ n : ℝ) (α : ℂ) (N : ℕ)
    (hr : (1 / 2) ^ 100 ≤ r) (hz : 0 ≤ z) (hA : (1 / 2) ^ 700 ≤ amp) (hA' : 2 * amp ≤ 9 * r)
    (h2 : r + z + 2 * amp ≤ 2 ^ 100) (hα : (1 / 2) ^ 100 ≤ ‖α‖) (hα' : ‖α‖ ≤ 2 ^ 300) (hn : |n| ≤ 10 ^ 12) (hN : 1 ≤ N)
    (hN' : (N : ℝ) ≤ 10 ^ 12)
    (hres : ∀ x, z ≤ x → x ≤ z + 2 * amp → 1 - Pdm.geom x r α * β ≠ 0 ∧ Pdm.condition x r α β ≤ κ)
    (hκ : κ ≤ 10 ^ 10) :
    ∃ w v : ℂ, Pdm.effPolN cfg (layeredC128 L env [] sub) (.fin amp) (.fin n) (some (.fin z)) (some N)
        ⟨some (.fin r), none, some ⟨.fin α.re, .fin α.im⟩⟩ = .ok ⟨.fin w.re, .fin w.im⟩ ∧
      Pdm.effPolN cfg (bulk env sub) (FP.num amp) (FP.num n) (some (FP.num z)) (some N) (tip r α) = .ok (FP.num v) ∧
      ‖w - v‖ ≤ (21 / 10 ^ 14 * κ ^ 2 + (58 * |n| + 3 * N + 120) * (1 / 2) ^ 53 * κ) * ‖α‖ := by
  have hs0 := hs.ne_zero
  subst hβ
  have hA0 : 0 < amp := lt_of_lt_of_le (by positivity) hA
  have hr0 : 0 < r := lt_of_lt_of_le (by positivity) hr
  obtain ⟨b, hb, hbe⟩ := bulk_reflCoefQs (L := L) he hs h0 hβ2
  obtain ⟨w, hw, ew⟩ := Pdm.effPolN_near (L := L) cfg (S := layeredC128 L env [] sub)
    (a := ⟨some (.fin r), none, some ⟨.fin α.re, .fin α.im⟩⟩) (n := n) (nT := some N) (κ := κ) rfl hb hbe hβ2
    ((F64.near_fin r).mono (by norm_num)) rfl (C128.near_mk' α) le_rfl (by norm_num) hr h2 hz hA0 hA' hA hα hα' hn hN
    hN' hκ hres
  have hu : uro = (1 / 2) ^ 53 := by unfold uro; norm_num
  rw [hu] at ew
  refine ⟨w, _, hw, ?_, ew⟩
  have hval : ∀ x, z ≤ x → x ≤ z + 2 * amp → Pdm.effPol cfg (bulk env sub) (some (FP.num x)) (tip r α) =
      .ok (FP.num (α / (1 - Pdm.geom x r α * ((sub - env) / (sub + env))))) := fun x h1 h2 =>
    Pdm.effPol_val cfg _ _ x r α _ (pdm_tip cfg r α) (C09_refl env sub none _ hs0 h0) (by linarith) (hres x h1 h2).1
  unfold Pdm.effPolN
  simp only [Option.getD_some, FP.num_add]
  exact demod_eval cfg _ (fun x => α / (1 - Pdm.geom x r α * ((sub - env) / (sub + env)))) _ _ _ (some N) (by
      rw [Option.getD_some]; omega) ⟨_, hval _ (by linarith) (by linarith)⟩ fun θ =>
    hval _ (by nlinarith [Real.neg_one_le_cos θ]) (by nlinarith [Real.cos_le_one θ])

/-- Its third harmonic for an oscillation of amplitude 1. -/
example (cfg : Env) := C92_harmonics (L := Libm.exact) cfg 1 2 moderate_one moderate_two (by norm_num) (1 / 3)
    (by norm_num) (by norm_num) 0 1 1 (8 / 3) 3 ((4 * Real.pi * 1 ^ 3 : ℝ) : ℂ) 32 (by norm_num) le_rfl
    (pow_le_one₀ (by norm_num) (by norm_num)) (by norm_num) (by norm_num)
    (by
      rw [norm_conductor_one]
      have := Real.pi_gt_three
      exact (pow_le_one₀ (by norm_num) (by norm_num)).trans (by linarith)) conductor_one_le (by norm_num) (by norm_num)
    (by norm_num) (fun x h1 _ => condition_conductor one_pos h1 (by norm_num)) (by norm_num)

theorem default_radius : (lit Defaults.initial.rTip : F64 L).Near 20e-9 2 := by
  show (lit (20e-9 : ℝ) : F64 L).Near 20e-9 2
  refine (F64.near_lit (L := L) ?_).mono (by norm_num)
  rw [abs_of_pos (by norm_num)]
  refine sized_of (a := 30) (b := 0) (by norm_num) (by norm_num) ?_ ?_ <;> norm_num

theorem default_tip_near (lag : ℕ → List (ℝ × ℝ)) : ∃ rT αh, (⟨Defaults.initial, lag⟩ : Env).defaults.pdm
      ({} : PdmArgs (F64 L) (C128 L)) = .ok (rT, αh) ∧ rT.Near 20e-9 2 ∧
      αh.Near ((4 * Real.pi * 20e-9 ^ 3 : ℝ) : ℂ) 20 :=
  ⟨_, _, rfl, default_radius, conductor_near default_radius (by norm_num) (by norm_num)⟩

/-- The default tip, height and 32 trapezia: for amplitudes between `10⁻¹⁵` m and the radius of the tip and reflection
coefficients of modulus at most 1, the first five harmonics are computed with rounding errors below `2 · 10⁻¹²` of the
polarisability of the tip. -/
theorem C92_default (lag : ℕ → List (ℝ × ℝ)) (env sub : ℂ) (he : Moderate env) (hs : Moderate sub) (h0 : sub + env ≠ 0)
    (hβ : ‖(sub - env) / (sub + env)‖ ≤ 1) (amp : ℝ) (hA : 1e-15 ≤ amp) (hA' : amp ≤ 20e-9) (n : ℤ) (hn : |n| ≤ 5) :
    ∃ w v : ℂ, Pdm.effPolN ⟨Defaults.initial, lag⟩ (layeredC128 L env [] sub) (.fin amp) (.fin n) none none {} =
        .ok ⟨.fin w.re, .fin w.im⟩ ∧
      Pdm.effPolN ⟨Defaults.initial, lag⟩ (bulk env sub) (FP.num amp) (FP.num n) none none {} = .ok (FP.num v) ∧
      ‖w - v‖ ≤ 2e-12 * (4 * Real.pi * 20e-9 ^ 3) := by
  have hs0 := hs.ne_zero
  have hpi := Real.pi_gt_three
  have hpi' := Real.pi_le_four
  have hA0 : 0 < amp := lt_of_lt_of_le (by norm_num) hA
  obtain ⟨b, hb, hbe⟩ := bulk_reflCoefQs (L := L) he hs h0 (by linarith)
  obtain ⟨rT, αh, hp, hr, hα⟩ := default_tip_near (L := L) lag
  have hαn : ‖((4 * Real.pi * 20e-9 ^ 3 : ℝ) : ℂ)‖ = 4 * Real.pi * 20e-9 ^ 3 := by
    rw [Complex.norm_real, Real.norm_of_nonneg (by positivity)]
  have hn' : |(n : ℝ)| ≤ 5 := by exact_mod_cast hn
  obtain ⟨w, hw, ew⟩ := Pdm.effPolN_near (L := L) ⟨Defaults.initial, lag⟩ (S := layeredC128 L env [] sub) (a := {})
    (z := 0) (zT := .fin 0) (n := n) (nT := none) (κ := 8 / 3) hp hb hbe (by linarith) hr rfl hα (by norm_num) (by norm_num)
    (by norm_num) (by norm_num; linarith) le_rfl hA0 (by norm_num; linarith)
    ((pow_le_pow_of_le_one (by norm_num) (by norm_num) (show 100 ≤ 700 by norm_num)).trans
      (le_trans (by norm_num) hA)) (by rw [hαn]; norm_num; linarith)
    (by
      rw [hαn]
      exact (show 4 * Real.pi * 20e-9 ^ 3 ≤ 1 by norm_num; linarith).trans (one_le_pow₀ one_le_two))
    (hn'.trans (by norm_num))
    (show 1 ≤ 32 by norm_num) (show ((32 : ℕ) : ℝ) ≤ 10 ^ 12 by norm_num) (by norm_num)
    fun x h1 h2 => condition_conductor (by norm_num) h1 hβ
  refine ⟨w, _, ?_, ?_, ew.trans ?_⟩
  · rw [← F64.ofReal_zero] at hw
    exact hw
  · have hval : ∀ x, 0 ≤ x → Pdm.effPol ⟨Defaults.initial, lag⟩ (bulk env sub) (some (FP.num x)) {} =
        .ok (FP.num (((4 * Real.pi * 20e-9 ^ 3 : ℝ) : ℂ) /
          (1 - Pdm.geom x 20e-9 ((4 * Real.pi * 20e-9 ^ 3 : ℝ) : ℂ) * ((sub - env) / (sub + env))))) := fun x h1 =>
      Pdm.effPol_val _ _ _ x 20e-9 _ _ (pdm_conductor ⟨Defaults.initial, lag⟩ 20e-9) (C09_refl env sub none _ hs0 h0)
        (by norm_num; positivity) (condition_conductor (by norm_num) h1 hβ).1
    have h := demod_eval ⟨Defaults.initial, lag⟩ (fun x => Pdm.effPol ⟨Defaults.initial, lag⟩ (bulk env sub) (some x) {})
      (fun x => ((4 * Real.pi * 20e-9 ^ 3 : ℝ) : ℂ) /
          (1 - Pdm.geom x 20e-9 ((4 * Real.pi * 20e-9 ^ 3 : ℝ) : ℂ) * ((sub - env) / (sub + env)))) (0 + amp) amp n none
      (show 32 ≠ 0 by norm_num) ⟨_, hval _ (by linarith)⟩ fun θ => hval _ (by nlinarith [Real.neg_one_le_cos θ])
    rw [← FP.num_add] at h
    exact h
  · rw [hαn]
    refine mul_le_mul_of_nonneg_right ?_ (by positivity)
    show 21 / 10 ^ 14 * (8 / 3 : ℝ) ^ 2 + (58 * |(n : ℝ)| + 3 * (32 : ℕ) + 120) * uro * (8 / 3) ≤ 2e-12
    have hu := uro_le
    have hu0 := uro_pos
    have h1 : (58 * |(n : ℝ)| + 3 * (32 : ℕ) + 120) * uro ≤ 506 * (1111 / 10 ^ 19) := by
      refine mul_le_mul ?_ hu hu0.le (by norm_num)
      push_cast
      linarith
    norm_num at h1 ⊢
    linarith

/-- Rounding and truncation together: the computed harmonics are those of an ideal lock-in amplifier up to
`2.1 · 10⁻⁸` of the polarisability of the tip. -/
theorem C92_lockin (lag : ℕ → List (ℝ × ℝ)) (env sub : ℂ) (he : Moderate env) (hs : Moderate sub) (h0 : sub + env ≠ 0)
    (hβ : ‖(sub - env) / (sub + env)‖ ≤ 1) (amp : ℝ) (hA : 1e-15 ≤ amp) (hA' : amp ≤ 20e-9) :
    ∃ f : ℝ → ℂ, (∀ x, 0 ≤ x → x ≤ 2 * amp →
        Pdm.effPol ⟨Defaults.initial, lag⟩ (bulk env sub) (some (FP.num x)) {} = .ok (FP.num (f x))) ∧
      ∀ n : ℤ, |n| ≤ 5 → ∃ w : ℂ,
        Pdm.effPolN ⟨Defaults.initial, lag⟩ (layeredC128 L env [] sub) (.fin amp) (.fin n) none none {} =
          .ok ⟨.fin w.re, .fin w.im⟩ ∧
        ‖w - lockin f amp amp n‖ ≤ 2.1e-8 * (4 * Real.pi * 20e-9 ^ 3) := by
  have hA0 : 0 < amp := lt_of_lt_of_le (by norm_num) hA
  obtain ⟨f, hf, h⟩ := C89_default lag (bulk env sub) _ (C09_refl env sub none _ hs.ne_zero h0) hβ amp hA0 hA'
  refine ⟨f, hf, fun n hn => ?_⟩
  obtain ⟨v, hv, ev⟩ := h n hn
  obtain ⟨w, v', hw, hv', ew⟩ := C92_default (L := L) lag env sub he hs h0 hβ amp hA hA' n hn
  obtain rfl : v' = v := by
    rw [hv] at hv'
    exact (FP.num.inj (Except.ok.inj hv')).symm
  refine ⟨w, hw, ?_⟩
  have h1 := norm_sub_le_norm_sub_add_norm_sub w v' (lockin f amp amp n)
  have hP : 0 < 4 * Real.pi * (20e-9 : ℝ) ^ 3 := by positivity
  have h2 : 2e-8 * (4 * Real.pi * (20e-9 : ℝ) ^ 3) + 2e-12 * (4 * Real.pi * 20e-9 ^ 3) ≤
      2.1e-8 * (4 * Real.pi * 20e-9 ^ 3) := by
    rw [← add_mul]
    exact mul_le_mul_of_nonneg_right (by norm_num) hP.le
  linarith

/-- Permittivity 2, amplitude 10 nm. -/
example (lag : ℕ → List (ℝ × ℝ)) := C92_default (L := Libm.exact) lag 1 2 moderate_one moderate_two (by norm_num)
    (by norm_num) 10e-9 (by norm_num) (by norm_num) 3 (by norm_num)
example (lag : ℕ → List (ℝ × ℝ)) := C92_lockin (L := Libm.exact) lag 1 2 moderate_one moderate_two (by norm_num)
    (by norm_num) 10e-9 (by norm_num) (by norm_num)

end Snompy.Props
