import Verif.Props.DoubleFdm

/-!
# C94: the default finite dipole tip and an ideal lock-in amplifier

`lockin` is the ideal lock-in signal (`Verif/Spec/Lockin.lean`).
-/

namespace Snompy.Props

open Snompy

variable {L : Libm}

seal uro eta maxDouble

/-! ## C94 The default finite dipole tip and an ideal lock-in amplifier -/

/-- The factor `g - p` at complex heights. -/
theorem charge_default {d : ℝ} {u : ℂ} (hd : 1 / 2 ≤ d) (hd' : d ≤ 2) (h1 : -5e-9 ≤ u.re) (h2 : u.re ≤ 125e-9)
    (h3 : |u.im| ≤ 25e-9) :
    ‖gDefault - ((20e-9 : ℝ) + 2 * u + d * (20e-9 : ℝ)) / (2 * (300e-9 : ℝ))‖ ^ 2 ≤ 0.4603 := by
  have hre : gDefault.re = 0.7 * Real.cos 0.06 := by
    have := gDefault_re 0
    rwa [Complex.sub_re, Complex.ofReal_re, sub_zero, sub_zero] at this
  have him : gDefault.im = 0.7 * Real.sin 0.06 := by
    have := gDefault_im 0
    rwa [Complex.sub_im, Complex.ofReal_im, sub_zero] at this
  have hc := Real.one_sub_sq_div_two_le_cos (x := 0.06)
  have hc' := Real.cos_le_one 0.06
  have hs' : Real.sin 0.06 ≤ 0.06 := Real.sin_le (by norm_num)
  have hs : 0 ≤ Real.sin 0.06 := Real.sin_nonneg_of_nonneg_of_le_pi (by norm_num) (by linarith [Real.pi_gt_three])
  have e : ((20e-9 : ℝ) + 2 * u + d * (20e-9 : ℝ)) / (2 * (300e-9 : ℝ)) =
      (⟨(20e-9 + 2 * u.re + d * 20e-9) / 600e-9, u.im / 300e-9⟩ : ℂ) := by
    have h : (2 * (300e-9 : ℝ) : ℂ) = ((600e-9 : ℝ) : ℂ) := by push_cast; norm_num
    rw [h]
    apply Complex.ext
    · rw [Complex.div_ofReal_re]
      simp
    · rw [Complex.div_ofReal_im]
      simp
      ring
  rw [e, Complex.sq_norm, Complex.normSq_apply, Complex.sub_re, Complex.sub_im, hre, him]
  obtain ⟨h4, h5⟩ := abs_le.1 h3
  have p1 : 0.0333 ≤ (20e-9 + 2 * u.re + d * 20e-9) / 600e-9 := by
    rw [le_div_iff₀ (by norm_num)]
    norm_num at h1 ⊢
    linarith
  have p2 : (20e-9 + 2 * u.re + d * 20e-9) / 600e-9 ≤ 0.5167 := by
    rw [div_le_iff₀ (by norm_num)]
    norm_num at h2 ⊢
    linarith
  have q1 : u.im / 300e-9 ≤ 0.0834 := by
    rw [div_le_iff₀ (by norm_num)]
    norm_num at h5 ⊢
    linarith
  have q2 : -0.0834 ≤ u.im / 300e-9 := by
    rw [le_div_iff₀ (by norm_num)]
    norm_num at h4 ⊢
    linarith
  generalize (20e-9 + 2 * u.re + d * 20e-9) / 600e-9 = p at *
  generalize u.im / 300e-9 = q at *
  have a1 : |0.7 * Real.cos 0.06 - p| ≤ 0.6667 := by
    rw [abs_le]
    norm_num at hc p1 p2 ⊢
    constructor <;> linarith
  have a2 : |0.7 * Real.sin 0.06 - q| ≤ 0.1254 := by
    rw [abs_le]
    norm_num at hs' q1 q2 ⊢
    constructor <;> linarith
  have b1 := mul_self_le_mul_self (abs_nonneg _) a1
  have b2 := mul_self_le_mul_self (abs_nonneg _) a2
  rw [abs_mul_abs_self] at b1 b2
  norm_num at b1 b2 ⊢
  linarith

/-- The logarithm at complex heights. -/
theorem log_default {d : ℝ} {u : ℂ} (hd : 1 / 2 ≤ d) (hd' : d ≤ 2) (h1 : -5e-9 ≤ u.re) (h2 : u.re ≤ 125e-9)
    (h3 : |u.im| ≤ 25e-9) :
    ‖(Real.log (4 * 300e-9) : ℂ) - Complex.log ((20e-9 : ℝ) + 4 * u + 2 * d * (20e-9 : ℝ))‖ ^ 2 ≤
      1.1551 * Real.log 60 ^ 2 := by
  set q : ℂ := (20e-9 : ℝ) + 4 * u + 2 * d * (20e-9 : ℝ) with hq
  have hre : q.re = 20e-9 + 4 * u.re + 2 * d * 20e-9 := by simp [hq]
  have him : q.im = 4 * u.im := by simp [hq]
  have hre1 : 20e-9 ≤ q.re := by
    rw [hre]
    norm_num at h1 ⊢
    linarith
  have hq1 : 20e-9 ≤ ‖q‖ := hre1.trans (Complex.re_le_norm q)
  have hq0 : 0 < ‖q‖ := lt_of_lt_of_le (by norm_num) hq1
  have hq2 : ‖q‖ ≤ 1200e-9 := by
    refine (Complex.norm_le_abs_re_add_abs_im q).trans ?_
    rw [abs_of_nonneg (by linarith), hre, him, abs_mul, abs_of_pos (by norm_num : (0 : ℝ) < 4)]
    norm_num at h2 h3 ⊢
    linarith
  rw [Complex.sq_norm, Complex.normSq_apply, Complex.sub_re, Complex.sub_im, Complex.log_re, Complex.log_im,
    Complex.ofReal_re, Complex.ofReal_im]
  have e : Real.log (4 * 300e-9) - Real.log ‖q‖ = Real.log (1200e-9 / ‖q‖) := by
    rw [Real.log_div (by norm_num) hq0.ne']
    norm_num
  have l1 : 0 ≤ Real.log (1200e-9 / ‖q‖) := Real.log_nonneg (by rw [one_le_div hq0]; exact hq2)
  have l2 : Real.log (1200e-9 / ‖q‖) ≤ Real.log 60 := by
    refine Real.log_le_log (by positivity) ?_
    rw [div_le_iff₀ hq0]
    norm_num at hq1 ⊢
    linarith
  have harg : |Complex.arg q| ≤ Real.pi / 2 := Complex.abs_arg_le_pi_div_two_iff.2 (by linarith)
  have hpi := Real.pi_lt_d2
  have h60 := log_sixty
  have b1 := mul_self_le_mul_self l1 l2
  have b2 := mul_self_le_mul_self (abs_nonneg _) (harg.trans (by linarith : Real.pi / 2 ≤ 1.575))
  rw [abs_mul_abs_self] at b2
  rw [e]
  nlinarith

/-- Both geometry functions at complex heights. -/
theorem geomC_default {d : ℝ} {u : ℂ} (hd : 1 / 2 ≤ d) (hd' : d ≤ 2) (h1 : -5e-9 ≤ u.re) (h2 : u.re ≤ 125e-9)
    (h3 : |u.im| ≤ 25e-9) : ‖fdmGeomC d 20e-9 300e-9 gDefault u‖ ≤ 0.733 := by
  unfold fdmGeomC
  have a := charge_default hd hd' h1 h2 h3
  have b := log_default hd hd' h1 h2 h3
  have h60 := log_sixty
  rw [show (4 * 300e-9 / 20e-9 : ℝ) = 60 by norm_num]
  rw [norm_div, norm_mul, Complex.norm_real, Real.norm_of_nonneg (by linarith), div_le_iff₀ (by linarith)]
  refine le_of_sq_le_sq ?_ (by positivity)
  rw [mul_pow, mul_pow]
  refine (mul_le_mul a b (by positivity) (by norm_num)).trans ?_
  rw [← mul_assoc]
  exact mul_le_mul_of_nonneg_right (by norm_num) (by positivity)

/-- The default tip and height, for amplitudes up to 60 nm and reflection coefficients of modulus at most 1: the error of
`N` trapezia. The ellipse may reach 5 nm below the lowest point of the oscillation; the branch point of the logarithm is
at 10 nm below it. -/
theorem C94_rate (lag : ℕ → List (ℝ × ℝ)) (s : Stack (FP ℝ) (FP ℂ)) (hm : s.multilayer = false) (β : ℂ)
    (hβ : s.reflCoefQs = .ok (FP.num β)) (hb : ‖β‖ ≤ 1) (amp ρ : ℝ) (hA : 0 < amp) (hA' : amp ≤ 60e-9) (hρ : 0 < ρ)
    (hρ' : amp * (Real.cosh ρ - 1) ≤ 5e-9) :
    ∃ f : ℝ → ℂ, (∀ x, 0 ≤ x → x ≤ 2 * amp →
        Fdm.effPol ⟨Defaults.initial, lag⟩ s (some (FP.num x)) {} none none = .ok (FP.num (f x))) ∧
      ∀ (n : ℤ) (N : ℕ), N ≠ 0 →
        ∃ v, Fdm.effPolN ⟨Defaults.initial, lag⟩ s (FP.num amp) (FP.num n) none (some N) {} none none =
            .ok (FP.num v) ∧
          ‖v - lockin f amp amp n‖ ≤ 4.76 * Real.cosh (ρ * n) / (Real.exp (ρ * N) - 1) := by
  obtain ⟨g0, g0'⟩ := d0_default
  set d0 : ℝ := 1.31 * 300e-9 / (300e-9 + 2 * 20e-9) with hd0
  let D : ℂ → ℂ := fun u => 1 - β * fdmGeomC 0.5 20e-9 300e-9 gDefault u
  let G : ℂ → ℂ := fun u => 1 + β * fdmGeomC d0 20e-9 300e-9 gDefault u / (2 * D u)
  have hβ0 := norm_nonneg β
  have hD : ∀ u : ℂ, -5e-9 ≤ u.re → u.re ≤ 125e-9 → |u.im| ≤ 25e-9 → 0.267 ≤ ‖D u‖ := fun u h1 h2 h3 => by
    have h4 := geomC_default (d := 0.5) (by norm_num) (by norm_num) h1 h2 h3
    have h5 := norm_sub_norm_le (1 : ℂ) (β * fdmGeomC 0.5 20e-9 300e-9 gDefault u)
    rw [norm_one, norm_mul] at h5
    have h6 := mul_le_mul hb h4 (norm_nonneg _) (by norm_num)
    show _ ≤ ‖1 - β * fdmGeomC 0.5 20e-9 300e-9 gDefault u‖
    norm_num at h6 ⊢
    linarith
  have hval : ∀ x : ℝ, 0 ≤ x → x ≤ 0 + 2 * amp →
      Fdm.effPol ⟨Defaults.initial, lag⟩ s (some (FP.num x)) {} none none = .ok (FP.num (G x)) := by
    intro x hx hx'
    have k0 := geomOk_default g0 hx
    have k1 := geomOk_default (d := 0.5) (by norm_num) hx
    have hDx : D x ≠ 0 := norm_pos_iff.1 (lt_of_lt_of_le (by norm_num) (hD x (by rw [Complex.ofReal_re]; linarith)
      (by rw [Complex.ofReal_re]; linarith) (by rw [Complex.ofReal_im]; norm_num)))
    have := effPol_val ⟨Defaults.initial, lag⟩ s hm β hβ x 20e-9 300e-9 gDefault d0 0.5 1.4 k0 k1 (by
      rw [← fdmGeomC_ofReal gDefault k1]
      exact hDx) none
    rw [← fdmGeomC_ofReal gDefault k0, ← fdmGeomC_ofReal gDefault k1] at this
    rw [← this, Fdm.effPol_default, hm]
    unfold Fdm.effPol
    rw [fdm_default]
    rfl
  refine ⟨fun x => G x, fun x h1 h2 => hval x h1 (by linarith), fun n N hN => ?_⟩
  have hin : ∀ u ∈ ellipse (0 + amp) amp ρ, -5e-9 ≤ u.re ∧ u.re ≤ 125e-9 ∧ |u.im| ≤ 25e-9 := fun u hu => by
    have h1 := abs_lt.1 (ellipse_re hu)
    have h2 := ellipse_im hA hρ hu
    have h3 : amp * Real.cosh ρ ≤ 5e-9 + amp := by linarith
    refine ⟨by linarith, by norm_num at hA' h3 ⊢; linarith, h2.le.trans ?_⟩
    refine le_of_sq_le_sq ?_ (by norm_num)
    have h4 := Real.cosh_sq ρ
    have h5 : (amp * Real.sinh ρ) ^ 2 = amp * (Real.cosh ρ - 1) * (amp * (Real.cosh ρ - 1) + 2 * amp) := by
      rw [mul_pow]
      have : Real.sinh ρ ^ 2 = Real.cosh ρ ^ 2 - 1 := by linarith
      rw [this]
      ring
    have h6 : 0 ≤ amp * (Real.cosh ρ - 1) := mul_nonneg hA.le (by linarith [Real.one_le_cosh ρ])
    rw [h5]
    refine (mul_le_mul hρ' (show amp * (Real.cosh ρ - 1) + 2 * amp ≤ 125e-9 by norm_num at hA' hρ' ⊢; linarith)
      (by linarith) (by norm_num)).trans (by norm_num)
  have hpos : ∀ d : ℝ, 1 / 2 ≤ d → ∀ u : ℂ, -5e-9 ≤ u.re → 0 < 20e-9 + 4 * u.re + 2 * d * 20e-9 := fun d hd u hu => by
    norm_num at hu ⊢
    linarith
  obtain ⟨v, hv, hle⟩ := C89_bound ⟨Defaults.initial, lag⟩ G (0 + amp) amp ρ 2.38 hA hρ
    (fun u hu => by
      obtain ⟨h1, h2, h3⟩ := hin u hu
      refine (differentiableAt_const _).add (DifferentiableAt.div ?_ ?_ ?_)
      · exact (differentiableAt_const _).mul (fdmGeomC_differentiableAt d0 _ _ _ (hpos d0 g0 u h1))
      · exact (differentiableAt_const _).mul ((differentiableAt_const _).sub ((differentiableAt_const _).mul
          (fdmGeomC_differentiableAt 0.5 _ _ _ (hpos 0.5 (by norm_num) u h1))))
      · exact mul_ne_zero two_ne_zero (norm_pos_iff.1 (lt_of_lt_of_le (by norm_num) (hD u h1 h2 h3))))
    (fun u hu => by
      obtain ⟨h1, h2, h3⟩ := hin u hu
      have h4 := geomC_default g0 g0' h1 h2 h3
      have h5 := hD u h1 h2 h3
      refine (norm_add_le _ _).trans ?_
      rw [norm_one, norm_div, norm_mul, norm_mul, Complex.norm_ofNat]
      have h6 := mul_le_mul hb h4 (norm_nonneg _) (by norm_num)
      have h7 : ‖β‖ * ‖fdmGeomC d0 20e-9 300e-9 gDefault u‖ / (2 * ‖D u‖) ≤ 1.38 := by
        rw [div_le_iff₀ (by linarith)]
        norm_num at h6 h5 ⊢
        linarith
      linarith) n N hN
  refine ⟨v, ?_, ?_⟩
  · rw [← hv, ← effPolN_rate (f := fun x => Fdm.effPol ⟨Defaults.initial, lag⟩ s (some x) {} none none) hA hval]
    rfl
  · have e : (2 : ℝ) * 2.38 = 4.76 := by norm_num
    rw [e, zero_add] at hle
    exact hle

theorem example_refl_two : (bulk 1 2).reflCoefQs = .ok (FP.num (1 / 3 : ℂ)) := by
  rw [C09_refl 1 2 none _ two_ne_zero (by norm_num)]
  norm_num

example (lag : ℕ → List (ℝ × ℝ)) := C94_rate lag (bulk 1 2) rfl (1 / 3) example_refl_two (by norm_num) 20e-9
    (Real.log 2) (by norm_num) (by norm_num) (Real.log_pos (by norm_num)) (by rw [cosh_log_two]; norm_num)

theorem cosh_log_five {a : ℝ} (ha : 1 < a) {n : ℤ} (hn : |n| ≤ 5) :
    Real.cosh (Real.log a * n) ≤ (a ^ 5 + (a ^ 5)⁻¹) / 2 := by
  have h0 : 0 < Real.log a := Real.log_pos ha
  have h5 : Real.cosh (Real.log a * 5) = (a ^ 5 + (a ^ 5)⁻¹) / 2 := by
    have : Real.log a * 5 = Real.log (a ^ 5) := by
      rw [Real.log_pow]
      push_cast
      ring
    rw [this, Real.cosh_log (by positivity)]
  rw [← h5, Real.cosh_le_cosh, abs_mul, abs_mul]
  refine mul_le_mul_of_nonneg_left ?_ (abs_nonneg _)
  rw [abs_of_pos (by norm_num : (0 : ℝ) < 5)]
  exact_mod_cast hn

/-- 32 trapezia: errors below `2·10⁻⁸` for amplitudes up to 20 nm, and below `5·10⁻⁵` up to 60 nm. -/
theorem C94_default (lag : ℕ → List (ℝ × ℝ)) (s : Stack (FP ℝ) (FP ℂ)) (hm : s.multilayer = false) (β : ℂ)
    (hβ : s.reflCoefQs = .ok (FP.num β)) (hb : ‖β‖ ≤ 1) (amp : ℝ) (hA : 0 < amp) (hA' : amp ≤ 60e-9) :
    ∃ f : ℝ → ℂ, (∀ x, 0 ≤ x → x ≤ 2 * amp →
        Fdm.effPol ⟨Defaults.initial, lag⟩ s (some (FP.num x)) {} none none = .ok (FP.num (f x))) ∧
      ∀ n : ℤ, |n| ≤ 5 →
        ∃ v, Fdm.effPolN ⟨Defaults.initial, lag⟩ s (FP.num amp) (FP.num n) none none {} none none = .ok (FP.num v) ∧
          (amp ≤ 20e-9 → ‖v - lockin f amp amp n‖ ≤ 2e-8) ∧ ‖v - lockin f amp amp n‖ ≤ 5e-5 := by
  have hexp : ∀ a : ℝ, 0 < a → Real.exp (Real.log a * (32 : ℕ)) = a ^ 32 := fun a ha => by
    rw [mul_comm, Real.exp_nat_mul, Real.exp_log ha]
  have hcosh : Real.cosh (Real.log (3 / 2)) = 13 / 12 := by
    rw [Real.cosh_log (by norm_num)]
    norm_num
  obtain ⟨f, hf, h⟩ := C94_rate lag s hm β hβ hb amp (Real.log (3 / 2)) hA hA' (Real.log_pos (by norm_num)) (by
    rw [hcosh]
    norm_num at hA' ⊢
    linarith)
  refine ⟨f, hf, fun n hn => ?_⟩
  obtain ⟨v, hv, hle⟩ := h n 32 (by norm_num)
  refine ⟨v, hv, fun hA2 => ?_, hle.trans ?_⟩
  · obtain ⟨f', hf', h'⟩ := C94_rate lag s hm β hβ hb amp (Real.log 2) hA hA' (Real.log_pos (by norm_num)) (by
      rw [cosh_log_two]
      norm_num at hA2 ⊢
      linarith)
    obtain ⟨v', hv', hle'⟩ := h' n 32 (by norm_num)
    rw [hv] at hv'
    obtain rfl := FP.num.inj (Except.ok.inj hv')
    have e : lockin f amp amp n = lockin f' amp amp n := by
      have h1 : ∀ θ, f (amp + amp * Real.cos θ) = f' (amp + amp * Real.cos θ) := fun θ => by
        have h1 := hf (amp + amp * Real.cos θ) (by nlinarith [Real.neg_one_le_cos θ]) (by nlinarith [Real.cos_le_one θ])
        have h2 := hf' (amp + amp * Real.cos θ) (by nlinarith [Real.neg_one_le_cos θ]) (by nlinarith [Real.cos_le_one θ])
        rw [h1] at h2
        exact FP.num.inj (Except.ok.inj h2)
      unfold lockin
      simp only [h1]
    rw [e]
    refine hle'.trans ?_
    rw [hexp 2 two_pos, div_le_iff₀ (by norm_num)]
    have := cosh_log_five one_lt_two hn
    norm_num at this ⊢
    linarith
  · rw [hexp _ (by norm_num), div_le_iff₀ (by norm_num)]
    have := cosh_log_five (show (1 : ℝ) < 3 / 2 by norm_num) hn
    norm_num at this ⊢
    linarith

example (lag : ℕ → List (ℝ × ℝ)) := C94_default lag (bulk 1 2) rfl (1 / 3) example_refl_two (by norm_num) 50e-9
    (by norm_num) (by norm_num)

/-- Rounding and truncation together. -/
theorem C94_double (lag : ℕ → List (ℝ × ℝ)) (env sub : ℂ) (he : Moderate env) (hs : Moderate sub) (h0 : sub + env ≠ 0)
    (hβ : ‖(sub - env) / (sub + env)‖ ≤ 1) (amp : ℝ) (hA : 1e-15 ≤ amp) (hA' : amp ≤ 60e-9) :
    ∃ f : ℝ → ℂ, (∀ x, 0 ≤ x → x ≤ 2 * amp →
        Fdm.effPol ⟨Defaults.initial, lag⟩ (bulk env sub) (some (FP.num x)) {} none none = .ok (FP.num (f x))) ∧
      ∀ n : ℤ, |n| ≤ 5 → ∃ w : ℂ,
        Fdm.effPolN ⟨Defaults.initial, lag⟩ (layeredC128 L env [] sub) (.fin amp) (.fin n) none none {} none none =
          .ok ⟨.fin w.re, .fin w.im⟩ ∧
        (amp ≤ 20e-9 → ‖w - lockin f amp amp n‖ ≤ 2.1e-8) ∧ ‖w - lockin f amp amp n‖ ≤ 5.1e-5 := by
  have hA0 : 0 < amp := lt_of_lt_of_le (by norm_num) hA
  obtain ⟨f, hf, h⟩ := C94_default lag (bulk env sub) rfl _ (C09_refl env sub none _ hs.ne_zero h0) hβ amp hA0 hA'
  refine ⟨f, hf, fun n hn => ?_⟩
  obtain ⟨v, hv, e1, e2⟩ := h n hn
  obtain ⟨w, v', hw, hv', ew⟩ := C93_default (L := L) lag env sub he hs h0 hβ amp hA hA' n hn
  obtain rfl : v' = v := by
    rw [hv] at hv'
    exact (FP.num.inj (Except.ok.inj hv')).symm
  have h1 := norm_sub_le_norm_sub_add_norm_sub w v' (lockin f amp amp n)
  refine ⟨w, hw, fun h2 => ?_, ?_⟩
  · have h3 := e1 h2
    norm_num at h3 ew ⊢
    linarith
  · norm_num at e2 ew ⊢
    linarith

example (lag : ℕ → List (ℝ × ℝ)) := C94_double (L := Libm.exact) lag 1 2 moderate_one moderate_two (by norm_num)
    (by norm_num) 50e-9 (by norm_num) (by norm_num)

end Snompy.Props
