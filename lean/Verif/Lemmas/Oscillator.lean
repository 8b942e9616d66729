import Verif.Spec.Oscillator
import Mathlib.Analysis.Calculus.Deriv.MeanValue
import Mathlib.Analysis.SpecialFunctions.ExpDeriv
import Mathlib.Analysis.SpecialFunctions.Trigonometric.ArctanDeriv
import Mathlib.Analysis.SpecialFunctions.Trigonometric.Deriv
import Mathlib.MeasureTheory.Integral.IntervalIntegral.IntegrationByParts
import Mathlib.Analysis.Complex.RealDeriv

/-!
# Damped oscillators
-/

namespace Snompy

open Filter Topology

/-- An oscillator that is left alone comes to rest. -/
theorem Oscillates.rest {ω γ : ℝ} {x v : ℝ → ℝ} (hω : 0 < ω) (hγ : 0 < γ) (h : Oscillates ω γ (fun _ => 0) x v) :
    Tendsto x atTop (𝓝 0) ∧ Tendsto v atTop (𝓝 0) := by
  -- a quadratic form that decays exponentially
  set δ : ℝ := min ω (2 * γ / (3 / 2 + γ ^ 2 / (2 * ω ^ 2))) with hδ
  have hden : 0 < 3 / 2 + γ ^ 2 / (2 * ω ^ 2) := by positivity
  have hδ0 : 0 < δ := lt_min hω (by positivity)
  have hδω : δ ≤ ω := min_le_left _ _
  have hδγ : δ * (3 / 2 + γ ^ 2 / (2 * ω ^ 2)) ≤ 2 * γ := by
    have := min_le_right ω (2 * γ / (3 / 2 + γ ^ 2 / (2 * ω ^ 2)))
    rwa [← hδ, le_div_iff₀ hden] at this
  set E : ℝ → ℝ := fun t => v t ^ 2 + ω ^ 2 * x t ^ 2 with hE
  set V : ℝ → ℝ := fun t => v t ^ 2 + ω ^ 2 * x t ^ 2 + δ * (x t * v t) with hV
  have hcross : ∀ t, |δ * (x t * v t)| ≤ E t / 2 := by
    intro t
    have h1 : δ * |x t| * |v t| ≤ ω * |x t| * |v t| := by
      gcongr
    have h2 : 0 ≤ (ω * |x t| - |v t|) ^ 2 := sq_nonneg _
    have h3 : E t = |v t| ^ 2 + ω ^ 2 * |x t| ^ 2 := by rw [sq_abs, sq_abs]
    rw [abs_mul, abs_mul, abs_of_pos hδ0, h3]
    nlinarith
  have hEV : ∀ t, E t ≤ 2 * V t := fun t => by
    have := (abs_le.1 (hcross t)).1
    show v t ^ 2 + ω ^ 2 * x t ^ 2 ≤ 2 * (v t ^ 2 + ω ^ 2 * x t ^ 2 + δ * (x t * v t))
    simp only [hE] at this
    linarith
  have hVE : ∀ t, V t ≤ 3 / 2 * E t := fun t => by
    have := (abs_le.1 (hcross t)).2
    show v t ^ 2 + ω ^ 2 * x t ^ 2 + δ * (x t * v t) ≤ 3 / 2 * (v t ^ 2 + ω ^ 2 * x t ^ 2)
    simp only [hE] at this
    linarith
  set W : ℝ → ℝ := fun t => 2 * v t * (-γ * v t - ω ^ 2 * x t) + ω ^ 2 * (2 * x t * v t) +
    δ * (v t * v t + x t * (-γ * v t - ω ^ 2 * x t)) with hW
  have hd : ∀ t, HasDerivAt V (W t) t := by
    intro t
    have hx := h.pos t
    have hv : HasDerivAt v (-γ * v t - ω ^ 2 * x t) t := by
      have := h.vel t
      rwa [show (0 : ℝ) - γ * v t - ω ^ 2 * x t = -γ * v t - ω ^ 2 * x t by ring] at this
    have := ((hv.pow 2).add ((hx.pow 2).const_mul (ω ^ 2))).add ((hx.mul hv).const_mul δ)
    refine this.congr_deriv ?_
    simp only [hW]
    push_cast
    ring
  have hWV : ∀ t, W t ≤ -(δ / 3) * V t := by
    intro t
    have h1 : W t ≤ -(δ / 2) * E t := by
      have e : W t = -(2 * γ - δ) * v t ^ 2 - δ * γ * (x t * v t) - δ * ω ^ 2 * x t ^ 2 := by
        simp only [hW]; ring
      have h2 : -(δ * γ * (x t * v t)) ≤ δ / 2 * ω ^ 2 * x t ^ 2 + δ * γ ^ 2 / (2 * ω ^ 2) * v t ^ 2 := by
        have h3 : 0 ≤ δ / 2 * (ω * x t + γ / ω * v t) ^ 2 := by positivity
        have h4 : δ / 2 * (ω * x t + γ / ω * v t) ^ 2 =
            δ / 2 * ω ^ 2 * x t ^ 2 + δ * γ * (x t * v t) + δ * γ ^ 2 / (2 * ω ^ 2) * v t ^ 2 := by
          field_simp
          ring
        linarith
      have h5 : δ * (3 / 2 + γ ^ 2 / (2 * ω ^ 2)) * v t ^ 2 ≤ 2 * γ * v t ^ 2 :=
        mul_le_mul_of_nonneg_right hδγ (sq_nonneg _)
      have h6 : δ * γ ^ 2 / (2 * ω ^ 2) * v t ^ 2 = δ * (γ ^ 2 / (2 * ω ^ 2)) * v t ^ 2 := by ring
      rw [e]
      simp only [hE]
      nlinarith
    have := mul_le_mul_of_nonneg_left (hVE t) (by positivity : 0 ≤ δ / 3)
    linarith
  have hanti : Antitone fun t => Real.exp (δ / 3 * t) * V t := by
    have hd' : ∀ t, HasDerivAt (fun t => Real.exp (δ / 3 * t) * V t)
        (Real.exp (δ / 3 * t) * (δ / 3) * V t + Real.exp (δ / 3 * t) * W t) t := by
      intro t
      have h1 : HasDerivAt (fun t : ℝ => Real.exp (δ / 3 * t)) (Real.exp (δ / 3 * t) * (δ / 3)) t := by
        have := ((hasDerivAt_id t).const_mul (δ / 3)).exp
        simpa using this
      exact h1.mul (hd t)
    refine antitone_of_deriv_nonpos (fun t => (hd' t).differentiableAt) fun t => ?_
    rw [(hd' t).deriv]
    have h7 := mul_le_mul_of_nonneg_left (hWV t) (Real.exp_pos (δ / 3 * t)).le
    linarith
  have hVlim : ∀ t, 0 ≤ t → E t ≤ 2 * V 0 * Real.exp (-(δ / 3 * t)) := by
    intro t ht
    have h1 := hanti ht
    simp only [mul_zero, Real.exp_zero, one_mul] at h1
    have h2 : V t ≤ V 0 * Real.exp (-(δ / 3 * t)) := by
      rw [Real.exp_neg, ← div_eq_mul_inv, le_div_iff₀ (Real.exp_pos _), mul_comm]
      exact h1
    linarith [hEV t]
  have hexp : Tendsto (fun t : ℝ => 2 * V 0 * Real.exp (-(δ / 3 * t))) atTop (𝓝 0) := by
    have h1 : Tendsto (fun t : ℝ => -(δ / 3 * t)) atTop atBot :=
      tendsto_neg_atTop_atBot.comp (tendsto_id.const_mul_atTop (by positivity : 0 < δ / 3))
    have := (Real.tendsto_exp_atBot.comp h1).const_mul (2 * V 0)
    rwa [mul_zero] at this
  have hElim : Tendsto E atTop (𝓝 0) := by
    refine squeeze_zero' ?_ ?_ hexp
    · exact Eventually.of_forall fun t => by simp only [hE]; positivity
    · filter_upwards [eventually_ge_atTop 0] with t ht using hVlim t ht
  have hsqrt : ∀ f : ℝ → ℝ, (∀ t, f t ^ 2 ≤ E t) → Tendsto f atTop (𝓝 0) := by
    intro f hf
    have h1 : Tendsto (fun t => Real.sqrt (E t)) atTop (𝓝 0) := by
      have := (Real.continuous_sqrt.tendsto 0).comp hElim
      rwa [Real.sqrt_zero] at this
    exact squeeze_zero_norm (fun t => by rw [Real.norm_eq_abs]; exact Real.abs_le_sqrt (hf t)) h1
  refine ⟨?_, hsqrt v fun t => by simp only [hE]; nlinarith [sq_nonneg (ω * x t)]⟩
  have h8 := hsqrt (fun t => ω * x t) fun t => by simp only [hE]; nlinarith [sq_nonneg (v t)]
  have h9 := h8.const_mul ω⁻¹
  rw [mul_zero] at h9
  refine h9.congr fun t => ?_
  rw [← mul_assoc, inv_mul_cancel₀ hω.ne', one_mul]

/-- Two motions under the same force. -/
theorem Oscillates.sub {ω γ : ℝ} {F x v y w : ℝ → ℝ} (h : Oscillates ω γ F x v) (h' : Oscillates ω γ F y w) :
    Oscillates ω γ (fun _ => 0) (fun t => x t - y t) (fun t => v t - w t) where
  pos t := (h.pos t).sub (h'.pos t)
  vel t := ((h.vel t).sub (h'.vel t)).congr_deriv (by ring)

theorem Drifts.rest {γ : ℝ} {v w F : ℝ → ℝ} (hγ : 0 < γ) (h : Drifts γ F v) (h' : Drifts γ F w) :
    Tendsto (fun t => v t - w t) atTop (𝓝 0) := by
  have hd : ∀ t, HasDerivAt (fun t => Real.exp (γ * t) * (v t - w t)) 0 t := by
    intro t
    have h1 : HasDerivAt (fun t : ℝ => Real.exp (γ * t)) (Real.exp (γ * t) * γ) t := by
      have := ((hasDerivAt_id t).const_mul γ).exp
      simpa using this
    exact (h1.mul ((h t).sub (h' t))).congr_deriv (by simp only [Pi.sub_apply]; ring)
  have hc : ∀ t, Real.exp (γ * t) * (v t - w t) = v 0 - w 0 := by
    intro t
    have := is_const_of_deriv_eq_zero (fun t => (hd t).differentiableAt) (fun t => (hd t).deriv) t 0
    simpa using this
  have h1 : Tendsto (fun t : ℝ => -(γ * t)) atTop atBot :=
    tendsto_neg_atTop_atBot.comp (tendsto_id.const_mul_atTop hγ)
  have h2 := (Real.tendsto_exp_atBot.comp h1).const_mul (v 0 - w 0)
  rw [mul_zero] at h2
  refine h2.congr fun t => ?_
  rw [← hc t, Function.comp_apply, Real.exp_neg]
  field_simp

/-- The derivative of `Re (c e^{-iνt})`. -/
theorem hasDerivAt_re_exp (c : ℂ) (ν t : ℝ) :
    HasDerivAt (fun t : ℝ => (c * Complex.exp (-Complex.I * ν * t)).re)
      ((c * (-Complex.I * ν)) * Complex.exp (-Complex.I * ν * t)).re t := by
  have h1 : HasDerivAt (fun t : ℂ => c * Complex.exp (-Complex.I * ν * t))
      ((c * (-Complex.I * ν)) * Complex.exp (-Complex.I * ν * t)) (t : ℂ) := by
    have := (((hasDerivAt_id (t : ℂ)).const_mul (-Complex.I * (ν : ℂ))).cexp).const_mul c
    refine this.congr_deriv ?_
    simp only [id, mul_one]
    ring
  exact h1.real_of_complex

theorem re_exp (ν t : ℝ) : (Complex.exp (-Complex.I * ν * t)).re = Real.cos (ν * t) := by
  rw [show -Complex.I * (ν : ℂ) * t = ((-(ν * t) : ℝ) : ℂ) * Complex.I by push_cast; ring, Complex.exp_ofReal_mul_I_re,
    Real.cos_neg]

/-- The steady state. -/
theorem oscillates_steady {ω γ ν A : ℝ} {D : ℂ} (hD : D = (ω : ℂ) ^ 2 - ν ^ 2 - Complex.I * γ * ν) (h0 : D ≠ 0) :
    Oscillates ω γ (fun t => A * Real.cos (ν * t)) (fun t => ((A / D : ℂ) * Complex.exp (-Complex.I * ν * t)).re)
      (fun t => ((A / D : ℂ) * (-Complex.I * ν) * Complex.exp (-Complex.I * ν * t)).re) where
  pos t := hasDerivAt_re_exp _ ν t
  vel t := by
    refine (hasDerivAt_re_exp _ ν t).congr_deriv ?_
    set e := Complex.exp (-Complex.I * ν * t) with he
    set c : ℂ := A / D with hc
    have hA : (A : ℂ) = c * D := by rw [hc, div_mul_cancel₀ _ h0]
    have e1 : A * Real.cos (ν * t) = ((A : ℂ) * e).re := by rw [Complex.re_ofReal_mul, re_exp]
    have e2 : γ * (c * (-Complex.I * ν) * e).re = ((γ : ℂ) * (c * (-Complex.I * ν) * e)).re := by rw [Complex.re_ofReal_mul]
    have e3 : ω ^ 2 * (c * e).re = (((ω ^ 2 : ℝ) : ℂ) * (c * e)).re := by rw [Complex.re_ofReal_mul]
    rw [e1, e2, e3, ← Complex.sub_re, ← Complex.sub_re]
    congr 1
    rw [hA, hD]
    push_cast
    linear_combination (c * e * ν ^ 2) * Complex.I_sq

/-- The steady current. -/
theorem drifts_steady {γ ν A : ℝ} (h0 : (γ : ℂ) - Complex.I * ν ≠ 0) :
    Drifts γ (fun t => A * Real.cos (ν * t)) (fun t => ((A / (γ - Complex.I * ν) : ℂ) * Complex.exp (-Complex.I * ν * t)).re) := by
  intro t
  refine (hasDerivAt_re_exp _ ν t).congr_deriv ?_
  set e := Complex.exp (-Complex.I * ν * t) with he
  set c : ℂ := A / (γ - Complex.I * ν) with hc
  have hA : (A : ℂ) = c * (γ - Complex.I * ν) := by rw [hc, div_mul_cancel₀ _ h0]
  have e1 : A * Real.cos (ν * t) = ((A : ℂ) * e).re := by rw [Complex.re_ofReal_mul, re_exp]
  have e2 : γ * (c * e).re = ((γ : ℂ) * (c * e)).re := by rw [Complex.re_ofReal_mul]
  show _ = A * Real.cos (ν * t) - γ * (c * e).re
  rw [e1, e2, ← Complex.sub_re]
  congr 1
  rw [hA]
  ring

/-- The response to a kick. -/
theorem Oscillates.integral {ω γ ν : ℝ} {x v : ℝ → ℝ} (h : Oscillates ω γ (fun _ => 0) x v) {D : ℂ}
    (hD : D = (ω : ℂ) ^ 2 - ν ^ 2 - Complex.I * γ * ν) (T : ℝ) :
    D * ∫ t in (0 : ℝ)..T, (x t : ℂ) * Complex.exp (Complex.I * ν * t) =
      (v 0 + (γ - Complex.I * ν) * x 0) - (v T + (γ - Complex.I * ν) * x T) * Complex.exp (Complex.I * ν * T) := by
  have hx : ∀ t, HasDerivAt (fun t : ℝ => (x t : ℂ)) (v t : ℂ) t := fun t => (h.pos t).ofReal_comp
  have hv : ∀ t, HasDerivAt (fun t : ℝ => (v t : ℂ)) ((-γ * v t - ω ^ 2 * x t : ℝ) : ℂ) t := fun t => by
    have := (h.vel t).ofReal_comp
    rwa [show (0 : ℝ) - γ * v t - ω ^ 2 * x t = -γ * v t - ω ^ 2 * x t by ring] at this
  have he : ∀ t : ℝ, HasDerivAt (fun t : ℝ => Complex.exp (Complex.I * ν * t)) (Complex.exp (Complex.I * ν * t) * (Complex.I * ν)) t := by
    intro t
    have := (((hasDerivAt_id (t : ℂ)).const_mul (Complex.I * (ν : ℂ))).cexp).comp_ofReal
    simpa using this
  have hH : ∀ t : ℝ, HasDerivAt (fun t : ℝ => -((v t + (γ - Complex.I * ν) * x t) * Complex.exp (Complex.I * ν * t)))
      (D * ((x t : ℂ) * Complex.exp (Complex.I * ν * t))) t := by
    intro t
    refine ((((hv t).add ((hx t).const_mul _)).mul (he t)).neg).congr_deriv ?_
    rw [hD]
    simp only [Pi.add_apply]
    push_cast
    linear_combination (ν ^ 2 * (x t : ℂ) * Complex.exp (Complex.I * ν * t)) * Complex.I_sq
  have hcont : Continuous fun t : ℝ => D * ((x t : ℂ) * Complex.exp (Complex.I * ν * t)) := by
    have c1 : Continuous fun t : ℝ => (x t : ℂ) := continuous_iff_continuousAt.2 fun t => (hx t).continuousAt
    fun_prop
  rw [← intervalIntegral.integral_const_mul, intervalIntegral.integral_eq_sub_of_hasDerivAt (fun t _ => hH t)
    (hcont.intervalIntegrable _ _)]
  simp only [Complex.ofReal_zero, mul_zero, Complex.exp_zero, mul_one]
  ring

/-- An oscillator at rest can be kicked. -/
theorem oscillates_kick {Ω γ : ℝ} (hΩ : Ω ≠ 0) (ω : ℝ) (hω : ω ^ 2 = Ω ^ 2 + (γ / 2) ^ 2) :
    Oscillates ω γ (fun _ => 0) (fun t => Real.exp (-(γ / 2) * t) * Real.sin (Ω * t) / Ω)
      (fun t => Real.exp (-(γ / 2) * t) * (Real.cos (Ω * t) - γ / 2 * (Real.sin (Ω * t) / Ω))) := by
  have he : ∀ t : ℝ, HasDerivAt (fun t : ℝ => Real.exp (-(γ / 2) * t)) (Real.exp (-(γ / 2) * t) * (-(γ / 2))) t := by
    intro t
    simpa using ((hasDerivAt_id t).const_mul (-(γ / 2))).exp
  have hs : ∀ t : ℝ, HasDerivAt (fun t : ℝ => Real.sin (Ω * t)) (Real.cos (Ω * t) * Ω) t := by
    intro t
    simpa using ((hasDerivAt_id t).const_mul Ω).sin
  have hc : ∀ t : ℝ, HasDerivAt (fun t : ℝ => Real.cos (Ω * t)) (-Real.sin (Ω * t) * Ω) t := by
    intro t
    simpa using ((hasDerivAt_id t).const_mul Ω).cos
  constructor
  · intro t
    refine (((he t).mul (hs t)).div_const Ω).congr_deriv ?_
    field_simp
    ring
  · intro t
    refine ((he t).mul ((hc t).sub (((hs t).div_const Ω).const_mul (γ / 2)))).congr_deriv ?_
    rw [hω]
    simp only [Pi.sub_apply]
    field_simp
    ring

/-! ## Absorption integrated over the spectrum -/

theorem absorption_pos {ω γ : ℝ} (hω : 0 < ω) (hγ : 0 < γ) (ν : ℝ) : 0 < (ω ^ 2 - ν ^ 2) ^ 2 + (γ * ν) ^ 2 := by
  rcases eq_or_ne ν 0 with rfl | h
  · have : 0 < ω ^ 4 := by positivity
    nlinarith
  · have : 0 < (γ * ν) ^ 2 := by positivity
    nlinarith [sq_nonneg (ω ^ 2 - ν ^ 2)]

theorem absorption_cont {ω γ : ℝ} (hω : 0 < ω) (hγ : 0 < γ) {f : ℝ → ℝ} (hf : Continuous f) :
    Continuous fun ν => f ν / ((ω ^ 2 - ν ^ 2) ^ 2 + (γ * ν) ^ 2) :=
  hf.div (by fun_prop) fun x => (absorption_pos hω hγ x).ne'

/-- The absorption at `ν` and at `ω²/ν`. -/
theorem absorption_swap {ω γ a : ℝ} (hω : 0 < ω) (hγ : 0 < γ) (ha : 0 < a) :
    ∫ ν in (ω ^ 2 / a)..a, γ * ω ^ 2 / ((ω ^ 2 - ν ^ 2) ^ 2 + (γ * ν) ^ 2) =
      ∫ ν in (ω ^ 2 / a)..a, γ * ν ^ 2 / ((ω ^ 2 - ν ^ 2) ^ 2 + (γ * ν) ^ 2) := by
  have hpos : ∀ x ∈ Set.uIcc (ω ^ 2 / a) a, 0 < x := by
    intro x hx
    have h1 : 0 < min (ω ^ 2 / a) a := lt_min (by positivity) ha
    exact h1.trans_le hx.1
  have h := intervalIntegral.integral_comp_mul_deriv (a := ω ^ 2 / a) (b := a) (f := fun x => ω ^ 2 / x)
    (f' := fun x => -(ω ^ 2) / x ^ 2) (g := fun ν => γ * ω ^ 2 / ((ω ^ 2 - ν ^ 2) ^ 2 + (γ * ν) ^ 2)) ?_ ?_
    (absorption_cont hω hγ continuous_const)
  · rw [show ω ^ 2 / (ω ^ 2 / a) = a by field_simp] at h
    rw [intervalIntegral.integral_symm, ← h, ← intervalIntegral.integral_neg]
    refine intervalIntegral.integral_congr fun x hx => ?_
    have hx0 := hpos x hx
    have hp := absorption_pos hω hγ x
    simp only [Function.comp_apply]
    have e : (ω ^ 2 - (ω ^ 2 / x) ^ 2) ^ 2 + (γ * (ω ^ 2 / x)) ^ 2 =
        ω ^ 4 / x ^ 4 * ((ω ^ 2 - x ^ 2) ^ 2 + (γ * x) ^ 2) := by
      field_simp
      ring
    rw [e]
    field_simp
  · intro x hx
    have hx0 : x ≠ 0 := (hpos x hx).ne'
    have := (hasDerivAt_inv hx0).const_mul (ω ^ 2)
    refine (this.congr_deriv (by ring)).congr_of_eventuallyEq (Eventually.of_forall fun y => ?_)
    exact div_eq_mul_inv _ _
  · exact continuousOn_of_forall_continuousAt fun x hx => by
      have : x ^ 2 ≠ 0 := pow_ne_zero 2 (hpos x hx).ne'
      fun_prop (disch := assumption)

theorem absorption_half {ω γ T : ℝ} (hω : 0 < ω) (hγ : 0 < γ) (hT : 0 < T) :
    ∫ ν in (ω ^ 2 / T)..T, γ * ν ^ 2 / ((ω ^ 2 - ν ^ 2) ^ 2 + (γ * ν) ^ 2) = Real.arctan ((T - ω ^ 2 / T) / γ) := by
  have hpos : ∀ x ∈ Set.uIcc (ω ^ 2 / T) T, 0 < x := by
    intro x hx
    have h1 : 0 < min (ω ^ 2 / T) T := lt_min (by positivity) hT
    exact h1.trans_le hx.1
  have c1 := (absorption_cont hω hγ (f := fun ν => γ * ν ^ 2) (by fun_prop)).intervalIntegrable
    (μ := MeasureTheory.volume) (ω ^ 2 / T) T
  have c2 := (absorption_cont hω hγ (f := fun _ => γ * ω ^ 2) (by fun_prop)).intervalIntegrable
    (μ := MeasureTheory.volume) (ω ^ 2 / T) T
  have hsum : (∫ ν in (ω ^ 2 / T)..T, γ * ν ^ 2 / ((ω ^ 2 - ν ^ 2) ^ 2 + (γ * ν) ^ 2)) +
      (∫ ν in (ω ^ 2 / T)..T, γ * ω ^ 2 / ((ω ^ 2 - ν ^ 2) ^ 2 + (γ * ν) ^ 2)) =
      Real.arctan ((T - ω ^ 2 / T) / γ) - Real.arctan ((ω ^ 2 / T - ω ^ 2 / (ω ^ 2 / T)) / γ) := by
    rw [← intervalIntegral.integral_add c1 c2]
    refine intervalIntegral.integral_eq_sub_of_hasDerivAt (f := fun x => Real.arctan ((x - ω ^ 2 / x) / γ)) (fun x hx => ?_)
      (c1.add c2)
    have hx0 := hpos x hx
    have hp := absorption_pos hω hγ x
    have h1 : HasDerivAt (fun x : ℝ => (x - ω ^ 2 / x) / γ) ((1 - ω ^ 2 * (-(x ^ 2)⁻¹)) / γ) x :=
      ((hasDerivAt_id x).sub ((hasDerivAt_inv hx0.ne').const_mul (ω ^ 2))).div_const γ
    refine h1.arctan.congr_deriv ?_
    have e : 1 + ((x - ω ^ 2 / x) / γ) ^ 2 = ((ω ^ 2 - x ^ 2) ^ 2 + (γ * x) ^ 2) / (γ ^ 2 * x ^ 2) := by
      field_simp
      ring
    rw [e, ← add_div]
    field_simp
    ring
  rw [absorption_swap hω hγ hT, show ω ^ 2 / (ω ^ 2 / T) = T by field_simp,
    show (ω ^ 2 / T - T) / γ = -((T - ω ^ 2 / T) / γ) by ring, Real.arctan_neg] at hsum
  linarith

/-- The integrals over the whole spectrum. -/
theorem absorption_lim {ω γ : ℝ} (hγ : 0 < γ) {f : ℝ → ℝ} (hf : Continuous f)
    (hh : ∀ T, 0 < T → ∫ ν in (ω ^ 2 / T)..T, f ν = Real.arctan ((T - ω ^ 2 / T) / γ)) :
    Tendsto (fun T => ∫ ν in (0 : ℝ)..T, f ν) atTop (𝓝 (Real.pi / 2)) := by
  have hinv : Tendsto (fun T : ℝ => ω ^ 2 / T) atTop (𝓝 0) := tendsto_const_nhds.div_atTop tendsto_id
  have h1 : Tendsto (fun T : ℝ => ∫ ν in (0 : ℝ)..(ω ^ 2 / T), f ν) atTop (𝓝 0) := by
    have hc := intervalIntegral.continuous_primitive (fun a b => hf.intervalIntegrable (μ := MeasureTheory.volume) a b) 0
    have := (hc.tendsto 0).comp hinv
    rwa [intervalIntegral.integral_same] at this
  have h2 : Tendsto (fun T : ℝ => Real.arctan ((T - ω ^ 2 / T) / γ)) atTop (𝓝 (Real.pi / 2)) := by
    have h3 : Tendsto (fun T : ℝ => (T - ω ^ 2 / T) / γ) atTop atTop := by
      refine Tendsto.atTop_div_const hγ ?_
      exact (tendsto_id (α := ℝ)).atTop_add hinv.neg
    exact (Real.tendsto_arctan_atTop.mono_right nhdsWithin_le_nhds).comp h3
  have h4 := h1.add h2
  rw [zero_add] at h4
  refine h4.congr' ?_
  filter_upwards [eventually_gt_atTop 0] with T hT
  rw [← hh T hT]
  exact intervalIntegral.integral_add_adjacent_intervals (hf.intervalIntegrable _ _) (hf.intervalIntegrable _ _)

theorem absorption_weight {ω γ : ℝ} (hω : 0 < ω) (hγ : 0 < γ) :
    Tendsto (fun T => ∫ ν in (0 : ℝ)..T, γ * ν ^ 2 / ((ω ^ 2 - ν ^ 2) ^ 2 + (γ * ν) ^ 2)) atTop (𝓝 (Real.pi / 2)) :=
  absorption_lim hγ (absorption_cont hω hγ (by fun_prop)) fun _ hT => absorption_half hω hγ hT

theorem absorption_static {ω γ : ℝ} (hω : 0 < ω) (hγ : 0 < γ) :
    Tendsto (fun T => ∫ ν in (0 : ℝ)..T, γ * ω ^ 2 / ((ω ^ 2 - ν ^ 2) ^ 2 + (γ * ν) ^ 2)) atTop (𝓝 (Real.pi / 2)) :=
  absorption_lim hγ (absorption_cont hω hγ (by fun_prop)) fun _ hT =>
    (absorption_swap hω hγ hT).trans (absorption_half hω hγ hT)

/-! ## Work -/

/-- The work of the field `cos (ν t)` during one period on a motion with the amplitude `c`. -/
theorem work_period (c : ℂ) {ν : ℝ} (hν : 0 < ν) (T : ℝ) :
    ∫ t in T..(T + 2 * Real.pi / ν), Real.cos (ν * t) * (c * (-Complex.I * ν) * Complex.exp (-Complex.I * ν * t)).re =
      Real.pi * c.im := by
  have e : ∀ t : ℝ, (c * (-Complex.I * ν) * Complex.exp (-Complex.I * ν * t)).re =
      ν * (c.im * Real.cos (ν * t) - c.re * Real.sin (ν * t)) := by
    intro t
    rw [show -Complex.I * (ν : ℂ) * t = ((-(ν * t) : ℝ) : ℂ) * Complex.I by push_cast; ring]
    simp only [Complex.mul_re, Complex.mul_im, Complex.neg_re, Complex.neg_im, Complex.I_re, Complex.I_im, Complex.ofReal_re,
      Complex.ofReal_im, Complex.exp_ofReal_mul_I_re, Complex.exp_ofReal_mul_I_im, Real.cos_neg, Real.sin_neg]
    ring
  simp only [e]
  have hd : ∀ t : ℝ, HasDerivAt (fun t : ℝ => ν * (c.im * (t / 2 + Real.sin (2 * (ν * t)) / (4 * ν)) + c.re * (Real.cos (2 * (ν * t)) / (4 * ν))))
      (Real.cos (ν * t) * (ν * (c.im * Real.cos (ν * t) - c.re * Real.sin (ν * t)))) t := by
    intro t
    have h0 : HasDerivAt (fun t : ℝ => 2 * (ν * t)) (2 * ν) t := by
      simpa using ((hasDerivAt_id t).const_mul ν).const_mul 2
    have h1 := (((((hasDerivAt_id t).div_const 2).add (h0.sin.div_const (4 * ν))).const_mul c.im).add
      ((h0.cos.div_const (4 * ν)).const_mul c.re)).const_mul ν
    refine h1.congr_deriv ?_
    rw [Real.cos_two_mul, Real.sin_two_mul]
    field_simp
    ring
  rw [intervalIntegral.integral_eq_sub_of_hasDerivAt (fun t _ => hd t) (by
    apply Continuous.intervalIntegrable
    fun_prop)]
  have e2 : 2 * (ν * (T + 2 * Real.pi / ν)) = 2 * (ν * T) + (2 : ℕ) * (2 * Real.pi) := by
    push_cast
    field_simp
  rw [e2, Real.sin_add_nat_mul_two_pi, Real.cos_add_nat_mul_two_pi]
  field_simp
  ring

/-- Two velocities that approach each other take up the same work. -/
theorem work_lim {ν W P : ℝ} {v w : ℝ → ℝ} (hv : Continuous v) (hw : Continuous w) (hP : 0 < P)
    (hlim : Tendsto (fun t => v t - w t) atTop (𝓝 0)) (hW : ∀ T, ∫ t in T..(T + P), Real.cos (ν * t) * w t = W) :
    Tendsto (fun T => ∫ t in T..(T + P), Real.cos (ν * t) * v t) atTop (𝓝 W) := by
  rw [Metric.tendsto_atTop]
  intro ε hε
  obtain ⟨N, hN⟩ := Metric.tendsto_atTop.1 hlim (ε / (2 * P)) (by positivity)
  refine ⟨N, fun T hT => ?_⟩
  rw [← hW T, Real.dist_eq, ← intervalIntegral.integral_sub
    (Continuous.intervalIntegrable (by fun_prop) _ _) (Continuous.intervalIntegrable (by fun_prop) _ _)]
  have h1 := intervalIntegral.norm_integral_le_of_norm_le_const (a := T) (b := T + P) (C := ε / (2 * P))
    (f := fun t => Real.cos (ν * t) * v t - Real.cos (ν * t) * w t) (by
      intro t ht
      rw [Set.uIoc_of_le (by linarith)] at ht
      have h2 := hN t (hT.trans ht.1.le)
      rw [Real.dist_eq, sub_zero] at h2
      rw [← mul_sub, Real.norm_eq_abs, abs_mul]
      exact (mul_le_of_le_one_left (abs_nonneg _) (Real.abs_cos_le_one _)).trans h2.le)
  rw [add_sub_cancel_left, abs_of_pos hP, Real.norm_eq_abs] at h1
  refine h1.trans_lt ?_
  rw [div_mul_eq_mul_div, mul_comm ε P, mul_comm 2 P, mul_div_mul_left _ _ hP.ne']
  linarith

end Snompy
