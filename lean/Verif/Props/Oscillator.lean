import Verif.Props.Spectra
import Verif.Lemmas.Oscillator

/-!
# C114: permittivities are the response of damped oscillators
-/

namespace Snompy.Props

open Snompy Filter Topology

theorem lorentz_val {ν ω γ A : ℝ} {εinf ε : ℂ} (hω : 0 < ω) (hγ : 0 < γ)
    (h : lorentz ν ω γ A (FP.num εinf) = .ok (FP.num ε)) :
    (ω : ℂ) ^ 2 - ν ^ 2 - Complex.I * γ * ν ≠ 0 ∧ ε - εinf = A / ((ω : ℂ) ^ 2 - ν ^ 2 - Complex.I * γ * ν) := by
  have hc : ω ^ 2 - ν ^ 2 ≠ 0 ∨ γ * ν ≠ 0 := by
    by_cases h0 : ν = 0
    · subst h0
      exact .inl (by simpa using hω.ne')
    · exact .inr (mul_ne_zero hγ.ne' h0)
  rw [lorentz_eq _ _ _ _ _ hc] at h
  constructor
  · intro h0
    rw [lorentz_den] at h0
    have h1 := congrArg Complex.re h0
    have h2 := congrArg Complex.im h0
    simp only [Complex.zero_re, Complex.zero_im, neg_eq_zero] at h1 h2
    exact hc.elim (fun h => h h1) fun h => h h2
  · rw [← FP.num.inj (Except.ok.inj h), add_sub_cancel_left]

/-- Every motion of the oscillator under the field `A cos (ν t)` ends up in the motion with the amplitude and the phase of
`lorentz_perm(ν, ...) - eps_inf`. -/
theorem C114_driven (ν ω γ A : ℝ) (εinf ε : ℂ) (hω : 0 < ω) (hγ : 0 < γ)
    (hε : lorentz ν ω γ A (FP.num εinf) = .ok (FP.num ε)) (x v : ℝ → ℝ)
    (h : Oscillates ω γ (fun t => A * Real.cos (ν * t)) x v) :
    Tendsto (fun t : ℝ => x t - ((ε - εinf) * Complex.exp (-Complex.I * ν * t)).re) atTop (𝓝 0) := by
  obtain ⟨h0, he⟩ := lorentz_val hω hγ hε
  rw [he]
  exact ((h.sub (oscillates_steady rfl h0)).rest hω hγ).1

theorem amplitude_zero {c : ℂ} {ν : ℝ} (hν : ν ≠ 0)
    (h : Tendsto (fun t : ℝ => (c * Complex.exp (-Complex.I * ν * t)).re) atTop (𝓝 0)) : c = 0 := by
  wlog hpos : 0 < ν generalizing c ν
  · have hneg : 0 < -ν := by
      rcases lt_or_gt_of_ne hν with h | h
      · linarith
      · exact absurd h hpos
    have := this (c := (starRingEnd ℂ) c) hneg.ne' (h.congr fun t => by
      rw [← Complex.conj_re, map_mul, ← Complex.exp_conj]
      congr 3
      simp) hneg
    simpa using this
  have key : ∀ a : ℝ, (c * Complex.exp (-Complex.I * ν * (a / ν : ℝ))).re = 0 := by
    intro a
    have h1 : Tendsto (fun n : ℕ => a / ν + n * (2 * Real.pi / ν)) atTop atTop :=
      tendsto_atTop_add_const_left _ _ (tendsto_natCast_atTop_atTop.atTop_mul_const (by positivity))
    have h2 := h.comp h1
    refine tendsto_nhds_unique (tendsto_const_nhds.congr fun n => ?_) h2
    simp only [Function.comp_apply]
    have hν' : (ν : ℂ) ≠ 0 := by exact_mod_cast hν
    have e : -Complex.I * (ν : ℂ) * ((a / ν + n * (2 * Real.pi / ν) : ℝ) : ℂ) =
        -Complex.I * ν * (a / ν : ℝ) - n * (2 * Real.pi * Complex.I) := by
      push_cast
      field_simp
      ring
    rw [e, Complex.exp_sub, Complex.exp_nat_mul_two_pi_mul_I, div_one]
  have hν' : (ν : ℂ) ≠ 0 := by exact_mod_cast hν
  have h1 := key 0
  have h2 := key (Real.pi / 2)
  rw [zero_div, Complex.ofReal_zero, mul_zero, Complex.exp_zero, mul_one] at h1
  have e : -Complex.I * (ν : ℂ) * ((Real.pi / 2 / ν : ℝ) : ℂ) = -(Real.pi / 2 * Complex.I) := by
    push_cast
    field_simp
  rw [e, Complex.exp_neg, Complex.exp_pi_div_two_mul_I, Complex.inv_I, mul_neg, Complex.neg_re, Complex.mul_I_re, neg_neg] at h2
  exact Complex.ext h1 h2

/-- `lorentz_perm(ν, ...) - eps_inf` is the only number that describes the motion in the end. -/
theorem C114_unique (ν ω γ A : ℝ) (εinf ε c : ℂ) (hν : ν ≠ 0) (hω : 0 < ω) (hγ : 0 < γ)
    (hε : lorentz ν ω γ A (FP.num εinf) = .ok (FP.num ε)) (x v : ℝ → ℝ)
    (h : Oscillates ω γ (fun t => A * Real.cos (ν * t)) x v)
    (hc : Tendsto (fun t : ℝ => x t - (c * Complex.exp (-Complex.I * ν * t)).re) atTop (𝓝 0)) : ε = εinf + c := by
  have h1 := (C114_driven ν ω γ A εinf ε hω hγ hε x v h).sub hc
  rw [sub_zero] at h1
  have h2 := amplitude_zero (c := c - (ε - εinf)) hν (h1.congr fun t => by
    rw [sub_mul c, Complex.sub_re]
    ring)
  linear_combination -h2

/-- Causality: the permittivity is the response to the field of all earlier times, with the motion after a kick as its
weight. -/
theorem C114_kick (ν ω γ A : ℝ) (εinf ε : ℂ) (hω : 0 < ω) (hγ : 0 < γ)
    (hε : lorentz ν ω γ A (FP.num εinf) = .ok (FP.num ε)) (x v : ℝ → ℝ)
    (h : Oscillates ω γ (fun _ => 0) x v) (hx : x 0 = 0) (hv : v 0 = 1) :
    Tendsto (fun T : ℝ => A * ∫ t in (0 : ℝ)..T, (x t : ℂ) * Complex.exp (Complex.I * ν * t)) atTop (𝓝 (ε - εinf)) := by
  obtain ⟨h0, he⟩ := lorentz_val hω hγ hε
  obtain ⟨r1, r2⟩ := h.rest hω hγ
  have hT : Tendsto (fun T : ℝ => ((v T : ℂ) + (γ - Complex.I * ν) * x T) * Complex.exp (Complex.I * ν * T)) atTop (𝓝 0) := by
    have c1 : Tendsto (fun T : ℝ => (v T : ℂ) + (γ - Complex.I * ν) * x T) atTop (𝓝 0) := by
      have a1 := (Complex.continuous_ofReal.tendsto 0).comp r1
      have a2 := (Complex.continuous_ofReal.tendsto 0).comp r2
      have := a2.add (a1.const_mul ((γ : ℂ) - Complex.I * ν))
      rwa [Complex.ofReal_zero, mul_zero, add_zero] at this
    refine squeeze_zero_norm (fun T => ?_) (tendsto_zero_iff_norm_tendsto_zero.1 c1)
    rw [norm_mul, show Complex.I * (ν : ℂ) * T = ((ν * T : ℝ) : ℂ) * Complex.I by push_cast; ring,
      Complex.norm_exp_ofReal_mul_I, mul_one]
  have h1 := (tendsto_const_nhds (x := (1 : ℂ))).sub hT
  have h2 := h1.const_mul ((A : ℂ) / ((ω : ℂ) ^ 2 - ν ^ 2 - Complex.I * γ * ν))
  rw [sub_zero, mul_one, ← he] at h2
  refine h2.congr fun T => ?_
  have h3 := h.integral (ν := ν) rfl T
  rw [hx, hv, Complex.ofReal_one, Complex.ofReal_zero, mul_zero, add_zero] at h3
  rw [← h3, he, ← mul_assoc, div_mul_cancel₀ _ h0]

theorem lorentz_im {ν ω γ A εinf : ℝ} {ε : ℂ} (hω : 0 < ω) (hγ : 0 < γ)
    (h : lorentz ν ω γ A (FP.num εinf) = .ok (FP.num ε)) :
    ε.im = A * (γ * ν / ((ω ^ 2 - ν ^ 2) ^ 2 + (γ * ν) ^ 2)) := by
  obtain ⟨-, he⟩ := lorentz_val hω hγ h
  have h1 := (lorentz_parts ν ω γ A εinf).2
  rw [← he, add_sub_cancel] at h1
  rw [h1]
  ring

/-- The absorption determines the amplitude of the oscillator: `∫ ν Im ε dν = π A / 2`, whatever its frequency and damping. -/
theorem C114_weight (ω γ A εinf : ℝ) (hω : 0 < ω) (hγ : 0 < γ) (ε : ℝ → ℂ)
    (hε : ∀ ν, lorentz ν ω γ A (FP.num εinf) = .ok (FP.num (ε ν))) :
    Tendsto (fun T => ∫ ν in (0 : ℝ)..T, ν * (ε ν).im) atTop (𝓝 (Real.pi / 2 * A)) := by
  have h := (absorption_weight hω hγ).const_mul A
  rw [mul_comm A] at h
  refine h.congr fun T => ?_
  rw [← intervalIntegral.integral_const_mul]
  refine intervalIntegral.integral_congr fun ν _ => ?_
  simp only [lorentz_im hω hγ (hε ν)]
  ring

/-- The absorption determines the static permittivity: `∫ Im ε / ν dν = π/2 (ε(0) - ε_∞)` (Kramers and Kronig). -/
theorem C114_kramers (ω γ A εinf : ℝ) (hω : 0 < ω) (hγ : 0 < γ) (ε : ℝ → ℂ)
    (hε : ∀ ν, lorentz ν ω γ A (FP.num εinf) = .ok (FP.num (ε ν))) :
    Tendsto (fun T => ∫ ν in (0 : ℝ)..T, (ε ν).im / ν) atTop (𝓝 (Real.pi / 2 * ((ε 0).re - εinf))) := by
  have h0 : (ε 0).re - εinf = A / ω ^ 2 := by
    have := C87_static ω γ A εinf hω.ne'
    rw [hε 0] at this
    rw [FP.num.inj (Except.ok.inj this), ← Complex.ofReal_add, Complex.ofReal_re, add_sub_cancel_left]
  have h := (absorption_static hω hγ).const_mul (A / ω ^ 2)
  rw [h0, mul_comm]
  refine h.congr' ?_
  filter_upwards [eventually_ge_atTop 0] with T hT
  rw [← intervalIntegral.integral_const_mul, intervalIntegral.integral_of_le hT, intervalIntegral.integral_of_le hT]
  refine MeasureTheory.setIntegral_congr_fun measurableSet_Ioc fun ν hν => ?_
  have hν0 : ν ≠ 0 := (show (0 : ℝ) < ν from hν.1).ne'
  have hp := absorption_pos hω hγ ν
  simp only [lorentz_im hω hγ (hε ν)]
  field_simp

/-- The imaginary part is the absorbed energy: in the end, the field does the work `π A Im (ε - ε_∞)` in each period. -/
theorem C114_work (ν ω γ A : ℝ) (εinf ε : ℂ) (hν : 0 < ν) (hω : 0 < ω) (hγ : 0 < γ)
    (hε : lorentz ν ω γ A (FP.num εinf) = .ok (FP.num ε)) (x v : ℝ → ℝ)
    (h : Oscillates ω γ (fun t => A * Real.cos (ν * t)) x v) :
    Tendsto (fun T => ∫ t in T..(T + 2 * Real.pi / ν), Real.cos (ν * t) * v t) atTop (𝓝 (Real.pi * (ε - εinf).im)) := by
  obtain ⟨h0, he⟩ := lorentz_val hω hγ hε
  rw [he]
  have hs := oscillates_steady (A := A) (ω := ω) (γ := γ) (ν := ν) rfl h0
  refine work_lim (continuous_iff_continuousAt.2 fun t => (h.vel t).continuousAt)
    (continuous_iff_continuousAt.2 fun t => (hs.vel t).continuousAt) (by positivity) ((h.sub hs).rest hω hγ).2
    fun T => work_period _ hν T

/-! ## Free carriers -/

theorem drude_val {ν νp γ : ℝ} {εinf ε : ℂ} (hν : ν ≠ 0) (hγ : 0 < γ)
    (h : (drudePerm (FP.num ν) (FP.num νp) (FP.num γ) (FP.num εinf) : PyM (FP ℂ)) = .ok (FP.num ε)) :
    (γ : ℂ) - Complex.I * ν ≠ 0 ∧ (ε - εinf) * (-Complex.I * ν) = ((νp ^ 2 : ℝ) : ℂ) / (γ - Complex.I * ν) := by
  have hg : (γ : ℂ) - Complex.I * ν ≠ 0 := by
    intro h0
    have := congrArg Complex.re h0
    simp at this
    exact hγ.ne' this
  have hν' : (ν : ℂ) ≠ 0 := by exact_mod_cast hν
  have e : (ν : ℂ) ^ 2 + Complex.I * γ * ν = Complex.I * ν * (γ - Complex.I * ν) := by
    linear_combination (ν : ℂ) ^ 2 * Complex.I_sq
  have hd : (ν : ℂ) ^ 2 + Complex.I * γ * ν ≠ 0 := by
    rw [e]
    exact mul_ne_zero (mul_ne_zero Complex.I_ne_zero hν') hg
  rw [C55_drude ν νp γ εinf hd] at h
  refine ⟨hg, ?_⟩
  rw [← FP.num.inj (Except.ok.inj h), e]
  have hI := Complex.I_ne_zero
  push_cast
  field_simp
  ring

/-- The current of free carriers under the field `ν_p² cos (ν t)` ends up as the displacement current of the Drude
permittivity. -/
theorem C114_drude (ν νp γ : ℝ) (εinf ε : ℂ) (hν : ν ≠ 0) (hγ : 0 < γ)
    (hε : (drudePerm (FP.num ν) (FP.num νp) (FP.num γ) (FP.num εinf) : PyM (FP ℂ)) = .ok (FP.num ε)) (v : ℝ → ℝ)
    (h : Drifts γ (fun t => νp ^ 2 * Real.cos (ν * t)) v) :
    Tendsto (fun t : ℝ => v t - ((ε - εinf) * (-Complex.I * ν) * Complex.exp (-Complex.I * ν * t)).re) atTop (𝓝 0) := by
  obtain ⟨h0, he⟩ := drude_val hν hγ hε
  rw [he]
  exact h.rest hγ (drifts_steady h0)

/-- The absorption of free carriers. -/
theorem C114_drude_work (ν νp γ : ℝ) (εinf ε : ℂ) (hν : 0 < ν) (hγ : 0 < γ)
    (hε : (drudePerm (FP.num ν) (FP.num νp) (FP.num γ) (FP.num εinf) : PyM (FP ℂ)) = .ok (FP.num ε)) (v : ℝ → ℝ)
    (h : Drifts γ (fun t => νp ^ 2 * Real.cos (ν * t)) v) :
    Tendsto (fun T => ∫ t in T..(T + 2 * Real.pi / ν), Real.cos (ν * t) * v t) atTop (𝓝 (Real.pi * (ε - εinf).im)) := by
  obtain ⟨h0, he⟩ := drude_val hν.ne' hγ hε
  have hs := drifts_steady (A := νp ^ 2) h0
  have hw := h.rest hγ hs
  rw [← he] at hs hw
  exact work_lim (continuous_iff_continuousAt.2 fun t => (h t).continuousAt)
    (continuous_iff_continuousAt.2 fun t => (hs t).continuousAt) (by positivity) hw fun T => work_period _ hν T

/-! ## Examples -/

/-- The hypotheses can be met: a resonance at 1 with damping 1, and its steady motion. -/
theorem oscillator_den : ((1 : ℝ) : ℂ) ^ 2 - ((1 : ℝ) : ℂ) ^ 2 - Complex.I * (1 : ℝ) * (1 : ℝ) ≠ 0 := by
  intro h
  have := congrArg Complex.im h
  simp at this

example := C114_driven 1 1 1 1 1 _ one_pos one_pos (lorentz_eq 1 1 1 1 1 (.inr (by norm_num))) _ _
  (oscillates_steady rfl oscillator_den)

example := C114_unique 1 1 1 1 1 _ _ one_ne_zero one_pos one_pos (lorentz_eq 1 1 1 1 1 (.inr (by norm_num))) _ _
  (oscillates_steady rfl oscillator_den) (tendsto_const_nhds.congr fun _ => (sub_self _).symm)

example := C114_work 1 1 1 1 1 _ one_pos one_pos one_pos (lorentz_eq 1 1 1 1 1 (.inr (by norm_num))) _ _
  (oscillates_steady rfl oscillator_den)

example := C114_kick 1 (Real.sqrt 2) 2 1 1 _ (by positivity) two_pos
  (lorentz_eq 1 (Real.sqrt 2) 2 1 1 (.inr (by norm_num))) _ _
  (oscillates_kick (Ω := 1) (γ := 2) one_ne_zero (Real.sqrt 2) (by norm_num)) (by simp) (by simp)

theorem oscillator_damped (ν : ℝ) : (1 : ℝ) ^ 2 - ν ^ 2 ≠ 0 ∨ 1 * ν ≠ 0 := by
  by_cases h : ν = 0
  · subst h
    exact .inl (by norm_num)
  · exact .inr (by simpa using h)

example := C114_weight 1 1 1 1 one_pos one_pos _ fun ν => lorentz_eq ν 1 1 1 1 (oscillator_damped ν)

example := C114_kramers 1 1 1 1 one_pos one_pos _ fun ν => lorentz_eq ν 1 1 1 1 (oscillator_damped ν)

theorem drude_den : ((1 : ℝ) : ℂ) ^ 2 + Complex.I * (1 : ℝ) * (1 : ℝ) ≠ 0 := by
  intro h
  have := congrArg Complex.im h
  simp at this

theorem drift_den : ((1 : ℝ) : ℂ) - Complex.I * (1 : ℝ) ≠ 0 := by
  intro h
  have := congrArg Complex.re h
  simp at this

example := C114_drude 1 1 1 1 _ one_ne_zero one_pos (C55_drude 1 1 1 1 drude_den) _ (drifts_steady drift_den)

example := C114_drude_work 1 1 1 1 _ one_pos one_pos (C55_drude 1 1 1 1 drude_den) _ (drifts_steady drift_den)

end Snompy.Props
