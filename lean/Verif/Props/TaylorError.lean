import Verif.Props.InversionLimit
import Verif.Props.Pdm
import Mathlib.Analysis.SpecialFunctions.Trigonometric.Bounds
import Mathlib.Analysis.Complex.ExponentialBounds

/-!
# C90: the error of a finite Taylor series
-/

namespace Snompy.Props

open Snompy Finset

theorem example_geom_le (x : ℝ) (hx : 0 ≤ x) (hx' : x ≤ 0 + 2 * 2) : ‖Fdm.geom x (1 / 2) 1 300 Complex.I‖ ≤ 2.99 := by
  unfold Fdm.geom
  have hu : 1 ≤ 1 + 4 * x + 2 * (1 / 2) * 1 := by linarith
  have h1 : 0 ≤ Real.log (4 * 300 / (1 + 4 * x + 2 * (1 / 2) * 1)) := by
    apply Real.log_nonneg
    rw [le_div_iff₀ (by positivity)]
    linarith
  have h2 : Real.log (4 * 300 / (1 + 4 * x + 2 * (1 / 2) * 1)) ≤ Real.log (4 * 300 / 1) := by
    apply Real.log_le_log (by positivity)
    exact div_le_div_of_nonneg_left (by norm_num) one_pos hu
  have h3 : 0 < Real.log (4 * 300 / 1) := Real.log_pos (by norm_num)
  have ha : ‖Complex.I - (((1 + 2 * x + 1 / 2 * 1) / (2 * 300) : ℝ) : ℂ)‖ ≤ 2 := by
    refine (norm_sub_le _ _).trans ?_
    rw [Complex.norm_I, Complex.norm_real, Real.norm_eq_abs, abs_of_nonneg (by positivity)]
    have : (1 + 2 * x + 1 / 2 * 1) / (2 * 300) ≤ 1 := by
      rw [div_le_one (by norm_num)]
      linarith
    linarith
  rw [norm_div, norm_mul, Complex.norm_real, Complex.norm_real, Real.norm_of_nonneg h1, Real.norm_of_nonneg h3.le,
    div_le_iff₀ h3]
  have := mul_le_mul ha h2 h1 (by norm_num)
  linarith

/-! ## C90 The default Taylor series is accurate to 6·10⁻⁵ -/

/-- The error of the series with `J` terms, for geometry functions bounded by `K0` and `K1` along the oscillation. -/
theorem C90_fdm (env : Env) (s : Stack (FP ℝ) (FP ℂ)) (hs : s.eps.length ≤ 2) (β : ℂ)
    (hβ : s.reflCoefQs = .ok (FP.num β)) (z r l : ℝ) (g : ℂ) (d0 d1 dA : ℝ)
    (h0 : Fdm.GeomOk z d0 r l) (h1 : Fdm.GeomOk z d1 r l) (A : ℝ) (hA : 0 ≤ A) (K0 K1 : ℝ)
    (hK0 : ∀ x, z ≤ x → x ≤ z + 2 * A → ‖Fdm.geom x d0 r l g‖ ≤ K0)
    (hK1 : ∀ x, z ≤ x → x ≤ z + 2 * A → ‖Fdm.geom x d1 r l g‖ ≤ K1) (hlt : ‖β‖ * K1 < 1) (nLag : Option ℕ) (n : ℤ)
    (N : ℕ) (hN : N ≠ 0) (hn : n = 0 ∨ ¬ (N : ℤ) ∣ n) (J : ℕ) (hJ : J ≠ 0) :
    ∃ v T, Fdm.effPolN env s (FP.num A) (FP.num n) (some (FP.num z)) (some N) (fdmTip r l g d0 d1 dA) nLag
        (some "bulk") = .ok (FP.num v) ∧
      Fdm.effPolNTaylor env s (FP.num A) (FP.num n) (some (FP.num z)) (fdmTip r l g d0 d1 dA) nLag
        (some "bulk") (some N) (some J) = .ok (FP.num T) ∧
      ‖v - T‖ ≤ ‖β‖ ^ J * K0 * K1 ^ (J - 1) / (2 * (1 - ‖β‖ * K1)) := by
  have hden : ∀ x, z ≤ x → x ≤ z + 2 * A → 1 - ‖β‖ * K1 ≤ ‖1 - β * Fdm.geom x d1 r l g‖ := fun x hx hx' => by
    have h2 := norm_sub_norm_le (1 : ℂ) (β * Fdm.geom x d1 r l g)
    rw [norm_one, norm_mul] at h2
    have := mul_le_mul_of_nonneg_left (hK1 x hx hx') (norm_nonneg β)
    linarith
  obtain ⟨T, R, hT, hR, hv⟩ := C47_remainder env s hs β hβ z r l g d0 d1 dA h0 h1 A hA
    (fun x hx hx' h => by
      have := hden x hx hx'
      rw [h, sub_self, norm_zero] at this
      linarith) nLag n N hN hn J hJ
  refine ⟨_, T, hv, hT, ?_⟩
  rw [add_sub_cancel_left]
  rw [demod_onFinite env _ _ _ _ (some N) hN, Except.ok.injEq, FP.num_inj] at hR
  have k0 : 0 ≤ K0 := (norm_nonneg _).trans (hK0 z le_rfl (by linarith))
  have k1 : 0 ≤ K1 := (norm_nonneg _).trans (hK1 z le_rfl (by linarith))
  rw [← hR]
  refine norm_demodSum_le hA n _ (div_nonneg (by positivity) (by linarith)) fun x hx hx' => ?_
  have hx : z ≤ x := by linarith
  have hx' : x ≤ z + 2 * A := by linarith
  rw [norm_div, norm_mul, norm_mul, norm_mul, norm_pow, norm_pow, Complex.norm_ofNat]
  have e1 := hden x hx hx'
  have p : 0 < 1 - ‖β‖ * K1 := by linarith
  gcongr
  · exact hK0 x hx hx'
  · exact hK1 x hx hx'

example (env : Env) := C90_fdm env (bulk 1 2) le_rfl ((1 / 3 : ℝ) : ℂ)
  (by rw [C09_refl 1 2 none _ two_ne_zero (by norm_num)]; norm_num) 0 1 300 Complex.I (1 / 2) (1 / 2) 1.4
  example_geomOk.2 example_geomOk.2 2 (by norm_num) 2.99 2.99 example_geom_le example_geom_le
  (by rw [Complex.norm_real, Real.norm_of_nonneg (by norm_num)]; norm_num) none 3 8 (by norm_num) (.inr (by norm_num)) 5
  (by norm_num)

/-- The `g_factor` of the default tip. -/
noncomputable abbrev gDefault : ℂ := 0.7 * Complex.exp (0.06 * Complex.I)

theorem gDefault_im (t : ℝ) : (gDefault - (t : ℂ)).im = 0.7 * Real.sin 0.06 := by
  have : gDefault = ((0.7 : ℝ) : ℂ) * Complex.exp (((0.06 : ℝ) : ℂ) * Complex.I) := by
    unfold gDefault
    push_cast
    rfl
  rw [Complex.sub_im, this, Complex.im_ofReal_mul, Complex.exp_ofReal_mul_I_im, Complex.ofReal_im, sub_zero]

theorem gDefault_sub {t : ℝ} (h : 0.05 ≤ t) (h' : t ≤ 0.5) : ‖gDefault - (t : ℂ)‖ ≤ 0.651 := by
  have hre : (gDefault - (t : ℂ)).re = 0.7 * Real.cos 0.06 - t := by
    have : gDefault = ((0.7 : ℝ) : ℂ) * Complex.exp (((0.06 : ℝ) : ℂ) * Complex.I) := by
      unfold gDefault
      push_cast
      rfl
    rw [Complex.sub_re, this, Complex.re_ofReal_mul, Complex.exp_ofReal_mul_I_re, Complex.ofReal_re]
  have him := gDefault_im t
  refine le_of_sq_le_sq ?_ (by norm_num)
  rw [Complex.sq_norm, Complex.normSq_apply, hre, him]
  have hsq := Real.sin_sq_add_cos_sq 0.06
  have hc := Real.one_sub_sq_div_two_le_cos (x := 0.06)
  have hc1 := Real.cos_le_one 0.06
  generalize Real.cos 0.06 = c at *
  generalize Real.sin 0.06 = σ at *
  have e : (0.7 * c - t) * (0.7 * c - t) + 0.7 * σ * (0.7 * σ) = 0.49 - 1.4 * t * c + t ^ 2 := by
    linear_combination 0.49 * hsq
  rw [e]
  nlinarith

theorem log_ratio : Real.log 30 ≤ 0.831 * Real.log 60 := by
  have h2 := Real.log_two_gt_d9
  have h2' := Real.log_two_lt_d9
  have e : Real.log 60 = Real.log 2 + Real.log 30 := by
    rw [← Real.log_mul (by norm_num) (by norm_num)]
    norm_num
  have e' : Real.log 30 = 5 * Real.log 2 - Real.log (16 / 15) := by
    rw [show (30 : ℝ) = 2 ^ 5 / (16 / 15) by norm_num, Real.log_div (by norm_num) (by norm_num), Real.log_pow]
    push_cast
    ring
  have h3 := Real.one_sub_inv_le_log_of_pos (x := 16 / 15) (by norm_num)
  rw [e]
  norm_num at h3 ⊢
  linarith

/-- Both geometry functions of the default tip are at most 0.541, up to heights of 120 nm. -/
theorem geom_default {x d : ℝ} (hd : 1 / 2 ≤ d) (hd' : d ≤ 2) (hx : 0 ≤ x) (hx' : x ≤ 120e-9) :
    ‖Fdm.geom x d 20e-9 300e-9 gDefault‖ ≤ 0.541 := by
  unfold Fdm.geom
  have hl : (4 * 300e-9 / 20e-9 : ℝ) = 60 := by norm_num
  have hpos : (0 : ℝ) < 20e-9 + 4 * x + 2 * d * 20e-9 := by linarith
  have hu : (4 * 300e-9 : ℝ) / (20e-9 + 4 * x + 2 * d * 20e-9) ≤ 30 := by
    rw [div_le_iff₀ hpos]
    linarith
  have hu' : (1 : ℝ) ≤ 4 * 300e-9 / (20e-9 + 4 * x + 2 * d * 20e-9) := by
    rw [le_div_iff₀ hpos]
    linarith
  have h1 : 0 ≤ Real.log (4 * 300e-9 / (20e-9 + 4 * x + 2 * d * 20e-9)) := Real.log_nonneg hu'
  have h2 : Real.log (4 * 300e-9 / (20e-9 + 4 * x + 2 * d * 20e-9)) ≤ Real.log 30 :=
    Real.log_le_log (by linarith) hu
  have h3 : 0 < Real.log 60 := Real.log_pos (by norm_num)
  have hg := gDefault_sub (t := (20e-9 + 2 * x + d * 20e-9) / (2 * 300e-9))
    (by rw [le_div_iff₀ (by norm_num)]; linarith) (by rw [div_le_iff₀ (by norm_num)]; linarith)
  rw [hl, norm_div, norm_mul, Complex.norm_real, Complex.norm_real, Real.norm_of_nonneg h1, Real.norm_of_nonneg h3.le,
    div_le_iff₀ h3]
  have h4 := mul_le_mul hg (h2.trans log_ratio) h1 (by norm_num)
  refine h4.trans ?_
  have : (0.651 : ℝ) * (0.831 * Real.log 60) = 0.540981 * Real.log 60 := by ring
  rw [this]
  gcongr
  norm_num

/-- What the default arguments mean. -/
theorem fdm_default (lag : ℕ → List (ℝ × ℝ)) :
    (Env.mk Defaults.initial lag).defaults.fdm ({} : FdmArgs (FP ℝ) (FP ℂ)) =
      (Env.mk Defaults.initial lag).defaults.fdm (fdmTip 20e-9 300e-9 gDefault (1.31 * 300e-9 / (300e-9 + 2 * 20e-9))
        0.5 1.4) := by
  rw [fdm_fdmTip]
  unfold Defaults.fdm
  have h : (300e-9 + 2 * 20e-9 : ℝ) ≠ 0 := by norm_num
  simp only [Option.getD_none, Defaults.initial, slit, FP.num_add, FP.num_mul, FP.num_div _ h]
  rfl

theorem geomOk_default {x d : ℝ} (hd : 1 / 2 ≤ d) (hx : 0 ≤ x) : Fdm.GeomOk x d 20e-9 300e-9 :=
  ⟨by norm_num, by norm_num, by norm_num, by linarith⟩

theorem d0_default : (1 / 2 : ℝ) ≤ 1.31 * 300e-9 / (300e-9 + 2 * 20e-9) ∧
    (1.31 * 300e-9 / (300e-9 + 2 * 20e-9) : ℝ) ≤ 2 := by norm_num

/-- The remainder of 16 terms for the default tip and reflection coefficients of modulus at most `B`. -/
theorem default_error (lag : ℕ → List (ℝ × ℝ)) (s : Stack (FP ℝ) (FP ℂ)) (hs : s.eps.length ≤ 2) (β : ℂ)
    (hβ : s.reflCoefQs = .ok (FP.num β)) (A : ℝ) (hA : 0 ≤ A) (hA' : A ≤ 60e-9) (n : ℤ)
    (hn : n = 0 ∨ ¬ (32 : ℤ) ∣ n) (B : ℝ) (hb : ‖β‖ ≤ B) (hB : B * 0.541 < 1) :
    ∃ v, Fdm.effPolN ⟨Defaults.initial, lag⟩ s (FP.num A) (FP.num n) none none {} none none = .ok (FP.num v) ∧
      Fdm.effPolNTaylor ⟨Defaults.initial, lag⟩ s (FP.num A) (FP.num n) none {} none none none none =
        .ok (FP.num (∑ j ∈ range 16, Fdm.coef 0 j A n 20e-9 300e-9 gDefault (1.31 * 300e-9 / (300e-9 + 2 * 20e-9))
          0.5 32 * β ^ j)) ∧
      ‖v - ∑ j ∈ range 16, Fdm.coef 0 j A n 20e-9 300e-9 gDefault (1.31 * 300e-9 / (300e-9 + 2 * 20e-9))
          0.5 32 * β ^ j‖ ≤ B ^ 16 * 0.541 ^ 16 / (2 * (1 - B * 0.541)) := by
  have hm : s.multilayer = false := by
    unfold Stack.multilayer Stack.nLayers
    simpa using hs
  obtain ⟨g0, g1⟩ := d0_default
  have o0 := geomOk_default (x := 0) g0 le_rfl
  have o1 := geomOk_default (x := 0) (d := 0.5) (by norm_num) le_rfl
  have hlt : ‖β‖ * 0.541 < 1 := by nlinarith
  obtain ⟨v, T, hv, hT, hle⟩ := C90_fdm ⟨Defaults.initial, lag⟩ s hs β hβ 0 20e-9 300e-9 gDefault _ 0.5 1.4 o0 o1 A
    hA 0.541 0.541 (fun x h h' => geom_default g0 g1 h (by linarith))
    (fun x h h' => geom_default (by norm_num) (by norm_num) h (by linarith)) hlt none n 32 (by norm_num)
    (by exact_mod_cast hn) 16 (by norm_num)
  have hT' := taylor_fdm_num ⟨Defaults.initial, lag⟩ s (some "bulk") gDefault 1.4 none β (.inl ⟨hs, .inr rfl, hβ⟩) o0 o1
    hA n (N := 32) (by norm_num) 16
  rw [hT'] at hT
  obtain rfl := FP.num.inj (Except.ok.inj hT)
  refine ⟨v, ?_, ?_, ?_⟩
  · rw [← hv]
    unfold Fdm.effPolN Fdm.effPol
    rw [fdm_default]
    simp only [Option.getD_none, hm, Option.getD_some]
    rfl
  · rw [← hT']
    unfold Fdm.effPolNTaylor Fdm.taylorBeta
    rw [fdm_default]
    simp only [Option.getD_none, hm, Option.getD_some]
    rfl
  · refine hle.trans ?_
    have p : 0 < 1 - B * 0.541 := by linarith
    have hb0 := norm_nonneg β
    rw [show ‖β‖ ^ 16 * 0.541 * 0.541 ^ (16 - 1) = ‖β‖ ^ 16 * 0.541 ^ 16 by norm_num; ring]
    gcongr

/-- The default tip, height, harmonics, trapezia and 16 terms: for amplitudes up to 60 nm and bulk samples with
reflection coefficients of modulus at most 1 the series is within `6·10⁻⁵` of the full model. -/
theorem C90_fdm_default (lag : ℕ → List (ℝ × ℝ)) (s : Stack (FP ℝ) (FP ℂ)) (hs : s.eps.length ≤ 2) (β : ℂ)
    (hβ : s.reflCoefQs = .ok (FP.num β)) (hb : ‖β‖ ≤ 1) (A : ℝ) (hA : 0 ≤ A) (hA' : A ≤ 60e-9) (n : ℤ)
    (hn : n = 0 ∨ ¬ (32 : ℤ) ∣ n) :
    ∃ v T, Fdm.effPolN ⟨Defaults.initial, lag⟩ s (FP.num A) (FP.num n) none none {} none none = .ok (FP.num v) ∧
      Fdm.effPolNTaylor ⟨Defaults.initial, lag⟩ s (FP.num A) (FP.num n) none {} none none none none =
        .ok (FP.num T) ∧ ‖v - T‖ ≤ 6e-5 := by
  obtain ⟨v, hv, hT, hle⟩ := default_error lag s hs β hβ A hA hA' n hn 1 hb (by norm_num)
  exact ⟨v, _, hv, hT, hle.trans (by norm_num)⟩

example (lag : ℕ → List (ℝ × ℝ)) := C90_fdm_default lag (bulk 1 2) le_rfl ((1 / 3 : ℝ) : ℂ)
  (by rw [C09_refl 1 2 none _ two_ne_zero (by norm_num)]; norm_num)
  (by rw [Complex.norm_real, Real.norm_of_nonneg (by norm_num)]; norm_num) 50e-9 (by norm_num) (by norm_num) 3
  (.inr (by norm_num))

/-- Every value that the inversion with the default tip, threshold and series length returns reproduces the signal in the
full model, up to `7·10⁻⁵`. -/
theorem C90_fdm_inverse (lag : ℕ → List (ℝ × ℝ)) {sv : Solver} (hs : sv.Correct) {α : NDArray (FP ℂ)}
    {aTip n : NDArray (FP ℝ)} {v : InvArgs} (hv : v.betaThreshold = none) {M : Masked}
    (hM : Fdm.invert ⟨Defaults.initial, lag⟩ sv α aTip n none {} none none v = .ok M) :
    ∃ sh, Fdm.invShape α aTip n none {} = some sh ∧ ∀ i, InBounds sh i → ∀ x ∈ M.unmasked i,
      ∃ b c : ℂ, x = FP.num b ∧ α.get i = FP.num c ∧
        ∀ (A : ℝ) (m : ℤ), aTip.get i = FP.num A → 0 ≤ A → A ≤ 60e-9 → n.get i = FP.num (m : ℝ) →
          (m = 0 ∨ ¬ (32 : ℤ) ∣ m) → ∀ s : Stack (FP ℝ) (FP ℂ), s.eps.length ≤ 2 → s.reflCoefQs = .ok (FP.num b) →
            ∃ w, Fdm.effPolN ⟨Defaults.initial, lag⟩ s (FP.num A) (FP.num m) none none {} none none = .ok (FP.num w) ∧
              ‖w - c‖ ≤ 7e-5 := by
  obtain ⟨sh, K, h1, _, h2⟩ := C50_fdm hs hM
  refine ⟨sh, h1, fun i hi x hx => ?_⟩
  obtain ⟨b, c, p, e1, e2, e3, e4, e5, _⟩ := h2 i hi x hx
  refine ⟨b, c, e1, e2, fun A m hA hA0 hA1 hm hm32 s hsl hsb => ?_⟩
  have hb : ‖b‖ ≤ 1.01 := by
    unfold InvArgs.thr at e5
    rw [hv] at e5
    exact e5
  obtain ⟨w, hw, -, hle⟩ := default_error lag s hsl b hsb A hA0 hA1 m hm32 1.01 hb (by norm_num)
  refine ⟨w, hw, ?_⟩
  have hsum : ∑ j ∈ range 16, Fdm.coef 0 j A m 20e-9 300e-9 gDefault (1.31 * 300e-9 / (300e-9 + 2 * 20e-9)) 0.5 32 *
      b ^ j = c := by
    rw [← e4, eval_series e3.1]
    refine Finset.sum_congr rfl fun j hj => ?_
    have e6 := e3.2 j (Finset.mem_range.1 hj)
    have e7 := Fdm.taylorCoef_num ⟨Defaults.initial, lag⟩ (geomOk_default (x := 0) d0_default.1 le_rfl)
      (geomOk_default (x := 0) (d := 0.5) (by norm_num) le_rfl) gDefault j hA0 m (N := 32) (by norm_num)
    unfold Fdm.coefAt at e6
    rw [show Fdm.argsAt {} i = {} from rfl, fdm_default, fdm_fdmTip, hA, hm] at e6
    simp only [Option.map_none, Option.getD_none, slit] at e6
    have e8 : FP.num (p.coeff j) = FP.num (Fdm.coef 0 j A m 20e-9 300e-9 gDefault
        (1.31 * 300e-9 / (300e-9 + 2 * 20e-9)) 0.5 32) := Except.ok.inj (e6.symm.trans e7)
    rw [FP.num.inj e8]
  rw [hsum] at hle
  refine hle.trans ?_
  norm_num

/-- The inversion with the default tip does return values: a signal at rest. -/
theorem example_inverse (lag : ℕ → List (ℝ × ℝ)) : ∃ (c : ℂ) (M : Masked),
    Fdm.invert ⟨Defaults.initial, lag⟩ exactSolver (scal c) (scal 0) (scal ((0 : ℤ) : ℝ)) none {} none none {} = .ok M ∧
      FP.num (1 / 3) ∈ M.unmasked fun _ => 0 := by
  have o0 := geomOk_default (x := 0) d0_default.1 le_rfl
  have o1 := geomOk_default (x := 0) (d := 0.5) (by norm_num) le_rfl
  set q : ℕ → ℂ := fun j => Fdm.coef 0 j 0 ((0 : ℤ) : ℝ) 20e-9 300e-9 gDefault (1.31 * 300e-9 / (300e-9 + 2 * 20e-9)) 0.5 32
    with hq
  set p : Polynomial ℂ := ∑ j ∈ range 16, Polynomial.monomial j (q j) with hp
  set c : ℂ := p.eval (1 / 3)
  have hser : IsSeries (Fdm.coefAt ⟨Defaults.initial, lag⟩ (scal 0) (scal ((0 : ℤ) : ℝ)) none {} none fun _ => 0) 16 p := by
    refine ⟨polynomial_degree_lt 16 _, fun j hj => ?_⟩
    rw [hp, polynomial_coeff _ hj]
    have e7 := Fdm.taylorCoef_num ⟨Defaults.initial, lag⟩ o0 o1 gDefault j le_rfl ((0 : ℤ) : ℝ) (N := 32) (by norm_num)
    unfold Fdm.coefAt
    rw [show Fdm.argsAt {} (fun _ => 0) = {} from rfl, fdm_default, fdm_fdmTip]
    simp only [Option.map_none, Option.getD_none, slit]
    exact e7
  have hone : q 1 ≠ 0 := by
    simp only [hq, Fdm.coef, if_neg one_ne_zero, Nat.sub_self, pow_zero, mul_one]
    rw [demodSum_congr (g' := fun _ => Fdm.geom 0 (1.31 * 300e-9 / (300e-9 + 2 * 20e-9)) 20e-9 300e-9 gDefault) le_rfl
      _ _ (fun x h1 h2 => by rw [show x = 0 by linarith]), demodSum_const _ _ _ 0 (by norm_num) (.inl rfl)]
    refine div_ne_zero ?_ two_ne_zero
    unfold Fdm.geom
    refine div_ne_zero (mul_ne_zero (fun h => ?_) ?_) ?_
    · have h1 := congrArg Complex.im h
      rw [gDefault_im, Complex.zero_im] at h1
      have := Real.sin_pos_of_pos_of_lt_pi (x := 0.06) (by norm_num) (by linarith [Real.two_le_pi])
      linarith
    · exact_mod_cast (Real.log_pos (by norm_num)).ne'
    · exact_mod_cast (Real.log_pos (by norm_num)).ne'
  have hne : p ≠ Polynomial.C c := by
    intro h
    have := congrArg (fun p => Polynomial.coeff p 1) h
    simp only [hp] at this
    rw [polynomial_coeff _ (by norm_num), Polynomial.coeff_C, if_neg one_ne_zero] at this
    exact hone this
  have hsh : Fdm.invShape (scal c) (scal 0) (scal ((0 : ℤ) : ℝ)) none {} = some [] := rfl
  obtain ⟨M, hM⟩ := C51_fdm_ok (env := ⟨Defaults.initial, lag⟩) exactSolver_correct (α := scal c) (aTip := scal 0)
    (n := scal ((0 : ℤ) : ℝ)) (z := none) (a := {}) (nTrapz := none) (nTayl := none) (v := {}) hsh
    (inBounds_nil _) rfl p.natDegree (by show 0 < 16; norm_num) fun i _ => ⟨c, p, rfl, hser, rfl⟩
  refine ⟨c, M, hM, (C51_fdm_partial exactSolver_correct hM hsh (inBounds_nil _) rfl (c := c) rfl hser hne
    (fun hd => ⟨c, p, rfl, hser, hd⟩) (1 / 3)).1 rfl ⟨?_, fun h => (by cases h), fun h => (by cases h)⟩⟩
  show ‖(1 / 3 : ℂ)‖ ≤ 1.01
  norm_num

theorem norm_geom_conductor {r x : ℝ} (hr : 0 < r) (hx : 0 ≤ x) :
    ‖Pdm.geom x r ((4 * Real.pi * r ^ 3 : ℝ) : ℂ)‖ ≤ 1 / 4 := by
  rw [geom_conductor hr hx, Complex.norm_real, Real.norm_of_nonneg (by positivity),
    div_le_div_iff₀ (by positivity) (by norm_num)]
  have := pow_le_pow_left₀ hr.le (by linarith : r ≤ r + x) 3
  linarith

/-- The error of the series of the PDM with `J` terms; `alpha_tip` is missing in the series, see C48. -/
theorem C90_pdm (env : Env) (s : Stack (FP ℝ) (FP ℂ)) (β : ℂ) (hβ : s.reflCoefQs = .ok (FP.num β)) (z r : ℝ) (α : ℂ)
    (h : 0 < r + z) (A : ℝ) (hA : 0 ≤ A) (κ : ℝ) (hκ : κ < 1)
    (hd : ∀ x, z ≤ x → x ≤ z + 2 * A → ‖β * Pdm.geom x r α‖ ≤ κ) (n : ℝ) (N : ℕ) (hN : N ≠ 0) (J : ℕ) :
    ∃ v T, Pdm.effPolN env s (FP.num A) (FP.num n) (some (FP.num z)) (some N) (tip r α) = .ok (FP.num v) ∧
      Pdm.effPolNTaylor env s (FP.num A) (FP.num n) (some (FP.num z)) (tip r α) (some N) (some J) = .ok (FP.num T) ∧
      ‖v - α * T‖ ≤ ‖α‖ * κ ^ J / (1 - κ) := by
  have hd' : ∀ x, z ≤ x → x ≤ z + 2 * A → ‖β * Pdm.geom x r α‖ < 1 := fun x hx hx' => (hd x hx hx').trans_lt hκ
  refine ⟨_, _, pdm_effPolN_num env s β hβ z r α h A hA hd' n N hN, taylor_pdm_num env s α β hβ h hA n hN J, ?_⟩
  have hsum : ∑ j ∈ range J, Pdm.coef z j A n r α N * β ^ j =
      demodSum (fun x => ∑ j ∈ range J, (β * Pdm.geom x r α) ^ j) (z + A) A n N := by
    rw [demodSum_sum]
    refine sum_congr rfl fun j _ => ?_
    unfold Pdm.coef
    rw [mul_comm, ← demodSum_mul]
    simp only [mul_pow]
  have hκ0 : 0 ≤ κ := (norm_nonneg _).trans (hd z le_rfl (by linarith))
  have hrem : demodSum (fun x => α * (1 - β * Pdm.geom x r α)⁻¹) (z + A) A n N =
      α * demodSum (fun x => ∑ j ∈ range J, (β * Pdm.geom x r α) ^ j) (z + A) A n N +
        demodSum (fun x => α * ((β * Pdm.geom x r α) ^ J * (1 - β * Pdm.geom x r α)⁻¹)) (z + A) A n N := by
    rw [← demodSum_mul, ← demodSum_add]
    refine demodSum_congr hA n N fun x hx hx' => ?_
    have hlt := hd' x (by linarith) (by linarith)
    have hne : β * Pdm.geom x r α ≠ 1 := fun h1 => by
      rw [h1, norm_one] at hlt
      exact lt_irrefl _ hlt
    have h2 := geom_sum_eq hne J
    have h3 : (1 : ℂ) - β * Pdm.geom x r α ≠ 0 := sub_ne_zero.2 hne.symm
    have h4 : β * Pdm.geom x r α - 1 ≠ 0 := sub_ne_zero.2 hne
    rw [h2]
    generalize β * Pdm.geom x r α = q at *
    field_simp
    ring
  rw [hsum, hrem, add_sub_cancel_left]
  have p : 0 < 1 - κ := by linarith
  refine norm_demodSum_le hA n _ (by positivity) fun x hx hx' => ?_
  have h1 := hd x (by linarith) (by linarith)
  have h2 := norm_sub_norm_le (1 : ℂ) (β * Pdm.geom x r α)
  rw [norm_one] at h2
  rw [norm_mul, norm_mul, norm_pow, norm_inv, mul_div_assoc, div_eq_mul_inv]
  have h3 : 1 - κ ≤ ‖1 - β * Pdm.geom x r α‖ := by linarith
  gcongr

example (env : Env) := C90_pdm env (bulk 1 2) _ (C09_refl 1 2 none _ two_ne_zero (by norm_num)) 0 1
  ((4 * Real.pi * 1 ^ 3 : ℝ) : ℂ) (by norm_num) 2 (by norm_num) (1 / 4) (by norm_num) (fun x hx _ => by
    rw [norm_mul]
    have h1 : ‖((2 - 1) / (2 + 1) : ℂ)‖ ≤ 1 := by norm_num
    have h2 := norm_geom_conductor one_pos hx
    nlinarith [norm_nonneg ((2 - 1) / (2 + 1) : ℂ)]) 3 8 (by norm_num) 5

/-- The default tip, height, trapezia and 16 terms: for bulk samples with reflection coefficients of modulus at most 1,
`alpha_tip` times the series is within `4·10⁻¹⁰ alpha_tip` of the full model. -/
theorem C90_pdm_default (lag : ℕ → List (ℝ × ℝ)) (s : Stack (FP ℝ) (FP ℂ)) (β : ℂ)
    (hβ : s.reflCoefQs = .ok (FP.num β)) (hb : ‖β‖ ≤ 1) (A : ℝ) (hA : 0 ≤ A) (n : ℝ) :
    ∃ v T, Pdm.effPolN ⟨Defaults.initial, lag⟩ s (FP.num A) (FP.num n) none none {} = .ok (FP.num v) ∧
      Pdm.effPolNTaylor ⟨Defaults.initial, lag⟩ s (FP.num A) (FP.num n) none {} none none = .ok (FP.num T) ∧
      ‖v - (4 * Real.pi * 20e-9 ^ 3 : ℝ) * T‖ ≤ 4e-10 * (4 * Real.pi * 20e-9 ^ 3) := by
  obtain ⟨v, T, hv, hT, hle⟩ := C90_pdm ⟨Defaults.initial, lag⟩ s β hβ 0 20e-9 ((4 * Real.pi * 20e-9 ^ 3 : ℝ) : ℂ)
    (by norm_num) A hA (1 / 4) (by norm_num) (fun x hx _ => by
      rw [norm_mul]
      have h2 := norm_geom_conductor (r := 20e-9) (by norm_num) hx
      nlinarith [norm_nonneg β, norm_nonneg (Pdm.geom x 20e-9 ((4 * Real.pi * 20e-9 ^ 3 : ℝ) : ℂ))]) n 32 (by norm_num) 16
  have hd : (Env.mk Defaults.initial lag).defaults.pdm ({} : PdmArgs (FP ℝ) (FP ℂ)) =
      (Env.mk Defaults.initial lag).defaults.pdm (tip 20e-9 ((4 * Real.pi * 20e-9 ^ 3 : ℝ) : ℂ)) := by
    rw [pdm_tip]
    exact pdm_conductor ⟨Defaults.initial, lag⟩ 20e-9
  refine ⟨v, T, ?_, ?_, ?_⟩
  · rw [← hv]
    unfold Pdm.effPolN Pdm.effPol
    rw [hd]
    rfl
  · rw [← hT]
    unfold Pdm.effPolNTaylor
    rw [hd]
    rfl
  · refine hle.trans ?_
    have hpi := Real.pi_pos
    rw [Complex.norm_real, Real.norm_of_nonneg (by positivity)]
    rw [mul_div_assoc, mul_comm]
    exact mul_le_mul_of_nonneg_right (by norm_num) (by positivity)

example (lag : ℕ → List (ℝ × ℝ)) := C90_pdm_default lag (bulk 1 2) _ (C09_refl 1 2 none _ two_ne_zero (by norm_num))
  (by norm_num) 50e-9 (by norm_num) 3

end Snompy.Props
