import Verif.Lemmas.Trig
import Verif.Spec.Ellipse
import Mathlib.Analysis.Fourier.AddCircle
import Mathlib.Analysis.Complex.CauchyIntegral
import Mathlib.Analysis.SpecificLimits.Normed
import Mathlib.Analysis.SpecialFunctions.Trigonometric.DerivHyp
import Mathlib.Topology.Algebra.InfiniteSum.NatInt

/-!
# The trapezium rule for functions that are analytic in a strip
-/

namespace Snompy

open Finset Filter Topology

/-! ## The Fourier series -/

/-- The Fourier series of a continuous function with summable coefficients. -/
theorem fourier_hasSum {h : ℝ → ℂ} (hc : Continuous h) (hp : Function.Periodic h (2 * Real.pi))
    (hs : Summable fun k : ℤ => mean (mode (-k) * h)) (θ : ℝ) :
    HasSum (fun k : ℤ => mean (mode (-k) * h) * mode k θ) (h θ) := by
  have : Fact (0 < 2 * Real.pi) := ⟨by positivity⟩
  have hcl : Continuous (hp.lift : AddCircle (2 * Real.pi) → ℂ) := by
    refine continuous_coinduced_dom.2 ?_
    exact hc
  let F : C(AddCircle (2 * Real.pi), ℂ) := ⟨hp.lift, hcl⟩
  have hcoef : ∀ k : ℤ, fourierCoeff F k = mean (mode (-k) * h) := by
    intro k
    rw [fourierCoeff_eq_intervalIntegral _ _ (-Real.pi)]
    unfold mean
    rw [show -Real.pi + 2 * Real.pi = Real.pi by ring, Complex.real_smul]
    congr 1
    · push_cast; rfl
    · refine intervalIntegral.integral_congr fun x _ => ?_
      simp only [Pi.mul_apply, smul_eq_mul, F, ContinuousMap.coe_mk, Function.Periodic.lift_coe, mode]
      rw [fourier_coe_apply]
      congr 2
      have : (Real.pi : ℂ) ≠ 0 := by exact_mod_cast Real.pi_ne_zero
      push_cast
      field_simp
  have hs' : Summable (fourierCoeff F) := by
    refine hs.congr fun k => (hcoef k).symm
  have := has_pointwise_sum_fourier_series_of_summable hs' (θ : AddCircle (2 * Real.pi))
  simp only [hcoef, smul_eq_mul] at this
  have e : (fun k : ℤ => mean (mode (-k) * h) * mode k θ) = fun k : ℤ => mean (mode (-k) * h) *
      fourier k (θ : AddCircle (2 * Real.pi)) := by
    funext k
    rw [fourier_coe_apply]
    unfold mode
    congr 2
    have : (Real.pi : ℂ) ≠ 0 := by exact_mod_cast Real.pi_ne_zero
    push_cast
    field_simp
  rw [e]
  exact this

/-! ## Decay of the coefficients -/

/-- A periodic function that is analytic in a strip has the same mean along every horizontal line in it. -/
theorem integral_shift {H : ℂ → ℂ} {s : ℝ} (hp : ∀ w, H (w + 2 * Real.pi) = H w)
    (hd : DifferentiableOn ℂ H {w | |w.im| < s}) {t : ℝ} (ht : |t| < s) :
    ∫ x in -Real.pi..Real.pi, H (x : ℝ) = ∫ x in -Real.pi..Real.pi, H ((x : ℝ) + t * Complex.I) := by
  have h := Complex.integral_boundary_rect_eq_zero_of_differentiableOn H (-Real.pi : ℂ) (Real.pi + t * Complex.I)
    (hd.mono ?_)
  · have hside : ∀ y : ℝ, H (Real.pi + y * Complex.I) = H (-Real.pi + y * Complex.I) := fun y => by
      rw [← hp (-Real.pi + y * Complex.I)]
      congr 1
      ring
    simp only [Complex.neg_re, Complex.neg_im, Complex.ofReal_re, Complex.ofReal_im, Complex.add_re, Complex.add_im,
      Complex.mul_re, Complex.mul_im, Complex.I_re, Complex.I_im, mul_zero, mul_one, sub_zero, add_zero, zero_add,
      neg_zero, Complex.ofReal_zero, zero_mul, Complex.ofReal_neg, hside] at h
    rw [add_sub_cancel_right] at h
    exact sub_eq_zero.1 h
  · intro w hw
    have hw2 := hw.2
    simp only [Set.mem_preimage, Complex.neg_im, Complex.ofReal_im, neg_zero, Complex.add_im, Complex.mul_im,
      Complex.ofReal_re, Complex.I_im, Complex.I_re, mul_one, mul_zero, add_zero, zero_add] at hw2
    have := Set.abs_sub_left_of_mem_uIcc hw2
    simp only [sub_zero] at this
    exact lt_of_le_of_lt this ht

/-- Each harmonic of a function bounded by `M` in the strip of half-width `s` is at most `M exp(-s |k|)`. -/
theorem coef_decay {H : ℂ → ℂ} {s M : ℝ} (hs : 0 < s) (hp : ∀ w, H (w + 2 * Real.pi) = H w)
    (hd : DifferentiableOn ℂ H {w | |w.im| < s}) (hM : ∀ w : ℂ, |w.im| < s → ‖H w‖ ≤ M) (k : ℤ) :
    ‖mean (mode (-k) * fun θ : ℝ => H θ)‖ ≤ M * Real.exp (-(s * |(k : ℝ)|)) := by
  have key : ∀ t : ℝ, |t| < s → ‖mean (mode (-k) * fun θ : ℝ => H θ)‖ ≤ M * Real.exp (k * t) := by
    intro t ht
    let E : ℂ → ℂ := fun w => Complex.exp (Complex.I * ((-k : ℤ) : ℂ) * w) * H w
    have hE : ∀ w, E (w + 2 * Real.pi) = E w := by
      intro w
      simp only [E, hp]
      congr 1
      rw [Complex.exp_eq_exp_iff_exists_int]
      exact ⟨-k, by push_cast; ring⟩
    have hdE : DifferentiableOn ℂ E {w | |w.im| < s} := by
      refine DifferentiableOn.mul (Differentiable.differentiableOn ?_) hd
      fun_prop
    have h1 : mean (mode (-k) * fun θ : ℝ => H θ) =
        1 / (2 * Real.pi) * ∫ x in -Real.pi..Real.pi, E ((x : ℝ) + t * Complex.I) := by
      rw [← integral_shift hE hdE ht]
      rfl
    have h2 : ‖∫ x in -Real.pi..Real.pi, E ((x : ℝ) + t * Complex.I)‖ ≤
        M * Real.exp (k * t) * |Real.pi - -Real.pi| := by
      refine intervalIntegral.norm_integral_le_of_norm_le_const fun x _ => ?_
      simp only [E, norm_mul, Complex.norm_exp]
      rw [mul_comm]
      have hx := hM (x + t * Complex.I) (by simpa using ht)
      refine mul_le_mul hx (le_of_eq ?_) (Real.exp_pos _).le ((norm_nonneg _).trans hx)
      congr 1
      simp
    rw [h1, norm_mul]
    have hpi : ‖(1 / (2 * Real.pi) : ℂ)‖ = 1 / (2 * Real.pi) := by
      rw [show (1 / (2 * Real.pi) : ℂ) = ((1 / (2 * Real.pi) : ℝ) : ℂ) by push_cast; rfl, Complex.norm_real,
        Real.norm_of_nonneg (by positivity)]
    rw [hpi]
    refine (mul_le_mul_of_nonneg_left h2 (by positivity)).trans (le_of_eq ?_)
    rw [sub_neg_eq_add, abs_of_pos (by positivity)]
    field_simp
    ring
  -- let the line tend to the edge of the strip
  have lim : Tendsto (fun t : ℝ => M * Real.exp (-(t * |(k : ℝ)|))) (𝓝[<] s)
      (𝓝 (M * Real.exp (-(s * |(k : ℝ)|)))) := by
    refine Tendsto.mono_left ?_ nhdsWithin_le_nhds
    exact (Continuous.tendsto (by fun_prop) s)
  refine ge_of_tendsto lim ?_
  filter_upwards [Ioo_mem_nhdsLT hs] with t ht
  rcases le_total 0 (k : ℝ) with hk | hk
  · have := key (-t) (by rw [abs_neg, abs_of_pos ht.1]; exact ht.2)
    rw [abs_of_nonneg hk]
    rwa [show -(t * (k : ℝ)) = k * -t by ring]
  · have := key t (by rw [abs_of_pos ht.1]; exact ht.2)
    rw [abs_of_nonpos hk]
    rwa [show -(t * -(k : ℝ)) = k * t by ring]

theorem summable_decay {s : ℝ} (hs : 0 < s) (M : ℝ) :
    Summable fun k : ℤ => M * Real.exp (-(s * |(k : ℝ)|)) := by
  refine Summable.mul_left M ?_
  have hq : Summable fun n : ℕ => Real.exp (-s) ^ n :=
    summable_geometric_of_lt_one (Real.exp_pos _).le (by rw [Real.exp_lt_one_iff]; linarith)
  refine Summable.of_nat_of_neg ?_ ?_
  · refine hq.congr fun n => ?_
    rw [← Real.exp_nat_mul]
    congr 1
    simp
    ring
  · refine hq.congr fun n => ?_
    rw [← Real.exp_nat_mul]
    congr 1
    simp
    ring

/-! ## The error of the trapezium rule -/

theorem meanN_mode_mul {N : ℕ} (hN : N ≠ 0) (m : ℤ) : meanN N (mode (m * N)) = (-1) ^ (m * N) := by
  have hNc : (N : ℂ) ≠ 0 := by exact_mod_cast hN
  have : ∀ k : ℕ, mode (m * N) (phase N k) = (-1) ^ (m * N) := by
    intro k
    rw [mode_phase _ hN]
    have h1 : Complex.exp (2 * Real.pi * Complex.I * (((m * N : ℤ) : ℂ) / N)) = 1 := by
      rw [Complex.exp_eq_one_iff]
      exact ⟨m, by push_cast; field_simp⟩
    rw [h1, one_pow, mul_one, ← Complex.exp_pi_mul_I, ← Complex.exp_int_mul]
    rw [Complex.exp_eq_exp_iff_exists_int]
    exact ⟨-(m * N), by push_cast; ring⟩
  unfold meanN
  rw [sum_congr rfl fun k _ => this k, sum_const, card_range, nsmul_eq_mul, mul_div_cancel_left₀ _ hNc]

/-- The trapezium rule adds the harmonics that differ by multiples of the number of intervals. -/
theorem alias_hasSum {h : ℝ → ℂ} (hc : Continuous h) (hp : Function.Periodic h (2 * Real.pi))
    (hs : Summable fun k : ℤ => mean (mode (-k) * h)) (n : ℤ) {N : ℕ} (hN : N ≠ 0) :
    HasSum (fun m : ℤ => (-1) ^ (m * N) * mean (mode (-(n + m * N)) * h)) (meanN N (mode (-n) * h)) := by
  have h1 : HasSum (fun k : ℤ => mean (mode (-k) * h) * meanN N (mode (k - n))) (meanN N (mode (-n) * h)) := by
    unfold meanN
    have := hasSum_sum (s := range N) fun j _ =>
      (fourier_hasSum hc hp hs (phase N j)).mul_left (mode (-n) (phase N j))
    have e : (fun k : ℤ => mean (mode (-k) * h) * ((∑ j ∈ range N, mode (k - n) (phase N j)) / N)) =
        fun k : ℤ => (∑ j ∈ range N, mode (-n) (phase N j) * (mean (mode (-k) * h) * mode k (phase N j))) / N := by
      funext k
      rw [← mul_div_assoc, mul_sum]
      congr 1
      refine sum_congr rfl fun j _ => ?_
      rw [show k - n = k + -n by ring, ← mode_mul, Pi.mul_apply]
      ring
    rw [e]
    exact this.div_const (N : ℂ)
  have hNz : (N : ℤ) ≠ 0 := by exact_mod_cast hN
  have hinj : Function.Injective fun m : ℤ => n + m * N := fun a b hab => by
    exact mul_right_cancel₀ hNz (add_left_cancel hab)
  rw [← hinj.hasSum_iff] at h1
  · convert h1 using 2 with m
    simp only [Function.comp]
    rw [show n + m * N - n = m * N by ring, meanN_mode_mul hN, mul_comm]
  · intro k hk
    rw [meanN_mode hN, mul_zero]
    rintro ⟨j, hj⟩
    exact hk ⟨j, by dsimp only; rw [mul_comm, ← hj]; ring⟩

theorem strip_regular {H : ℂ → ℂ} {s M : ℝ} (hs : 0 < s) (hp : ∀ w, H (w + 2 * Real.pi) = H w)
    (hd : DifferentiableOn ℂ H {w | |w.im| < s}) (hM : ∀ w : ℂ, |w.im| < s → ‖H w‖ ≤ M) :
    (Continuous fun θ : ℝ => H θ) ∧ Function.Periodic (fun θ : ℝ => H θ) (2 * Real.pi) ∧
      Summable fun k : ℤ => mean (mode (-k) * fun θ : ℝ => H θ) := by
  have hopen : IsOpen {w : ℂ | |w.im| < s} := isOpen_lt (continuous_abs.comp Complex.continuous_im) continuous_const
  refine ⟨?_, fun θ => ?_, Summable.of_norm_bounded (summable_decay hs M) (coef_decay hs hp hd hM)⟩
  · rw [continuous_iff_continuousAt]
    intro θ
    have : ContinuousAt H (θ : ℂ) := (hd.differentiableAt (hopen.mem_nhds (by simpa using hs))).continuousAt
    exact ContinuousAt.comp (f := fun θ : ℝ => (θ : ℂ)) this Complex.continuous_ofReal.continuousAt
  · have := hp θ
    push_cast
    exact this

/-- The error of the trapezium rule for a function analytic and bounded by `M` in the strip of half-width `s`. -/
theorem strip_error {H : ℂ → ℂ} {s M : ℝ} (hs : 0 < s) (hp : ∀ w, H (w + 2 * Real.pi) = H w)
    (hd : DifferentiableOn ℂ H {w | |w.im| < s}) (hM : ∀ w : ℂ, |w.im| < s → ‖H w‖ ≤ M) (n : ℤ) {N : ℕ}
    (hN : N ≠ 0) :
    ‖meanN N (mode (-n) * fun θ : ℝ => H θ) - mean (mode (-n) * fun θ : ℝ => H θ)‖ ≤
      2 * M * Real.cosh (s * n) / (Real.exp (s * N) - 1) := by
  have hM0 : 0 ≤ M := (norm_nonneg _).trans (hM 0 (by simpa using hs))
  have hdec := coef_decay hs hp hd hM
  obtain ⟨hcont, hper, hsum⟩ := strip_regular hs hp hd hM
  have hal := alias_hasSum hcont hper hsum n hN
  have hdiff := hal.update 0 0
  have hNR : (0 : ℝ) < N := by exact_mod_cast Nat.pos_of_ne_zero hN
  have hq1 : Real.exp (-(s * N)) < 1 := by
    rw [Real.exp_lt_one_iff]
    have := mul_pos hs hNR
    linarith
  have hgeo := hasSum_geometric_of_lt_one (Real.exp_pos _).le hq1
  -- the majorant
  let B : ℤ → ℝ := fun m => if m = 0 then 0 else
    if 0 < m then M * Real.exp (-(s * (n + m * N))) else M * Real.exp (s * (n + m * N))
  have hB1 : HasSum (fun j : ℕ => B j) (M * Real.exp (-(s * n)) * (Real.exp (-(s * N)) * (1 - Real.exp (-(s * N)))⁻¹)) := by
    have h0 : HasSum (fun j : ℕ => B (j + 1 : ℕ)) (M * Real.exp (-(s * n)) * (Real.exp (-(s * N)) * (1 - Real.exp (-(s * N)))⁻¹)) := by
      refine ((hgeo.mul_left (Real.exp (-(s * N)))).mul_left (M * Real.exp (-(s * n)))).congr_fun fun j => ?_
      have : ((j + 1 : ℕ) : ℤ) ≠ 0 := by omega
      have h' : 0 < ((j + 1 : ℕ) : ℤ) := by omega
      simp only [B, this, if_false, h', if_true]
      rw [← Real.exp_nat_mul, ← Real.exp_add, mul_assoc, ← Real.exp_add]
      congr 2
      push_cast
      ring
    have := (hasSum_nat_add_iff (f := fun j : ℕ => B j) 1).1 h0
    simpa [B] using this
  have hB2 : HasSum (fun j : ℕ => B (-(j + 1))) (M * Real.exp (s * n) * (Real.exp (-(s * N)) * (1 - Real.exp (-(s * N)))⁻¹)) := by
    refine ((hgeo.mul_left (Real.exp (-(s * N)))).mul_left (M * Real.exp (s * n))).congr_fun fun j => ?_
    have : (-((j : ℤ) + 1)) ≠ 0 := by omega
    have h' : ¬ 0 < (-((j : ℤ) + 1)) := by omega
    simp only [B, this, if_false, h']
    rw [← Real.exp_nat_mul, ← Real.exp_add, mul_assoc, ← Real.exp_add]
    congr 2
    push_cast
    ring
  have hB := HasSum.of_nat_of_neg_add_one hB1 hB2
  have hle : ∀ m : ℤ, ‖Function.update (fun m : ℤ => (-1 : ℂ) ^ (m * N) *
      mean (mode (-(n + m * N)) * fun θ : ℝ => H θ)) 0 0 m‖ ≤ B m := by
    intro m
    by_cases hm : m = 0
    · subst hm
      simp [B]
    · rw [Function.update_of_ne hm]
      rw [norm_mul, norm_zpow, norm_neg, norm_one, one_zpow, one_mul]
      refine (hdec (n + m * N)).trans ?_
      simp only [B, hm, if_false]
      split_ifs
      · refine mul_le_mul_of_nonneg_left (Real.exp_le_exp.2 ?_) hM0
        have := mul_le_mul_of_nonneg_left (le_abs_self ((n + m * N : ℤ) : ℝ)) hs.le
        push_cast at this ⊢
        linarith
      · refine mul_le_mul_of_nonneg_left (Real.exp_le_exp.2 ?_) hM0
        have := mul_le_mul_of_nonneg_left (neg_abs_le ((n + m * N : ℤ) : ℝ)) hs.le
        push_cast at this ⊢
        linarith
  have := HasSum.norm_le_of_bounded hdiff hB hle
  convert this using 1
  · congr 1
    simp
    ring
  · have he : Real.exp (s * N) ≠ 0 := (Real.exp_pos _).ne'
    have h1 : Real.exp (s * N) - 1 ≠ 0 := by
      have : 1 < Real.exp (s * N) := Real.one_lt_exp_iff.2 (mul_pos hs hNR)
      linarith
    have h2 : 1 - (Real.exp (s * N))⁻¹ ≠ 0 := by
      rw [← Real.exp_neg]
      linarith
    rw [Real.cosh_eq, Real.exp_neg (s * N)]
    field_simp
    ring

/-! ## Oscillating heights -/

theorem ellipse_cos {x0 amp s : ℝ} (hA : 0 < amp) {w : ℂ} (hw : |w.im| < s) :
    (x0 : ℂ) + amp * Complex.cos w ∈ ellipse x0 amp s := by
  have hsq : ∀ u : ℂ, ‖Complex.cos u‖ ^ 2 + ‖Complex.sin u‖ ^ 2 = Real.cosh (2 * u.im) := by
    intro u
    rw [← Complex.normSq_eq_norm_sq, ← Complex.normSq_eq_norm_sq, Complex.normSq_apply, Complex.normSq_apply,
      Complex.cos_eq u, Complex.sin_eq u]
    simp only [← Complex.ofReal_cos, ← Complex.ofReal_sin, ← Complex.ofReal_cosh, ← Complex.ofReal_sinh,
      Complex.add_re, Complex.add_im, Complex.sub_re, Complex.sub_im, Complex.mul_re, Complex.mul_im,
      Complex.ofReal_re, Complex.ofReal_im, Complex.I_re, Complex.I_im, mul_zero, zero_mul, sub_zero, add_zero,
      zero_add, mul_one, zero_sub, sub_self]
    rw [Real.cosh_two_mul]
    have h1 := Real.cos_sq_add_sin_sq u.re
    have h2 := Real.cosh_sq u.im
    linear_combination (Real.cosh u.im ^ 2 + Real.sinh u.im ^ 2) * h1
  have hc : Complex.cos w = 2 * Complex.cos (w / 2) ^ 2 - 1 := by
    rw [← Complex.cos_two_mul]
    congr 1
    ring
  have hs : Complex.cos w = 1 - 2 * Complex.sin (w / 2) ^ 2 := by
    rw [hc, Complex.cos_sq']
    ring
  have h1 : (x0 : ℂ) + amp * Complex.cos w - ((x0 - amp : ℝ) : ℂ) = (amp : ℂ) * (2 * Complex.cos (w / 2) ^ 2) := by
    rw [hc]
    push_cast
    ring
  have h2 : (x0 : ℂ) + amp * Complex.cos w - ((x0 + amp : ℝ) : ℂ) = -((amp : ℂ) * (2 * Complex.sin (w / 2) ^ 2)) := by
    rw [hs]
    push_cast
    ring
  unfold ellipse
  rw [Set.mem_ofPred_eq]
  rw [h1, h2, norm_neg]
  simp only [norm_mul, norm_pow, Complex.norm_real, Real.norm_of_nonneg hA.le, Complex.norm_ofNat]
  have h3 := hsq (w / 2)
  have him : 2 * (w / 2).im = w.im := by simp; ring
  rw [him] at h3
  have h4 : Real.cosh w.im < Real.cosh s := by
    rw [Real.cosh_lt_cosh]
    exact lt_of_lt_of_le hw (le_abs_self s)
  nlinarith

/-- The error of `demod`'s sum for a function analytic and bounded by `M` inside an ellipse. -/
theorem demodSum_error {G : ℂ → ℂ} {x0 amp s M : ℝ} (hA : 0 < amp) (hs : 0 < s)
    (hd : ∀ u ∈ ellipse x0 amp s, DifferentiableAt ℂ G u) (hM : ∀ u ∈ ellipse x0 amp s, ‖G u‖ ≤ M) (n : ℤ)
    {N : ℕ} (hN : N ≠ 0) :
    ‖demodSum (fun x => G x) x0 amp n N - lockin (fun x => G x) x0 amp n‖ ≤
      2 * M * Real.cosh (s * n) / (Real.exp (s * N) - 1) := by
  have := strip_error (H := fun w => G (x0 + amp * Complex.cos w)) hs
    (fun w => by simp only [Complex.cos_add_two_pi])
    (fun w hw => by
      refine DifferentiableAt.differentiableWithinAt ?_
      refine DifferentiableAt.comp w (hd _ (ellipse_cos hA hw)) ?_
      fun_prop)
    (fun w hw => hM _ (ellipse_cos hA hw)) n hN
  rw [demodSum_mean _ _ _ _ hN, lockin_eq, wave_eq]
  convert this using 3 <;>
  · congr 2
    funext θ
    push_cast
    rw [mul_comm (amp : ℂ)]

/-- The harmonics of the ideal lock-in signal. -/
theorem lockin_decay {G : ℂ → ℂ} {x0 amp s M : ℝ} (hA : 0 < amp) (hs : 0 < s)
    (hd : ∀ u ∈ ellipse x0 amp s, DifferentiableAt ℂ G u) (hM : ∀ u ∈ ellipse x0 amp s, ‖G u‖ ≤ M) (n : ℤ) :
    ‖lockin (fun x => G x) x0 amp n‖ ≤ M * Real.exp (-(s * |(n : ℝ)|)) := by
  have := coef_decay (H := fun w => G (x0 + amp * Complex.cos w)) hs
    (fun w => by simp only [Complex.cos_add_two_pi])
    (fun w hw => by
      refine DifferentiableAt.differentiableWithinAt ?_
      refine DifferentiableAt.comp w (hd _ (ellipse_cos hA hw)) ?_
      fun_prop)
    (fun w hw => hM _ (ellipse_cos hA hw)) n
  rw [lockin_eq, wave_eq]
  convert this using 4
  funext θ
  push_cast
  rw [mul_comm (amp : ℂ)]

theorem ellipse_re {x0 amp s : ℝ} {u : ℂ} (hu : u ∈ ellipse x0 amp s) :
    |u.re - x0| < amp * Real.cosh s := by
  unfold ellipse at hu
  rw [Set.mem_ofPred_eq] at hu
  have h1 := Complex.abs_re_le_norm (u - ((x0 - amp : ℝ) : ℂ))
  have h2 := Complex.abs_re_le_norm (u - ((x0 + amp : ℝ) : ℂ))
  rw [Complex.sub_re, Complex.ofReal_re] at h1 h2
  rw [abs_lt]
  have h3 := neg_abs_le (u.re - (x0 - amp))
  have h4 := neg_abs_le (u.re - (x0 + amp))
  have h5 := le_abs_self (u.re - (x0 - amp))
  have h6 := le_abs_self (u.re - (x0 + amp))
  constructor <;> linarith

theorem ellipse_im {x0 amp s : ℝ} (hA : 0 < amp) (hs : 0 < s) {u : ℂ} (hu : u ∈ ellipse x0 amp s) :
    |u.im| < amp * Real.sinh s := by
  unfold ellipse at hu
  rw [Set.mem_ofPred_eq] at hu
  have h1 : ‖(2 * amp : ℂ) + 2 * u.im * Complex.I‖ ≤
      ‖u - ((x0 - amp : ℝ) : ℂ)‖ + ‖u - ((x0 + amp : ℝ) : ℂ)‖ := by
    have hc : ‖u - ((x0 + amp : ℝ) : ℂ)‖ = ‖-(starRingEnd ℂ (u - ((x0 + amp : ℝ) : ℂ)))‖ := by
      rw [norm_neg, RCLike.norm_conj]
    rw [hc]
    refine le_trans (le_of_eq ?_) (norm_add_le _ _)
    congr 1
    apply Complex.ext <;> simp <;> ring
  have h2 : ‖(2 * amp : ℂ) + 2 * u.im * Complex.I‖ ^ 2 = 4 * amp ^ 2 + 4 * u.im ^ 2 := by
    rw [← Complex.normSq_eq_norm_sq, Complex.normSq_apply]
    simp
    ring
  have h3 : 4 * amp ^ 2 + 4 * u.im ^ 2 < (2 * amp * Real.cosh s) ^ 2 := by
    rw [← h2]
    exact pow_lt_pow_left₀ (lt_of_le_of_lt h1 hu) (norm_nonneg _) two_ne_zero
  have h4 := Real.cosh_sq s
  refine abs_lt_of_sq_lt_sq ?_ (mul_nonneg hA.le (Real.sinh_nonneg_iff.2 hs.le))
  nlinarith

/-- A set that is open around the range of the oscillation contains one of the ellipses, with compact closure. -/
theorem ellipse_subset {x0 amp : ℝ} (hA : 0 < amp) {U : Set ℂ} (hU : IsOpen U)
    (hx : ∀ x : ℝ, x0 - amp ≤ x → x ≤ x0 + amp → (x : ℂ) ∈ U) :
    ∃ s > 0, ∃ K ⊆ U, IsCompact K ∧ ellipse x0 amp s ⊆ K := by
  let I : Set ℂ := (fun x : ℝ => (x : ℂ)) '' Set.Icc (x0 - amp) (x0 + amp)
  have hI : IsCompact I := isCompact_Icc.image Complex.continuous_ofReal
  have hIU : I ⊆ U := by
    rintro _ ⟨x, hx', rfl⟩
    exact hx x hx'.1 hx'.2
  obtain ⟨δ, hδ, hsub⟩ := hI.exists_cthickening_subset_open hU hIU
  have hlim : Tendsto (fun s : ℝ => amp * (Real.cosh s - 1) + amp * Real.sinh s) (𝓝[>] 0) (𝓝 0) := by
    have : Continuous fun s : ℝ => amp * (Real.cosh s - 1) + amp * Real.sinh s := by
      have := Real.continuous_cosh
      have := Real.continuous_sinh
      fun_prop
    have h0 := this.tendsto 0
    simp only [Real.cosh_zero, Real.sinh_zero, sub_self, mul_zero, add_zero] at h0
    exact h0.mono_left nhdsWithin_le_nhds
  obtain ⟨s, hs, hs0⟩ := ((hlim.eventually (gt_mem_nhds hδ)).and self_mem_nhdsWithin).exists
  have hs0 : 0 < s := hs0
  refine ⟨s, hs0, Metric.cthickening δ I, hsub, hI.cthickening, fun u hu => ?_⟩
  have hre := abs_lt.1 (ellipse_re hu)
  have him := ellipse_im hA hs0 hu
  have hch : 1 ≤ Real.cosh s := Real.one_le_cosh s
  -- the nearest height
  let y : ℝ := max (x0 - amp) (min u.re (x0 + amp))
  have hy : y ∈ Set.Icc (x0 - amp) (x0 + amp) :=
    ⟨le_max_left _ _, max_le (by linarith) (min_le_right _ _)⟩
  have hyu : |u.re - y| ≤ amp * (Real.cosh s - 1) := by
    have hp : 0 ≤ amp * (Real.cosh s - 1) := mul_nonneg hA.le (by linarith)
    rw [abs_le]
    simp only [y]
    rcases max_cases (x0 - amp) (min u.re (x0 + amp)) with ⟨h1, h2⟩ | ⟨h1, h2⟩ <;>
      rcases min_cases u.re (x0 + amp) with ⟨h3, h4⟩ | ⟨h3, h4⟩ <;> rw [h1] <;>
      constructor <;> nlinarith
  refine Metric.mem_cthickening_of_dist_le u (y : ℂ) δ I ⟨y, hy, rfl⟩ ?_
  rw [Complex.dist_eq]
  refine (Complex.norm_le_abs_re_add_abs_im _).trans ?_
  rw [Complex.sub_re, Complex.sub_im, Complex.ofReal_re, Complex.ofReal_im, sub_zero]
  linarith

/-- The rate, written as a geometric sequence. -/
theorem rate_le {s : ℝ} (hs : 0 < s) {N : ℕ} (hN : N ≠ 0) {C : ℝ} (hC : 0 ≤ C) :
    C / (Real.exp (s * N) - 1) ≤ C / (1 - Real.exp (-s)) * Real.exp (-(s * N)) := by
  have h1 : 0 < 1 - Real.exp (-s) := by
    have : Real.exp (-s) < 1 := Real.exp_lt_one_iff.2 (by linarith)
    linarith
  have hN1 : (1 : ℝ) ≤ N := by exact_mod_cast Nat.one_le_iff_ne_zero.2 hN
  have h2 : Real.exp (s * N) * (1 - Real.exp (-s)) ≤ Real.exp (s * N) - 1 := by
    rw [mul_sub, mul_one, ← Real.exp_add]
    have : 1 ≤ Real.exp (s * N + -s) := Real.one_le_exp (by nlinarith)
    linarith
  have h3 := Real.exp_pos (s * N)
  have h4 : 0 < Real.exp (s * N) * (1 - Real.exp (-s)) := mul_pos h3 h1
  refine (div_le_div_of_nonneg_left hC h4 h2).trans (le_of_eq ?_)
  rw [Real.exp_neg (s * N)]
  field_simp

end Snompy
