import Mathlib.Analysis.Analytic.Uniqueness
import Mathlib.Analysis.Analytic.IsolatedZeros
import Mathlib.Analysis.Analytic.ConvergenceRadius
import Mathlib.Analysis.Complex.CauchyIntegral
import Mathlib.Analysis.Complex.LocallyUniformLimit
import Mathlib.Analysis.Normed.Module.Convex

/-!
# Real-analytic functions on an interval are the restrictions of holomorphic functions
-/

namespace Snompy

open Filter Topology Metric

/-- Near one point, the power series at complex arguments. -/
theorem extend_at {g : ℝ → ℂ} {x : ℝ} (h : AnalyticAt ℝ g x) :
    ∃ r > 0, ∃ F : ℂ → ℂ, DifferentiableOn ℂ F (ball (x : ℂ) r) ∧ ∀ t : ℝ, (t : ℂ) ∈ ball (x : ℂ) r → F t = g t := by
  obtain ⟨p, R, hp⟩ := h
  obtain ⟨r, hr0, hr⟩ := ENNReal.lt_iff_exists_nnreal_btwn.1 hp.r_pos
  have hr0' : (0 : ℝ) < r := by exact_mod_cast hr0
  have hsum := p.summable_norm_mul_pow (lt_of_lt_of_le hr hp.r_le)
  have hc : ∀ n, ‖p.coeff n‖ = ‖p n‖ := fun n => (FormalMultilinearSeries.norm_apply_eq_norm_coef).symm
  refine ⟨r, hr0', fun u => ∑' n, p.coeff n * (u - x) ^ n, ?_, fun t ht => ?_⟩
  · refine Complex.differentiableOn_tsum_of_summable_norm hsum (fun n => by fun_prop) isOpen_ball fun n u hu => ?_
    rw [norm_mul, norm_pow, hc]
    exact mul_le_mul_of_nonneg_left (pow_le_pow_left₀ (norm_nonneg _) (mem_ball_iff_norm.1 hu).le n) (norm_nonneg _)
  · have ht' : ‖t - x‖ < r := by
      have := mem_ball_iff_norm.1 ht
      rwa [← Complex.ofReal_sub, Complex.norm_real] at this
    have h1 := hp.hasSum (y := t - x) (by
      rw [Metric.mem_eball, edist_zero_right]
      refine lt_trans ?_ hr
      rw [← ofReal_norm, ← ENNReal.ofReal_coe_nnreal]
      exact (ENNReal.ofReal_lt_ofReal_iff hr0').2 ht')
    rw [add_sub_cancel] at h1
    rw [← h1.tsum_eq]
    refine tsum_congr fun n => ?_
    rw [FormalMultilinearSeries.apply_eq_pow_smul_coeff, Complex.real_smul]
    push_cast
    ring

/-- Balls around real numbers have their extensions in common. -/
theorem extend_unique {g : ℝ → ℂ} {x y r r' : ℝ} {F F' : ℂ → ℂ} (hd : DifferentiableOn ℂ F (ball (x : ℂ) r))
    (hF : ∀ t : ℝ, (t : ℂ) ∈ ball (x : ℂ) r → F t = g t) (hd' : DifferentiableOn ℂ F' (ball (y : ℂ) r'))
    (hF' : ∀ t : ℝ, (t : ℂ) ∈ ball (y : ℂ) r' → F' t = g t) {u : ℂ} (hu : u ∈ ball (x : ℂ) r) (hu' : u ∈ ball (y : ℂ) r') :
    F u = F' u := by
  have hre : ∀ (c : ℝ) {ρ : ℝ}, u ∈ ball (c : ℂ) ρ → ((u.re : ℝ) : ℂ) ∈ ball (c : ℂ) ρ := fun c ρ h => by
    rw [mem_ball_iff_norm] at h ⊢
    rw [← Complex.ofReal_sub, Complex.norm_real]
    refine lt_of_le_of_lt ?_ h
    have := Complex.abs_re_le_norm (u - c)
    simpa using this
  have hc : IsPreconnected (ball (x : ℂ) r ∩ ball (y : ℂ) r') := ((convex_ball _ _).inter (convex_ball _ _)).isPreconnected
  have ho : IsOpen (ball (x : ℂ) r ∩ ball (y : ℂ) r') := isOpen_ball.inter isOpen_ball
  refine AnalyticOnNhd.eqOn_of_preconnected_of_frequently_eq (𝕜 := ℂ)
    ((hd.mono Set.inter_subset_left).analyticOnNhd ho) ((hd'.mono Set.inter_subset_right).analyticOnNhd ho) hc
    (z₀ := ((u.re : ℝ) : ℂ)) ⟨hre x hu, hre y hu'⟩ ?_ ⟨hu, hu'⟩
  have hev : ∀ᶠ t : ℝ in 𝓝 u.re, (t : ℂ) ∈ ball (x : ℂ) r ∩ ball (y : ℂ) r' :=
    Complex.continuous_ofReal.continuousAt.eventually (ho.mem_nhds ⟨hre x hu, hre y hu'⟩)
  have hmap : Tendsto (fun t : ℝ => (t : ℂ)) (𝓝[≠] u.re) (𝓝[≠] ((u.re : ℝ) : ℂ)) :=
    tendsto_nhdsWithin_iff.2 ⟨(Complex.continuous_ofReal.tendsto _).mono_left nhdsWithin_le_nhds, by
      filter_upwards [self_mem_nhdsWithin] with t ht
      simpa using ht⟩
  refine hmap.frequently (Eventually.frequently ?_)
  filter_upwards [nhdsWithin_le_nhds hev] with t ht
  rw [hF t ht.1, hF' t ht.2]

/-- A function that is real-analytic at the points of `S` is the restriction of a function that is holomorphic around `S`. -/
theorem exists_holomorphic {g : ℝ → ℂ} {S : Set ℝ} (h : ∀ x ∈ S, AnalyticAt ℝ g x) :
    ∃ (U : Set ℂ) (G : ℂ → ℂ), IsOpen U ∧ (∀ x ∈ S, (x : ℂ) ∈ U) ∧ DifferentiableOn ℂ G U ∧ ∀ t ∈ S, G (t : ℂ) = g t := by
  choose! r hr F hd hF using fun x hx => extend_at (h x hx)
  classical
  let P : ℂ → Prop := fun u => ∃ x, x ∈ S ∧ u ∈ ball (x : ℂ) (r x)
  let G : ℂ → ℂ := fun u => if hu : P u then F hu.choose u else 0
  have hG : ∀ x ∈ S, ∀ u ∈ ball (x : ℂ) (r x), G u = F x u := fun x hx u hu => by
    have hP : P u := ⟨x, hx, hu⟩
    have hs := hP.choose_spec
    simp only [G, dif_pos hP]
    exact extend_unique (hd _ hs.1) (hF _ hs.1) (hd x hx) (hF x hx) hs.2 hu
  have hS : ∀ x ∈ S, (x : ℂ) ∈ ball (x : ℂ) (r x) := fun x hx => mem_ball_self (hr x hx)
  refine ⟨⋃ x ∈ S, ball (x : ℂ) (r x), G, isOpen_biUnion fun _ _ => isOpen_ball, fun x hx => Set.mem_biUnion hx (hS x hx),
    fun u hu => ?_, fun t ht => ?_⟩
  · obtain ⟨x, hx, hux⟩ := Set.mem_iUnion₂.1 hu
    refine DifferentiableAt.differentiableWithinAt ?_
    refine ((hd x hx).differentiableAt (isOpen_ball.mem_nhds hux)).congr_of_eventuallyEq ?_
    filter_upwards [isOpen_ball.mem_nhds hux] with v hv
    exact hG x hx v hv
  · rw [hG t ht _ (hS t ht), hF t ht t (hS t ht)]

end Snompy
