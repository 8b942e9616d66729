import Mathlib.Analysis.Complex.AbsMax
import Mathlib.Analysis.Complex.LocallyUniformLimit
import Mathlib.Analysis.Complex.CauchyIntegral
import Mathlib.Analysis.Analytic.IsolatedZeros
import Mathlib.Analysis.Normed.Group.FunctionSeries

/-!
# Roots of the partial sums of a power series near a root of the series
-/

namespace Snompy

open Filter Topology Metric

/-- Hurwitz: near a value taken by a non-constant limit, the approximations take this value as well. -/
theorem hurwitz {P : ℕ → ℂ → ℂ} {F : ℂ → ℂ} {U : Set ℂ} (hU : IsOpen U) (hc : IsPreconnected U)
    (hP : ∀ J, DifferentiableOn ℂ (P J) U) (hF : TendstoLocallyUniformlyOn P F atTop U) {b w : ℂ} (hb : b ∈ U)
    (hw : w ∈ U) (hne : F w ≠ F b) {ε : ℝ} (hε : 0 < ε) :
    ∀ᶠ J in atTop, ∃ x, ‖x - b‖ < ε ∧ P J x = F b := by
  have hd : DifferentiableOn ℂ F U := hF.differentiableOn (Eventually.of_forall hP) hU
  have ha : AnalyticOnNhd ℂ (fun x => F x - F b) U := (hd.sub_const (F b)).analyticOnNhd hU
  have hiso : ∀ᶠ x in 𝓝[≠] b, F x - F b ≠ 0 := by
    rcases (ha b hb).eventually_eq_zero_or_eventually_ne_zero with h | h
    · exact absurd (ha.eqOn_zero_of_preconnected_of_eventuallyEq_zero hc hb h hw) (sub_ne_zero.2 hne)
    · exact h
  rw [eventually_nhdsWithin_iff] at hiso
  obtain ⟨δ, hδ, hball⟩ := Metric.eventually_nhds_iff.1 (hiso.and (hU.mem_nhds hb))
  obtain ⟨r, hr0, hr⟩ : ∃ r, 0 < r ∧ r < min δ ε := exists_between (lt_min hδ hε)
  have hrδ : r < δ := hr.trans_le (min_le_left _ _)
  have hsub : closedBall b r ⊆ U := fun x hx => (hball (lt_of_le_of_lt (mem_closedBall.1 hx) hrδ)).2
  have hcont : ContinuousOn (fun x => ‖F x - F b‖) (sphere b r) :=
    ((hd.continuousOn.mono (sphere_subset_closedBall.trans hsub)).sub continuousOn_const).norm
  obtain ⟨y, hy, hmin⟩ := (isCompact_sphere b r).exists_isMinOn (NormedSpace.sphere_nonempty.2 hr0.le) hcont
  have hm : 0 < ‖F y - F b‖ := by
    rw [norm_pos_iff]
    have hyb : dist y b = r := mem_sphere.1 hy
    refine (hball (by rw [hyb]; exact hrδ)).1 ?_
    rintro rfl
    rw [dist_self] at hyb
    exact hr0.ne hyb
  obtain ⟨m, hm2⟩ : ∃ m, m = ‖F y - F b‖ := ⟨_, rfl⟩
  rw [← hm2] at hm
  have hu : TendstoUniformlyOn P F atTop (closedBall b r) :=
    (tendstoLocallyUniformlyOn_iff_forall_isCompact hU).1 hF _ hsub (isCompact_closedBall b r)
  filter_upwards [Metric.tendstoUniformlyOn_iff.1 hu (m / 2) (half_pos hm)] with J hJ
  by_contra hno
  push Not at hno
  have hnz : ∀ x ∈ closedBall b r, P J x - F b ≠ 0 := fun x hx h =>
    hno x (by
      rw [← dist_eq_norm]
      exact (mem_closedBall.1 hx).trans_lt (hr.trans_le (min_le_right _ _))) (sub_eq_zero.1 h)
  have hG : DiffContOnCl ℂ (fun x => (P J x - F b)⁻¹) (ball b r) := by
    apply DifferentiableOn.diffContOnCl
    rw [closure_ball b hr0.ne']
    exact (((hP J).mono hsub).sub_const (F b)).inv hnz
  have hmax := Complex.norm_le_of_forall_mem_frontier_norm_le isBounded_ball hG (C := (m / 2)⁻¹)
    (fun x hx => by
      rw [frontier_ball b hr0.ne'] at hx
      rw [norm_inv]
      apply inv_anti₀ (half_pos hm)
      have h1 := hJ x (sphere_subset_closedBall hx)
      have h2 : m ≤ ‖F x - F b‖ := hm2 ▸ hmin hx
      have h3 : ‖F x - F b‖ ≤ ‖F x - P J x‖ + ‖P J x - F b‖ := norm_sub_le_norm_sub_add_norm_sub _ _ _
      rw [dist_eq_norm] at h1
      linarith) (subset_closure (mem_ball_self hr0))
  have h1 := hJ b (mem_closedBall_self hr0.le)
  rw [dist_comm, dist_eq_norm] at h1
  rw [norm_inv, inv_le_inv₀ (norm_pos_iff.2 (hnz b (mem_closedBall_self hr0.le))) (half_pos hm)] at hmax
  linarith

/-- Partial sums of a power series converge uniformly on a disc on which it converges absolutely. -/
theorem series_uniform {c : ℕ → ℂ} {R : ℝ} (hs : Summable fun j => ‖c j‖ * R ^ j) :
    TendstoUniformlyOn (fun J w => ∑ j ∈ Finset.range J, c j * w ^ j) (fun w => ∑' j, c j * w ^ j) atTop
      (closedBall 0 R) :=
  tendstoUniformlyOn_tsum_nat hs fun j w hw => by
    rw [norm_mul, norm_pow]
    rw [mem_closedBall, dist_zero_right] at hw
    gcongr

/-- The partial sums of a power series that takes two values have roots close to every preimage of a value. -/
theorem hurwitz_series {c : ℕ → ℂ} {R : ℝ} (hs : Summable fun j => ‖c j‖ * R ^ j) {b w : ℂ} (hb : ‖b‖ < R)
    (hw : ‖w‖ < R) (hne : ∑' j, c j * w ^ j ≠ ∑' j, c j * b ^ j) {ε : ℝ} (hε : 0 < ε) :
    ∀ᶠ J in atTop, ∃ x, ‖x - b‖ < ε ∧ ∑ j ∈ Finset.range J, c j * x ^ j = ∑' j, c j * b ^ j :=
  hurwitz (U := ball 0 R) isOpen_ball (convex_ball 0 R).isPreconnected
    (fun J => (Differentiable.fun_sum fun j _ => (differentiable_pow j).const_mul (c j)).differentiableOn)
    ((series_uniform hs).mono ball_subset_closedBall).tendstoLocallyUniformlyOn (by simpa using hb)
    (by simpa using hw) hne hε

/-- Where the series has another value, its partial sums stay away from this value. -/
theorem series_avoids {c : ℕ → ℂ} {R : ℝ} (hs : Summable fun j => ‖c j‖ * R ^ j) {b v : ℂ} (hb : ‖b‖ < R)
    (hne : ∑' j, c j * b ^ j ≠ v) :
    ∃ ε > 0, ∀ᶠ J in atTop, ∀ x, ‖x - b‖ < ε → ∑ j ∈ Finset.range J, c j * x ^ j ≠ v := by
  have hu := series_uniform hs
  have hmem : closedBall (0 : ℂ) R ∈ 𝓝 b := closedBall_mem_nhds_of_mem (by simpa using hb)
  have hcont : ContinuousAt (fun w => ∑' j, c j * w ^ j) b :=
    (hu.continuousOn (Frequently.of_forall fun J => by fun_prop)).continuousAt hmem
  have hm : 0 < dist (∑' j, c j * b ^ j) v := dist_pos.2 hne
  obtain ⟨m, hm'⟩ : ∃ m, m = dist (∑' j, c j * b ^ j) v := ⟨_, rfl⟩
  rw [← hm'] at hm
  obtain ⟨ε, hε, hball⟩ := Metric.eventually_nhds_iff.1
    ((Metric.tendsto_nhds.1 hcont.tendsto (m / 2) (half_pos hm)).and hmem)
  refine ⟨ε, hε, ?_⟩
  filter_upwards [Metric.tendstoUniformlyOn_iff.1 hu (m / 2) (half_pos hm)] with J hJ x hx heq
  obtain ⟨h1, h2⟩ := hball (by rwa [dist_eq_norm] : dist x b < ε)
  have h3 := hJ x h2
  rw [heq] at h3
  have := dist_triangle_left (∑' j, c j * b ^ j) v (∑' j, c j * x ^ j)
  linarith

/-- Limits of roots of partial sums are roots of the series. -/
theorem series_sound {c : ℕ → ℂ} {R : ℝ} (hs : Summable fun j => ‖c j‖ * R ^ j) {b v : ℂ} (hb : ‖b‖ < R)
    {J : ℕ → ℕ} (hJ : Tendsto J atTop atTop) {x : ℕ → ℂ} (hx : Tendsto x atTop (𝓝 b))
    (h : ∀ k, ∑ j ∈ Finset.range (J k), c j * x k ^ j = v) : ∑' j, c j * b ^ j = v := by
  by_contra hne
  obtain ⟨ε, hε, hav⟩ := series_avoids hs hb hne
  have h1 : ∀ᶠ k in atTop, ‖x k - b‖ < ε := by
    filter_upwards [Metric.tendsto_nhds.1 hx ε hε] with k hk
    rwa [dist_eq_norm] at hk
  obtain ⟨k, hk, hk'⟩ := (h1.and (hJ.eventually hav)).exists
  exact hk' _ hk (h k)

end Snompy
