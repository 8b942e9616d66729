import Verif.Lemmas.Unique
import Verif.Lemmas.Quad
import Verif.Lemmas.DoubleLayer
import Mathlib.Analysis.Meromorphic.Order

/-!
# The layers from an approach curve
-/

namespace Snompy

open Filter Topology

/-- A positive combination of rescaled copies of a function vanishes near zero only if the function does. -/
theorem rescaled_sum_ne (rule : List (ℝ × ℝ)) (hrule : rule ≠ []) (hx : ∀ xw ∈ rule, 0 < xw.1) (c : ℝ × ℝ → ℝ)
    (hc : ∀ xw ∈ rule, 0 < c xw) {f : ℝ → ℂ} (hf : MeromorphicAt f 0) (h0 : ¬ ∀ᶠ s in 𝓝[≠] (0 : ℝ), f s = 0) :
    ∀ᶠ s in 𝓝[≠] (0 : ℝ), (rule.map fun xw => (c xw : ℂ) * f (xw.1 * s)).sum ≠ 0 := by
  rw [← meromorphicOrderAt_eq_top_iff] at h0
  obtain ⟨g, hg, hg0, hfg⟩ := (meromorphicOrderAt_ne_top_iff hf).1 h0
  set k := (meromorphicOrderAt f 0).untop₀
  have scale : ∀ xw ∈ rule, Tendsto (fun s : ℝ => xw.1 * s) (𝓝[≠] 0) (𝓝[≠] 0) := fun xw hxw => by
    refine tendsto_nhdsWithin_iff.2 ⟨?_, ?_⟩
    · have : Tendsto (fun s : ℝ => xw.1 * s) (𝓝 0) (𝓝 (xw.1 * 0)) := (continuous_const.mul continuous_id).tendsto 0
      rw [mul_zero] at this
      exact this.mono_left nhdsWithin_le_nhds
    · filter_upwards [self_mem_nhdsWithin] with s hs
      exact mul_ne_zero (hx xw hxw).ne' hs
  -- the leading term of the sum
  have lim : ∀ r : List (ℝ × ℝ), (∀ xw ∈ r, xw ∈ rule) → Tendsto (fun s : ℝ => (r.map fun xw => ((c xw * xw.1 ^ k : ℝ) : ℂ) * g (xw.1 * s)).sum)
      (𝓝[≠] 0) (𝓝 (((r.map fun xw => c xw * xw.1 ^ k).sum : ℝ) * g 0)) := fun r hr => by
    induction r with
    | nil => simp
    | cons xw r ih =>
      have h1 := ((hg.continuousAt.tendsto.mono_left nhdsWithin_le_nhds).comp (scale xw (hr xw (by simp)))).const_mul
        ((c xw * xw.1 ^ k : ℝ) : ℂ)
      have h2 := h1.add (ih fun y hy => hr y (by simp [hy]))
      rw [← add_mul] at h2
      simpa only [List.map_cons, List.sum_cons, Complex.ofReal_add, Function.comp_apply] using h2
  have pos : 0 < (rule.map fun xw => c xw * xw.1 ^ k).sum := by
    refine List.sum_pos _ ?_ (by simpa using hrule)
    intro y hy
    obtain ⟨xw, hxw, rfl⟩ := List.mem_map.1 hy
    exact mul_pos (hc xw hxw) (zpow_pos (hx xw hxw) k)
  have ne := (lim rule fun _ h => h).eventually_ne (mul_ne_zero (Complex.ofReal_ne_zero.2 pos.ne') hg0)
  have all : ∀ r : List (ℝ × ℝ), (∀ xw ∈ r, xw ∈ rule) → ∀ᶠ s in 𝓝[≠] (0 : ℝ), (r.map fun xw => (c xw : ℂ) * f (xw.1 * s)).sum =
      (s ^ k : ℝ) * (r.map fun xw => ((c xw * xw.1 ^ k : ℝ) : ℂ) * g (xw.1 * s)).sum := fun r hr => by
    induction r with
    | nil => simp
    | cons xw r ih =>
      filter_upwards [ih fun y hy => hr y (by simp [hy]), (scale xw (hr xw (by simp))).eventually hfg] with s h1 h2
      rw [List.map_cons, List.sum_cons, h1, h2, List.map_cons, List.sum_cons, sub_zero, mul_zpow, Complex.real_smul]
      push_cast
      ring
  filter_upwards [ne, all rule fun _ h => h, self_mem_nhdsWithin] with s h1 h2 h3
  rw [h2]
  exact mul_ne_zero (Complex.ofReal_ne_zero.2 (zpow_ne_zero k h3)) h1

/-- The converse of `reflCoefQs_qsND`. -/
theorem reflCoefQs_of_qsND {q : ℝ} {e : ℂ} {L : List (ℂ × ℝ)} {sub : ℂ} (nu : Option ℝ) (h : Visible e L sub)
    (hq : ∀ l ∈ L, |q * l.2| ≤ maxExpArg) (h0 : (qsND e L sub q).2 ≠ 0) :
    (layered e L sub nu).reflCoefQs (FP.num q) = .ok (FP.num ((qsND e L sub q).1 / (qsND e L sub q).2)) := by
  obtain ⟨c, hc, h1, h2⟩ := qsMat_qsND q e L sub h.ne_zero.1 h.ne_zero.2 hq
  rw [reflCoefQs_eq _ _ _ _ _ h.ne_zero.1 h.ne_zero.2, h1, h2, FP.num_div _ (mul_ne_zero hc h0), mul_div_mul_left _ _ hc]

theorem qsND_den_ne {e : ℂ} {L : List (ℂ × ℝ)} {sub : ℂ} (h : Visible e L sub) : ∀ᶠ q in 𝓝[≠] (0 : ℝ), (qsND e L sub q).2 ≠ 0 := by
  rcases ((qsND_analytic e L sub).2 0 trivial).eventually_eq_zero_or_eventually_ne_zero with h0 | h0
  · exfalso
    have h1 : (fun q => (qsND e L sub q).2) = fun _ => 0 :=
      AnalyticOnNhd.eq_of_eventuallyEq (qsND_analytic e L sub).2 analyticOnNhd_const h0
    obtain ⟨d, hd, -, h2⟩ := qsND_limit e L sub h
    rw [h1] at h2
    exact mul_ne_zero h.top.2 hd (tendsto_nhds_unique h2 tendsto_const_nhds)
  · exact h0

theorem tendsto_momentum {x : ℝ} (hx : 0 < x) : Tendsto (fun z : ℝ => x / (2 * z)) atTop (𝓝[≠] 0) := by
  refine tendsto_nhdsWithin_iff.2 ⟨(tendsto_id.const_mul_atTop two_pos).const_div_atTop x, ?_⟩
  filter_upwards [eventually_gt_atTop 0] with z hz
  exact (div_pos hx (by positivity)).ne'

theorem forall_eventually {α β : Type} {F : Filter α} (L : List β) {p : β → α → Prop} (h : ∀ l ∈ L, ∀ᶠ a in F, p l a) :
    ∀ᶠ a in F, ∀ l ∈ L, p l a := by
  induction L with
  | nil => simp
  | cons l L ih =>
    filter_upwards [h l (by simp), ih fun y hy => h y (by simp [hy])] with a h1 h2
    simpa using ⟨h1, h2⟩

/-- From far enough away, a momentum of the quadrature meets the formula. -/
theorem far_momentum {e : ℂ} {L : List (ℂ × ℝ)} {sub : ℂ} (nu : Option ℝ) (h : Visible e L sub) {x : ℝ} (hx : 0 < x) :
    ∀ᶠ z in atTop, (layered e L sub nu).reflCoefQs (FP.num (x / (2 * z))) =
      .ok (FP.num ((qsND e L sub (x / (2 * z))).1 / (qsND e L sub (x / (2 * z))).2)) := by
  have ht := tendsto_momentum hx
  have clip : ∀ᶠ z in atTop, ∀ l ∈ L, |x / (2 * z) * l.2| ≤ maxExpArg := forall_eventually L fun l _ => by
    have h1 := ((tendsto_nhds_of_tendsto_nhdsWithin ht).mul_const l.2).abs
    rw [zero_mul, abs_zero] at h1
    exact h1.eventually_le_const maxExpArg_pos
  filter_upwards [clip, ht.eventually (qsND_den_ne h)] with z h1 h2
  exact reflCoefQs_of_qsND nu h h1 h2

/-- Positive combinations of the reflection coefficients at proportional momenta determine the layers. -/
theorem combination_unique {e : ℂ} (he : e ≠ 0) {L₁ L₂ : List (ℂ × ℝ)} {s₁ s₂ : ℂ} (v₁ : Visible e L₁ s₁) (v₂ : Visible e L₂ s₂)
    (rule : List (ℝ × ℝ)) (hrule : rule ≠ []) (hx : ∀ xw ∈ rule, 0 < xw.1) (c : ℝ × ℝ → ℝ) (hc : ∀ xw ∈ rule, 0 < c xw)
    (h : ∃ᶠ z : ℝ in atTop,
      (rule.map fun xw => (c xw : ℂ) * ((qsND e L₁ s₁ (xw.1 / (2 * z))).1 / (qsND e L₁ s₁ (xw.1 / (2 * z))).2)).sum =
      (rule.map fun xw => (c xw : ℂ) * ((qsND e L₂ s₂ (xw.1 / (2 * z))).1 / (qsND e L₂ s₂ (xw.1 / (2 * z))).2)).sum) :
    L₁ = L₂ ∧ s₁ = s₂ := by
  set f : ℝ → ℂ := fun q => (qsND e L₁ s₁ q).1 / (qsND e L₁ s₁ q).2 - (qsND e L₂ s₂ q).1 / (qsND e L₂ s₂ q).2 with hfd
  have a₁ := qsND_analytic e L₁ s₁
  have a₂ := qsND_analytic e L₂ s₂
  have hf : MeromorphicAt f 0 :=
    (((a₁.1 0 trivial).meromorphicAt.div (a₁.2 0 trivial).meromorphicAt)).sub
      ((a₂.1 0 trivial).meromorphicAt.div (a₂.2 0 trivial).meromorphicAt)
  have h0 : ∀ᶠ s in 𝓝[≠] (0 : ℝ), f s = 0 := by
    by_contra h0
    have h1 := (tendsto_momentum one_pos).eventually (rescaled_sum_ne rule hrule hx c hc hf h0)
    obtain ⟨z, h2, h3⟩ := (h.and_eventually h1).exists
    refine h3 ?_
    have split : ∀ r : List (ℝ × ℝ), (r.map fun xw => (c xw : ℂ) * f (xw.1 * (1 / (2 * z)))).sum =
        (r.map fun xw => (c xw : ℂ) * ((qsND e L₁ s₁ (xw.1 / (2 * z))).1 / (qsND e L₁ s₁ (xw.1 / (2 * z))).2)).sum -
        (r.map fun xw => (c xw : ℂ) * ((qsND e L₂ s₂ (xw.1 / (2 * z))).1 / (qsND e L₂ s₂ (xw.1 / (2 * z))).2)).sum := fun r => by
      induction r with
      | nil => simp
      | cons xw r ih =>
        rw [List.map_cons, List.sum_cons, ih, List.map_cons, List.sum_cons, List.map_cons, List.sum_cons, mul_one_div]
        simp only [hfd]
        ring
    rw [split, h2, sub_self]
  refine qsND_unique he v₁ v₂ (congrFun (AnalyticOnNhd.eq_of_frequently_eq (z₀ := 0) (a₁.1.mul a₂.2) (a₂.1.mul a₁.2)
    (Eventually.frequently ?_)))
  filter_upwards [h0, qsND_den_ne v₁, qsND_den_ne v₂] with q h1 h2 h3
  simp only [hfd, sub_eq_zero] at h1
  rw [div_eq_div_iff h2 h3] at h1
  exact h1

end Snompy
