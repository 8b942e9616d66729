import Verif.Lemmas.ApproachLayers
import Verif.Props.Unique
import Verif.Props.Image
import Verif.Props.Fdm

/-!
# C127: an approach curve determines the layers

Seen from above, a layered sample is described by averages of its reflection coefficient over the momenta `x_i / (2 z)`.  With any
correct quadrature rule, of any order, the averages at arbitrarily large heights `z` determine the sample.
-/

namespace Snompy.Props

open Snompy Filter Topology

section

variable {e : ℂ} {L₁ L₂ : List (ℂ × ℝ)} {s₁ s₂ : ℂ} {env : Env} {nLag : Option ℕ}

theorem RuleOk.ne_nil (hr : env.RuleOk nLag) : env.laggauss (nLag.getD env.defaults.nLag) ≠ [] := fun h => by
  have := hr.2.length
  rw [h] at this
  exact hr.1 this.symm

theorem far_rule (hr : env.RuleOk nLag) {L : List (ℂ × ℝ)} {sub : ℂ} (nu : Option ℝ) (h : Visible e L sub) :
    ∀ᶠ z : ℝ in atTop, ∀ xw ∈ env.laggauss (nLag.getD env.defaults.nLag), (layered e L sub nu).reflCoefQs (FP.num (xw.1 / (2 * z))) =
      .ok (FP.num ((qsND e L sub (xw.1 / (2 * z))).1 / (qsND e L sub (xw.1 / (2 * z))).2)) :=
  forall_eventually _ fun xw hxw => far_momentum nu h (hr.2.node_pos xw hxw)

theorem layered_reflCoefQs_ok (L : List (ℂ × ℝ)) (sub : ℂ) (nu : Option ℝ) (q : FP ℝ) :
    ∃ v, (layered e L sub nu).reflCoefQs q = .ok v := reflCoefQs_ok _ (by simp [layered]) q

/-- `refl_coef_qs_above_surf`. -/
theorem C127_average (hr : env.RuleOk nLag) (he : e ≠ 0) (nu₁ nu₂ : Option ℝ) (v₁ : Visible e L₁ s₁) (v₂ : Visible e L₂ s₂)
    (h : ∃ᶠ z : ℝ in atTop, (layered e L₁ s₁ nu₁).reflCoefQsAboveSurf env (FP.num z) nLag =
      (layered e L₂ s₂ nu₂).reflCoefQsAboveSurf env (FP.num z) nLag) : L₁ = L₂ ∧ s₁ = s₂ := by
  refine combination_unique he v₁ v₂ _ (RuleOk.ne_nil hr) hr.2.node_pos (fun xw => xw.2 * xw.1)
    (fun xw hxw => mul_pos (hr.2.weight_pos xw hxw) (hr.2.node_pos xw hxw)) ?_
  refine (h.and_eventually ((far_rule hr nu₁ v₁).and ((far_rule hr nu₂ v₂).and (eventually_gt_atTop 0)))).mono fun z hz => ?_
  obtain ⟨h, h1, h2, h3⟩ := hz
  rw [aboveSurf_num env _ (fun q => (qsND e L₁ s₁ q).1 / (qsND e L₁ s₁ q).2) z h3.ne' nLag hr.1 (layered_reflCoefQs_ok _ _ _ _) h1,
    aboveSurf_num env _ (fun q => (qsND e L₂ s₂ q).1 / (qsND e L₂ s₂ q).2) z h3.ne' nLag hr.1 (layered_reflCoefQs_ok _ _ _ _) h2] at h
  simpa using h

/-- The potential alone, or the field alone. -/
theorem C127_surf (hr : env.RuleOk nLag) (he : e ≠ 0) (nu₁ nu₂ : Option ℝ) (v₁ : Visible e L₁ s₁) (v₂ : Visible e L₂ s₂)
    (h : ∃ᶠ z : ℝ in atTop, ∃ p₁ p₂, (layered e L₁ s₁ nu₁).surfPotAndField env (FP.num z) nLag = .ok p₁ ∧
      (layered e L₂ s₂ nu₂).surfPotAndField env (FP.num z) nLag = .ok p₂ ∧ (p₁.1 = p₂.1 ∨ p₁.2 = p₂.2)) : L₁ = L₂ ∧ s₁ = s₂ := by
  have h' := h.and_eventually ((far_rule hr nu₁ v₁).and ((far_rule hr nu₂ v₂).and (eventually_gt_atTop 0)))
  have h'' : (∃ᶠ z : ℝ in atTop,
      ((env.laggauss (nLag.getD env.defaults.nLag)).map fun xw =>
        (xw.2 : ℂ) * ((qsND e L₁ s₁ (xw.1 / (2 * z))).1 / (qsND e L₁ s₁ (xw.1 / (2 * z))).2)).sum =
      ((env.laggauss (nLag.getD env.defaults.nLag)).map fun xw =>
        (xw.2 : ℂ) * ((qsND e L₂ s₂ (xw.1 / (2 * z))).1 / (qsND e L₂ s₂ (xw.1 / (2 * z))).2)).sum) ∨
    ∃ᶠ z : ℝ in atTop,
      ((env.laggauss (nLag.getD env.defaults.nLag)).map fun xw =>
        ((xw.2 * xw.1 : ℝ) : ℂ) * ((qsND e L₁ s₁ (xw.1 / (2 * z))).1 / (qsND e L₁ s₁ (xw.1 / (2 * z))).2)).sum =
      ((env.laggauss (nLag.getD env.defaults.nLag)).map fun xw =>
        ((xw.2 * xw.1 : ℝ) : ℂ) * ((qsND e L₂ s₂ (xw.1 / (2 * z))).1 / (qsND e L₂ s₂ (xw.1 / (2 * z))).2)).sum := by
    rw [← frequently_or_distrib]
    refine h'.mono fun z hz => ?_
    obtain ⟨⟨p₁, p₂, e1, e2, h⟩, h1, h2, h3⟩ := hz
    rw [surf_num env _ (fun q => (qsND e L₁ s₁ q).1 / (qsND e L₁ s₁ q).2) z h3.ne' nLag hr.1 (layered_reflCoefQs_ok _ _ _ _) h1] at e1
    rw [surf_num env _ (fun q => (qsND e L₂ s₂ q).1 / (qsND e L₂ s₂ q).2) z h3.ne' nLag hr.1 (layered_reflCoefQs_ok _ _ _ _) h2] at e2
    cases e1
    cases e2
    have z2 : ((2 * z : ℝ) : ℂ) ≠ 0 := Complex.ofReal_ne_zero.2 (by positivity)
    have z4 : ((4 * z ^ 2 : ℝ) : ℂ) ≠ 0 := Complex.ofReal_ne_zero.2 (by positivity)
    rcases h with h | h
    · exact .inl ((div_left_inj' z2).1 (FP.num.inj h))
    · exact .inr ((div_left_inj' z4).1 (FP.num.inj h))
  rcases h'' with h | h
  · exact combination_unique he v₁ v₂ _ (RuleOk.ne_nil hr) hr.2.node_pos (fun xw => xw.2) hr.2.weight_pos h
  · exact combination_unique he v₁ v₂ _ (RuleOk.ne_nil hr) hr.2.node_pos (fun xw => xw.2 * xw.1)
      (fun xw hxw => mul_pos (hr.2.weight_pos xw hxw) (hr.2.node_pos xw hxw)) h

/-- The average in terms of the numerators and denominators, as a function of `1 / (2 z)`. -/
noncomputable def avg (rule : List (ℝ × ℝ)) (e : ℂ) (L : List (ℂ × ℝ)) (sub : ℂ) (s : ℝ) : ℂ :=
  (rule.map fun xw => ((xw.2 * xw.1 : ℝ) : ℂ) * ((qsND e L sub (xw.1 * s)).1 / (qsND e L sub (xw.1 * s)).2)).sum

theorem avg_analytic (rule : List (ℝ × ℝ)) {L : List (ℂ × ℝ)} {sub : ℂ} {s : ℝ} (h : ∀ xw ∈ rule, (qsND e L sub (xw.1 * s)).2 ≠ 0) :
    AnalyticAt ℝ (avg rule e L sub) s := by
  induction rule with
  | nil => exact analyticAt_const
  | cons xw rule ih =>
    have hs : AnalyticAt ℝ (fun s : ℝ => xw.1 * s) s := analyticAt_const.mul analyticAt_id
    have h1 : AnalyticAt ℝ (fun s : ℝ => (qsND e L sub (xw.1 * s)).1) s := ((qsND_analytic e L sub).1 _ trivial).fun_comp hs
    have h2 : AnalyticAt ℝ (fun s : ℝ => (qsND e L sub (xw.1 * s)).2) s := ((qsND_analytic e L sub).2 _ trivial).fun_comp hs
    have h3 := (analyticAt_const (v := ((xw.2 * xw.1 : ℝ) : ℂ))).mul (h1.div h2 (h xw (by simp)))
    exact (h3.add (ih fun y hy => h y (by simp [hy]))).congr (Eventually.of_forall fun _ => by simp [avg])

/-- Infinitely many heights, close or far, at which the exponents are not limited. -/
theorem C127_range (hr : env.RuleOk nLag) (he : e ≠ 0) (nu₁ nu₂ : Option ℝ) (v₁ : Visible e L₁ s₁) (v₂ : Visible e L₂ s₂)
    (f₁ : ∀ q : ℝ, 0 < q → ∃ β, (layered e L₁ s₁ nu₁).reflCoefQs (FP.num q) = .ok (FP.num β))
    (f₂ : ∀ q : ℝ, 0 < q → ∃ β, (layered e L₂ s₂ nu₂).reflCoefQs (FP.num q) = .ok (FP.num β)) (S : Set ℝ) (hS : S.Infinite) (z₀ : ℝ)
    (hz₀ : 0 < z₀) (hSz : ∀ z ∈ S, z₀ ≤ z)
    (hq : ∀ xw ∈ env.laggauss (nLag.getD env.defaults.nLag), ∀ l ∈ L₁ ++ L₂, xw.1 / (2 * z₀) * l.2 ≤ maxExpArg)
    (h : ∀ z ∈ S, (layered e L₁ s₁ nu₁).reflCoefQsAboveSurf env (FP.num z) nLag =
      (layered e L₂ s₂ nu₂).reflCoefQsAboveSurf env (FP.num z) nLag) : L₁ = L₂ ∧ s₁ = s₂ := by
  by_cases hb : BddAbove S
  swap
  · refine C127_average hr he nu₁ nu₂ v₁ v₂ (Frequently.mono ?_ h)
    rw [frequently_atTop]
    intro a
    rw [not_bddAbove_iff] at hb
    obtain ⟨z, hz, hlt⟩ := hb a
    exact ⟨z, hlt.le, hz⟩
  set rule := env.laggauss (nLag.getD env.defaults.nLag) with hrule
  have thick : ∀ {L : List (ℂ × ℝ)} {e sub : ℂ}, Visible e L sub → ∀ l ∈ L, 0 < l.2 := by
    intro L
    induction L with
    | nil => simp
    | cons l L ih => exact fun h => List.forall_mem_cons.2 ⟨h.2.2.1, ih h.2.2.2.2⟩
  -- the exponents at the heights above `z₀`
  have small : ∀ {L : List (ℂ × ℝ)} {sub : ℂ}, Visible e L sub → (∀ l ∈ L, l ∈ L₁ ++ L₂) → ∀ xw ∈ rule, ∀ s, 0 < s → s ≤ 1 / (2 * z₀) →
      ∀ l ∈ L, |xw.1 * s * l.2| ≤ maxExpArg := fun v hL xw hxw s h0 h1 l hl => by
    have p1 := hr.2.node_pos xw hxw
    have p2 := thick v l hl
    rw [abs_of_pos (by positivity)]
    refine le_trans ?_ (hq xw hxw l (hL l hl))
    rw [div_eq_mul_one_div]
    gcongr
  have den : ∀ {L : List (ℂ × ℝ)} {sub : ℂ} (nu : Option ℝ), Visible e L sub → (∀ l ∈ L, l ∈ L₁ ++ L₂) →
      (∀ q : ℝ, 0 < q → ∃ β, (layered e L sub nu).reflCoefQs (FP.num q) = .ok (FP.num β)) →
      ∀ s, 0 < s → s ≤ 1 / (2 * z₀) → ∀ xw ∈ rule, (qsND e L sub (xw.1 * s)).2 ≠ 0 := fun {L sub} nu v hL f s h0 h1 xw hxw hd => by
    obtain ⟨β, hβ⟩ := f (xw.1 * s) (mul_pos (hr.2.node_pos xw hxw) h0)
    obtain ⟨c, hc, -, m2⟩ := qsMat_qsND (xw.1 * s) e L sub v.ne_zero.1 v.ne_zero.2 (small v hL xw hxw s h0 h1)
    rw [reflCoefQs_eq _ _ _ _ _ v.ne_zero.1 v.ne_zero.2, m2, hd, mul_zero, num_div_zero] at hβ
    simp at hβ
  have d₁ := den nu₁ v₁ (fun l hl => List.mem_append_left _ hl) f₁
  have d₂ := den nu₂ v₂ (fun l hl => List.mem_append_right _ hl) f₂
  have value : ∀ {L : List (ℂ × ℝ)} {sub : ℂ} (nu : Option ℝ), Visible e L sub → (∀ l ∈ L, l ∈ L₁ ++ L₂) →
      (∀ s, 0 < s → s ≤ 1 / (2 * z₀) → ∀ xw ∈ rule, (qsND e L sub (xw.1 * s)).2 ≠ 0) → ∀ z, z₀ ≤ z →
      (layered e L sub nu).reflCoefQsAboveSurf env (FP.num z) nLag = .ok (FP.num (avg rule e L sub (1 / (2 * z)))) :=
    fun {L sub} nu v hL d z hz => by
      have pz : 0 < z := hz₀.trans_le hz
      have s0 : 0 < 1 / (2 * z) := by positivity
      have s1 : 1 / (2 * z) ≤ 1 / (2 * z₀) := by gcongr
      rw [aboveSurf_num env _ (fun q => (qsND e L sub q).1 / (qsND e L sub q).2) z pz.ne' nLag hr.1 (layered_reflCoefQs_ok _ _ _ _)
        fun xw hxw => ?_]
      · simp only [avg, mul_one_div, hrule]
      · have h1 := small v hL xw hxw _ s0 s1
        have h2 := d _ s0 s1 xw hxw
        rw [mul_one_div] at h1 h2
        exact reflCoefQs_of_qsND nu v h1 h2
  have w₁ := value nu₁ v₁ (fun l hl => List.mem_append_left _ hl) d₁
  have w₂ := value nu₂ v₂ (fun l hl => List.mem_append_right _ hl) d₂
  -- the heights accumulate
  obtain ⟨Z, hZ⟩ := hb
  obtain ⟨z, hz, hacc⟩ := hS.exists_accPt_of_subset_isCompact isCompact_Icc (K := Set.Icc z₀ Z) fun z hz => ⟨hSz z hz, hZ hz⟩
  have pz : 0 < z := hz₀.trans_le hz.1
  have freq : ∃ᶠ s in 𝓝[≠] (1 / (2 * z)), avg rule e L₁ s₁ s = avg rule e L₂ s₂ s := by
    have t : Tendsto (fun z : ℝ => 1 / (2 * z)) (𝓝[≠] z) (𝓝[≠] (1 / (2 * z))) := by
      refine tendsto_nhdsWithin_iff.2 ⟨?_, ?_⟩
      · have : ContinuousAt (fun z : ℝ => 1 / (2 * z)) z := by
          refine ContinuousAt.div continuousAt_const (continuousAt_const.mul continuousAt_id) ?_
          exact mul_ne_zero two_ne_zero pz.ne'
        exact this.tendsto.mono_left nhdsWithin_le_nhds
      · filter_upwards [self_mem_nhdsWithin] with y hy h
        simp only [Set.mem_singleton_iff, one_div, inv_inj] at h
        exact hy (mul_left_cancel₀ two_ne_zero h)
    refine t.frequently ((accPt_iff_frequently_nhdsNE.1 hacc).mono fun y hy => ?_)
    have := h y hy
    rw [w₁ y (hSz y hy), w₂ y (hSz y hy)] at this
    simpa using this
  have same := AnalyticOnNhd.eqOn_of_preconnected_of_frequently_eq (𝕜 := ℝ) (U := Set.Ioc 0 (1 / (2 * z₀)))
    (fun s hs => avg_analytic rule (d₁ s hs.1 hs.2)) (fun s hs => avg_analytic rule (d₂ s hs.1 hs.2)) isPreconnected_Ioc
    (z₀ := 1 / (2 * z)) ⟨by positivity, by have := hz.1; gcongr⟩ freq
  refine C127_average hr he nu₁ nu₂ v₁ v₂ (Eventually.frequently ?_)
  filter_upwards [eventually_ge_atTop z₀] with y hy
  have py : 0 < y := hz₀.trans_le hy
  rw [w₁ y hy, w₂ y hy, same ⟨by positivity, by gcongr⟩]

/-- Dielectric samples: the averages at infinitely many heights agree exactly if the samples do. -/
theorem C127_dielectric (hr : env.RuleOk nLag) (e : ℝ) (he : 0 < e) (nu₁ nu₂ : Option ℝ)
    (h₁ : ∀ l ∈ L₁, 0 < l.1.re ∧ 0 < l.2) (h₂ : ∀ l ∈ L₂, 0 < l.1.re ∧ 0 < l.2) (hs₁ : 0 < s₁.re) (hs₂ : 0 < s₂.re)
    (d₁ : (L₁.map Prod.fst ++ [s₁]).IsChain (· ≠ ·)) (d₂ : (L₂.map Prod.fst ++ [s₂]).IsChain (· ≠ ·)) (S : Set ℝ) (hS : S.Infinite)
    (z₀ : ℝ) (hz₀ : 0 < z₀) (hSz : ∀ z ∈ S, z₀ ≤ z)
    (hq : ∀ xw ∈ env.laggauss (nLag.getD env.defaults.nLag), ∀ l ∈ L₁ ++ L₂, xw.1 / (2 * z₀) * l.2 ≤ maxExpArg) :
    (∀ z ∈ S, (layered e L₁ s₁ nu₁).reflCoefQsAboveSurf env (FP.num z) nLag =
      (layered e L₂ s₂ nu₂).reflCoefQsAboveSurf env (FP.num z) nLag) ↔ L₁ = L₂ ∧ s₁ = s₂ := by
  constructor
  · refine C127_range hr (by exact_mod_cast he.ne') nu₁ nu₂ (visible_dielectric (by simpa using he) h₁ hs₁ d₁)
      (visible_dielectric (by simpa using he) h₂ hs₂ d₂) (fun q hq0 => ?_) (fun q hq0 => ?_) S hS z₀ hz₀ hSz hq
    · obtain ⟨β, hβ, -⟩ := C16_bound e L₁ s₁ nu₁ q he (fun l hl => ⟨(h₁ l hl).1, (h₁ l hl).2.le⟩) hs₁ hq0.le
      exact ⟨β, hβ⟩
    · obtain ⟨β, hβ, -⟩ := C16_bound e L₂ s₂ nu₂ q he (fun l hl => ⟨(h₂ l hl).1, (h₂ l hl).2.le⟩) hs₂ hq0.le
      exact ⟨β, hβ⟩
  · rintro ⟨rfl, rfl⟩ z hz
    have pz : 0 < z := hz₀.trans_le (hSz z hz)
    choose b hb using fun q : ℝ => fun hq0 : 0 ≤ q =>
      C16_bound e L₁ s₁ nu₁ q he (fun l hl => ⟨(h₁ l hl).1, (h₁ l hl).2.le⟩) hs₁ hq0
    have same : ∀ q : ℝ, (layered e L₁ s₁ nu₂).reflCoefQs (FP.num q) = (layered e L₁ s₁ nu₁).reflCoefQs (FP.num q) := fun q =>
      (coefs_congr rfl).1
    have mom : ∀ xw ∈ env.laggauss (nLag.getD env.defaults.nLag), 0 ≤ xw.1 / (2 * z) := fun xw hxw =>
      (div_pos (hr.2.node_pos xw hxw) (by positivity)).le
    have fin : ∀ xw ∈ env.laggauss (nLag.getD env.defaults.nLag), (layered e L₁ s₁ nu₁).reflCoefQs (FP.num (xw.1 / (2 * z))) =
        .ok (FP.num (if h0 : 0 ≤ xw.1 / (2 * z) then b _ h0 else 0)) := fun xw hxw => by
      rw [dif_pos (mom xw hxw)]
      exact (hb _ (mom xw hxw)).1
    rw [aboveSurf_num env _ (fun q => if h0 : 0 ≤ q then b q h0 else 0) z pz.ne' nLag hr.1 (layered_reflCoefQs_ok _ _ _ _) fin,
      aboveSurf_num env _ (fun q => if h0 : 0 ≤ q then b q h0 else 0) z pz.ne' nLag hr.1 (layered_reflCoefQs_ok _ _ _ _)
        fun xw hxw => (same _).trans (fin xw hxw)]

/-- Between the heights 1 and 2 a film differs from every pair of films. -/
example (d : Defaults) (t : ℝ) (ht : 0 < t) (h4 : t ≤ 4) (h : ∀ z ∈ Set.Icc (1 : ℝ) 2,
    (layered (1 : ℝ) [(2, t)] 3 none).reflCoefQsAboveSurf (rule2 d) (FP.num z) (some 2) =
      (layered (1 : ℝ) [(2, 1), (4, 1)] 3 none).reflCoefQsAboveSurf (rule2 d) (FP.num z) (some 2)) : False := by
  have h2 := maxExpArg_gt
  have q2 : √2 ≤ 2 := by
    rw [Real.sqrt_le_left (by norm_num)]
    norm_num
  have q0 := Real.sqrt_nonneg 2
  have := ((C127_dielectric (L₁ := [(2, t)]) (L₂ := [(2, 1), (4, 1)]) (s₁ := 3) (s₂ := 3) (rule2_ok d) 1 one_pos none none
    (by simpa using ht) (by simp) (by simp) (by simp) (by norm_num) (by norm_num) (Set.Icc 1 2) (Set.Icc_infinite (by norm_num)) 1 one_pos
    (fun z hz => hz.1) (by
      intro xw hxw l hl
      simp only [List.cons_append, List.nil_append, List.mem_cons, List.not_mem_nil, or_false] at hl
      simp only [rule2, Option.getD_some, List.mem_cons, List.not_mem_nil, or_false] at hxw
      rcases hl with rfl | rfl | rfl <;> rcases hxw with rfl | rfl <;> simp only <;> nlinarith)).1 h).1
  simp at this

/-- Two signals of the finite dipole model agree only if the reflection coefficients do. -/
theorem formula_injective {β₁ β₂ f0 f1 v : ℂ} (h0 : f0 ≠ 0)
    (h1 : (Fdm.effPolFormula (FP.num β₁) (FP.num f0) (FP.num β₁) (FP.num f1) : FP ℂ) = FP.num v)
    (h2 : (Fdm.effPolFormula (FP.num β₂) (FP.num f0) (FP.num β₂) (FP.num f1) : FP ℂ) = FP.num v) : β₁ = β₂ := by
  have ne : ∀ {β : ℂ}, (Fdm.effPolFormula (FP.num β) (FP.num f0) (FP.num β) (FP.num f1) : FP ℂ) = FP.num v → 1 - β * f1 ≠ 0 := by
    intro β h h'
    unfold Fdm.effPolFormula at h
    simp only [sclit, FP.num_mul, FP.num_sub, h', mul_zero, num_div_zero] at h
    cases h
  have n1 := ne h1
  have n2 := ne h2
  rw [Fdm.formula_num _ _ _ _ n1, FP.num.injEq] at h1
  rw [Fdm.formula_num _ _ _ _ n2, FP.num.injEq, ← h1, add_right_inj,
    div_eq_div_iff (mul_ne_zero two_ne_zero n2) (mul_ne_zero two_ne_zero n1)] at h2
  have : 2 * f0 * (β₁ - β₂) = 0 := by linear_combination -h2
  exact sub_eq_zero.1 ((mul_eq_zero.1 this).resolve_left (mul_ne_zero two_ne_zero h0))

theorem geom_far (d r l : ℝ) (g : ℂ) (hr : 0 < r) (hl : 0 < l) (hne : r ≠ 4 * l) :
    ∀ᶠ z in atTop, Fdm.GeomOk z d r l ∧ Fdm.geom z d r l g ≠ 0 := by
  have t1 : Tendsto (fun z : ℝ => r + 4 * z + 2 * d * r) atTop atTop :=
    tendsto_atTop_add_const_right _ _ (tendsto_atTop_add_const_left _ _ (tendsto_id.const_mul_atTop four_pos))
  have t2 : Tendsto (fun z : ℝ => (r + 2 * z + d * r) / (2 * l)) atTop atTop :=
    (tendsto_atTop_add_const_right _ _ (tendsto_atTop_add_const_left _ _ (tendsto_id.const_mul_atTop two_pos))).atTop_div_const
      (by positivity)
  filter_upwards [t1.eventually_gt_atTop 0, t1.eventually_gt_atTop (4 * l), t2.eventually_gt_atTop g.re] with z h1 h2 h3
  refine ⟨⟨hr, hl, hne, h1⟩, ?_⟩
  have log0 : ∀ {x : ℝ}, 0 < x → x ≠ 4 * l → (Real.log (4 * l / x) : ℂ) ≠ 0 := fun {x} hx hx' => by
    refine Complex.ofReal_ne_zero.2 (Real.log_ne_zero_of_pos_of_ne_one (by positivity) fun h => hx' ?_)
    rw [div_eq_one_iff_eq hx.ne'] at h
    exact h.symm
  refine div_ne_zero (mul_ne_zero (fun h => ?_) (log0 h1 h2.ne')) (log0 hr hne)
  have := congrArg Complex.re h
  rw [Complex.sub_re, Complex.ofReal_re, Complex.zero_re] at this
  linarith

/-- Approach curves of the finite dipole model with `method='Q_ave'`. -/
theorem C127_fdm (hr : env.RuleOk nLag) (he : e ≠ 0) (nu₁ nu₂ : Option ℝ) (v₁ : Visible e L₁ s₁) (v₂ : Visible e L₂ s₂)
    (r l : ℝ) (g : ℂ) (d0 d1 dA : ℝ) (hr0 : 0 < r) (hl : 0 < l) (hne : r ≠ 4 * l)
    (h : ∃ᶠ z : ℝ in atTop, ∃ x : ℂ,
      Fdm.effPol env (layered e L₁ s₁ nu₁) (some (FP.num z)) (fdmTip r l g d0 d1 dA) nLag (some "Q_ave") = .ok (FP.num x) ∧
      Fdm.effPol env (layered e L₂ s₂ nu₂) (some (FP.num z)) (fdmTip r l g d0 d1 dA) nLag (some "Q_ave") = .ok (FP.num x)) :
    L₁ = L₂ ∧ s₁ = s₂ := by
  have t : Tendsto (fun z : ℝ => z + r * dA) atTop atTop := tendsto_atTop_add_const_right _ _ tendsto_id
  refine C127_average hr he nu₁ nu₂ v₁ v₂ (t.frequently ?_)
  refine (h.and_eventually ((t.eventually (far_rule hr nu₁ v₁)).and ((t.eventually (far_rule hr nu₂ v₂)).and
    ((t.eventually_gt_atTop 0).and ((geom_far d0 r l g hr0 hl hne).and (geom_far d1 r l g hr0 hl hne)))))).mono fun z hz => ?_
  obtain ⟨⟨x, e1, e2⟩, h1, h2, h3, ⟨k0, k0'⟩, ⟨k1, -⟩⟩ := hz
  have a1 := aboveSurf_num env _ (fun q => (qsND e L₁ s₁ q).1 / (qsND e L₁ s₁ q).2) _ h3.ne' nLag hr.1 (layered_reflCoefQs_ok _ _ _ _) h1
  have a2 := aboveSurf_num env _ (fun q => (qsND e L₂ s₂ q).1 / (qsND e L₂ s₂ q).2) _ h3.ne' nLag hr.1 (layered_reflCoefQs_ok _ _ _ _) h2
  rw [Fdm.effPol_Qave] at e1 e2
  simp only [Option.getD_some, fdm_fdmTip, FP.num_mul, FP.num_add, a1, a2, PyM.ok_bind, Fdm.geomFunc_num k0, Fdm.geomFunc_num k1,
    Except.ok.injEq] at e1 e2
  exact a1.trans ((congrArg (fun x => Except.ok (FP.num x)) (formula_injective k0' e1 e2)).trans a2.symm)

/-- The signals of two films differ at all large heights. -/
example (d : Defaults) : ∀ᶠ z : ℝ in atTop, ¬ ∃ x : ℂ,
    Fdm.effPol (rule2 d) (layered 1 [(2, 1)] 3 none) (some (FP.num z)) (fdmTip 1 300 Complex.I 1 (1 / 2) 1.4) (some 2) (some "Q_ave") =
      .ok (FP.num x) ∧
    Fdm.effPol (rule2 d) (layered 1 [(2, 2)] 3 none) (some (FP.num z)) (fdmTip 1 300 Complex.I 1 (1 / 2) 1.4) (some 2) (some "Q_ave") =
      .ok (FP.num x) := by
  rw [← not_frequently]
  intro h
  have v : ∀ t : ℝ, 0 < t → Visible 1 [(2, t)] 3 := fun t ht =>
    ⟨two_ne_zero, by norm_num, ht, by norm_num, by norm_num, by norm_num⟩
  have := C127_fdm (rule2_ok d) one_ne_zero none none (v 1 one_pos) (v 2 two_pos) 1 300 Complex.I 1 (1 / 2) 1.4 one_pos (by norm_num)
    (by norm_num) h
  norm_num at this

/-- So do the potentials and the fields. -/
example (d : Defaults) : ∀ᶠ z : ℝ in atTop, ∀ p₁ p₂, (layered 1 [(2, 1)] 3 none).surfPotAndField (rule2 d) (FP.num z) (some 2) = .ok p₁ →
    (layered 1 [(2, 2)] 3 none).surfPotAndField (rule2 d) (FP.num z) (some 2) = .ok p₂ → p₁.1 ≠ p₂.1 ∧ p₁.2 ≠ p₂.2 := by
  by_contra h
  have v : ∀ t : ℝ, 0 < t → Visible 1 [(2, t)] 3 := fun t ht =>
    ⟨two_ne_zero, by norm_num, ht, by norm_num, by norm_num, by norm_num⟩
  have := C127_surf (rule2_ok d) one_ne_zero none none (v 1 one_pos) (v 2 two_pos) ((not_eventually.1 h).mono fun z hz => by
    push Not at hz
    obtain ⟨p₁, p₂, h1, h2, h3⟩ := hz
    exact ⟨p₁, p₂, h1, h2, or_iff_not_imp_left.2 h3⟩)
  norm_num at this

end

end Snompy.Props
