import Verif.Lemmas.QsLimit
import Verif.Props.Image
import Verif.Props.Fdm

/-!
# C63–C64: limits of the averages over the field of a point charge

`env.Rules` says that `laggauss` returns the Gauss-Laguerre rule of every positive order; `exactRules` is such an
environment.
-/

namespace Snompy.Props

open Snompy Filter Topology Set

/-- An environment with the right rule at every order. -/
noncomputable def exactRules (d : Defaults) : Env := ⟨d, Laguerre.rule⟩

theorem exactRules_ok (d : Defaults) : (exactRules d).Rules := fun _ hn =>
  Laguerre.gaussLaguerre_rule (Nat.pos_of_ne_zero hn)

/-- Finite reflection coefficients of a passive stack, as used in the examples. -/
theorem passive_finite (e : ℝ) (L : List (ℂ × ℝ)) (sub : ℂ) (nu : Option ℝ) (h0 : 0 < e)
    (hL : ∀ l ∈ L, Passive l.1 ∧ 0 ≤ l.2) (hs : Passive sub) :
    ∃ b : ℝ → ℂ, ∀ q, 0 ≤ q → (layered e L sub nu).reflCoefQs (FP.num q) = .ok (FP.num (b q)) := by
  choose b hb _ using fun q (hq : 0 ≤ q) => C15_passive e L sub nu q h0 hL hs hq
  exact ⟨fun q => if hq : 0 ≤ q then b q hq else 0, fun q hq => by
    beta_reduce
    rw [dif_pos hq]
    exact hb q hq⟩

/-! ## C63 The quadratures converge to the integrals over momentum -/

theorem C63_surf (env : Env) (hr : env.Rules) (e : ℂ) (L : List (ℂ × ℝ)) (sub : ℂ) (nu : Option ℝ) (b : ℝ → ℂ)
    (hb : ∀ q, 0 ≤ q → (layered e L sub nu).reflCoefQs (FP.num q) = .ok (FP.num (b q)))
    (z : ℝ) (hz : 0 < z) :
    ∃ phi E : ℕ → ℂ, (∀ n, n ≠ 0 → (layered e L sub nu).surfPotAndField env (FP.num z) (some n) =
        .ok (FP.num (phi n), FP.num (E n))) ∧
      Tendsto phi atTop (𝓝 (reflected 0 b z)) ∧ Tendsto E atTop (𝓝 (reflected 1 b z)) := by
  obtain ⟨hc, l, hl⟩ := refl_regular e L sub nu b hb
  have h2 : (0 : ℝ) < 2 * z := by positivity
  have hdiv : Tendsto (fun x : ℝ => x / (2 * z)) atTop atTop := tendsto_id.atTop_div_const h2
  have hc' : ContinuousOn (fun x : ℝ => b (x / (2 * z))) (Ici 0) :=
    hc.comp (continuous_id.div_const _).continuousOn fun x hx => div_nonneg hx h2.le
  have hl' : Tendsto (fun x : ℝ => b (x / (2 * z))) atTop (𝓝 l) :=
    tendsto_const_nhds.congr' ((hdiv.eventually hl).mono fun x hx => hx.symm)
  have c0 := (Laguerre.conv_complex hr hc' hl' 0).div_const ((2 * z : ℝ) : ℂ)
  have c1 := (Laguerre.conv_complex hr hc' hl' 1).div_const ((4 * z ^ 2 : ℝ) : ℂ)
  rw [Laguerre.scale_integral hz] at c0 c1
  refine ⟨_, _, fun n hn => surf_num env _ b z hz.ne' (some n) hn ⟨_, hb z hz.le⟩ fun xw hxw =>
    hb _ (div_nonneg ((hr n hn).node_pos xw hxw).le h2.le), ?_, ?_⟩
  · convert c0 using 2
    · simp
    · rw [zero_add, pow_one, mul_div_cancel_left₀ _ (by exact_mod_cast h2.ne')]
      rfl
  · convert c1 using 2
    · simp
    · rw [show (2 * z) ^ (1 + 1) = 4 * z ^ 2 by ring, mul_div_cancel_left₀ _ (by
        exact_mod_cast (by positivity : 4 * z ^ 2 ≠ 0))]
      rfl

theorem C63_average (env : Env) (hr : env.Rules) (e : ℂ) (L : List (ℂ × ℝ)) (sub : ℂ) (nu : Option ℝ) (b : ℝ → ℂ)
    (hb : ∀ q, 0 ≤ q → (layered e L sub nu).reflCoefQs (FP.num q) = .ok (FP.num (b q)))
    (z : ℝ) (hz : 0 < z) :
    EvalTendsto (fun n : ℕ => (layered e L sub nu).reflCoefQsAboveSurf env (FP.num z) (some n)) atTop
      (4 * (z : ℂ) ^ 2 * reflected 1 b z) := by
  obtain ⟨phi, E, h, -, hE⟩ := C63_surf env hr e L sub nu b hb z hz
  refine ⟨_, ?_, hE.const_mul _⟩
  filter_upwards [eventually_ne_atTop 0] with n hn
  rw [C31_average env _ z hz.ne', h n hn]
  rfl

theorem C63_image (env : Env) (hr : env.Rules) (e : ℂ) (L : List (ℂ × ℝ)) (sub : ℂ) (nu : Option ℝ) (b : ℝ → ℂ)
    (hb : ∀ q, 0 ≤ q → (layered e L sub nu).reflCoefQs (FP.num q) = .ok (FP.num (b q)))
    (z : ℝ) (hz : 0 < z) (hE : reflected 1 b z ≠ 0) :
    ∃ (d : ℕ → ℝ) (β : ℕ → ℂ), (∀ᶠ n in atTop, (layered e L sub nu).imageDepthAndCharge env (FP.num z) (some n) =
        .ok (FP.num (d n), FP.num (β n))) ∧
      Tendsto d atTop (𝓝 (‖reflected 0 b z / reflected 1 b z‖ - z)) ∧
      Tendsto β atTop (𝓝 (reflected 0 b z ^ 2 / reflected 1 b z)) := by
  obtain ⟨phi, E, h, h0, h1⟩ := C63_surf env hr e L sub nu b hb z hz
  refine ⟨fun n => ‖phi n / E n‖ - z, fun n => phi n ^ 2 / E n, ?_, ((h0.div h1 hE).norm).sub_const z,
    (h0.pow 2).div h1 hE⟩
  filter_upwards [eventually_ne_atTop 0, h1.eventually_ne hE] with n hn hEn
  rw [image_num env _ z (some n) _ _ (h n hn), if_neg hEn]

/-- The FDM with the averaged reflection coefficient tends to the FDM with its exact value. -/
theorem C63_fdm (env : Env) (hr : env.Rules) (e : ℂ) (L : List (ℂ × ℝ)) (sub : ℂ) (nu : Option ℝ) (b : ℝ → ℂ)
    (hb : ∀ q, 0 ≤ q → (layered e L sub nu).reflCoefQs (FP.num q) = .ok (FP.num (b q)))
    (z r l : ℝ) (g : ℂ) (d0 d1 dA : ℝ) (h0 : Fdm.GeomOk z d0 r l) (h1 : Fdm.GeomOk z d1 r l)
    (hz : 0 < z + r * dA) (B : ℂ) (hB : B = 4 * ((z + r * dA : ℝ) : ℂ) ^ 2 * reflected 1 b (z + r * dA))
    (hres : 1 - B * Fdm.geom z d1 r l g ≠ 0) :
    EvalTendsto (fun n : ℕ => Fdm.effPol env (layered e L sub nu) (some (FP.num z)) (fdmTip r l g d0 d1 dA)
      (some n) (some "Q_ave")) atTop
      (1 + B * Fdm.geom z d0 r l g / (2 * (1 - B * Fdm.geom z d1 r l g))) := by
  obtain ⟨f, hf, hlim⟩ := C63_average env hr e L sub nu b hb _ hz
  rw [← hB] at hlim
  have hd := (hlim.mul_const (Fdm.geom z d1 r l g)).const_sub 1
  refine ⟨_, ?_, ((hlim.mul_const (Fdm.geom z d0 r l g)).div (hd.const_mul 2)
    (mul_ne_zero two_ne_zero hres)).const_add 1⟩
  filter_upwards [hf, hd.eventually_ne hres] with n hn hne
  rw [Fdm.effPol_Qave]
  simp only [Option.getD_some, fdm_fdmTip, FP.num_mul, FP.num_add, hn, PyM.ok_bind]
  rw [Fdm.geomFunc_num h0, Fdm.geomFunc_num h1, Fdm.formula_num _ _ _ _ hne]
  rfl

/-- A passive film at any order of the quadrature. -/
example (d : Defaults) : ∃ v, EvalTendsto (fun n : ℕ => (layered ((1 : ℝ) : ℂ) [(⟨-2, 1⟩, 30)] 11.7).reflCoefQsAboveSurf
    (exactRules d) (FP.num 3) (some n)) atTop v := by
  obtain ⟨b, hb⟩ := passive_finite 1 [(⟨-2, 1⟩, 30)] 11.7 none one_pos
    (by intro l hl; simp only [List.mem_singleton] at hl; subst hl; simp [Passive])
    (Or.inr (by norm_num))
  exact ⟨_, C63_average (exactRules d) (exactRules_ok d) _ _ _ none b hb 3 (by norm_num)⟩

/-! ## C64 From far away a layered sample looks like its substrate -/

/-- The momenta of the quadrature tend to zero. -/
theorem sum_tendsto (rule : List (ℝ × ℝ)) (hp : ∀ xw ∈ rule, 0 < xw.1) (c : ℝ × ℝ → ℝ) (b : ℝ → ℂ)
    (hb : ContinuousOn b (Ici 0)) :
    Tendsto (fun z : ℝ => (rule.map fun xw => (c xw : ℂ) * b (xw.1 / (2 * z))).sum) atTop
      (𝓝 (((rule.map c).sum : ℝ) * b 0)) := by
  induction rule with
  | nil => simp
  | cons a l ih =>
    simp only [List.map_cons, List.sum_cons, Complex.ofReal_add, add_mul]
    refine Tendsto.add (Tendsto.const_mul _ ?_) (ih fun xw hxw => hp xw (by simp [hxw]))
    have h1 : Tendsto (fun z : ℝ => a.1 / (2 * z)) atTop (𝓝[Ici 0] 0) := by
      refine tendsto_nhdsWithin_iff.2 ⟨Tendsto.div_atTop tendsto_const_nhds
        (tendsto_id.const_mul_atTop two_pos), ?_⟩
      filter_upwards [eventually_gt_atTop 0] with z hz
      exact div_nonneg (hp a (by simp)).le (by positivity)
    exact (hb 0 self_mem_Ici).tendsto.comp h1

/-- The reflection coefficient at zero momentum. -/
theorem refl_zero (e : ℂ) (L : List (ℂ × ℝ)) (sub : ℂ) (nu : Option ℝ) (b : ℂ)
    (hb : (layered e L sub nu).reflCoefQs (FP.num 0) = .ok (FP.num b)) :
    sub + e ≠ 0 ∧ b = (sub - e) / (sub + e) := by
  have hne : ¬ ((∃ l ∈ L, l.1 = 0) ∨ sub = 0) := by
    intro h
    unfold Stack.reflCoefQs at hb
    rw [transferMatrixQs_zero e L sub nu _ h, PyM.ok_bind] at hb
    simp only [nanMat, FP.nan_div, PyM.pure_eq_ok] at hb
    cases hb
  simp only [not_or, not_exists, not_and] at hne
  have h1 : (layered e L sub nu).reflCoefQs (FP.num 0) = (bulk e sub nu).reflCoefQs := C10_layers e L sub nu hne.1
  by_cases h : sub + e = 0
  · rw [h1] at hb
    have h2 : (bulk e sub nu).reflCoefQs = .ok FP.nan := (C09_pole e sub nu 0 (Or.inl h)).1
    rw [h2] at hb
    cases hb
  · rw [h1, C09_refl e sub nu _ hne.2 h] at hb
    exact ⟨h, (FP.num.inj (Except.ok.inj hb)).symm⟩

theorem C64_average (env : Env) (nLag : Option ℕ) (hr : env.RuleOk nLag) (e : ℂ) (L : List (ℂ × ℝ)) (sub : ℂ)
    (nu : Option ℝ) (b : ℝ → ℂ)
    (hb : ∀ q, 0 ≤ q → (layered e L sub nu).reflCoefQs (FP.num q) = .ok (FP.num (b q))) :
    EvalTendsto (fun z : ℝ => (layered e L sub nu).reflCoefQsAboveSurf env (FP.num z) nLag) atTop
      ((sub - e) / (sub + e)) := by
  have h := sum_tendsto _ hr.2.node_pos (fun xw => xw.2 * xw.1) b (refl_regular e L sub nu b hb).1
  rw [hr.2.sum_wx hr.1, (refl_zero e L sub nu _ (hb 0 le_rfl)).2, Complex.ofReal_one, one_mul] at h
  refine ⟨_, ?_, h⟩
  filter_upwards [eventually_gt_atTop 0] with z hz
  exact aboveSurf_num env _ b z hz.ne' nLag hr.1 ⟨_, hb z hz.le⟩ fun xw hxw =>
    hb _ (div_nonneg (hr.2.node_pos xw hxw).le (by positivity))

theorem C64_image (env : Env) (nLag : Option ℕ) (hr : env.RuleOk nLag) (e : ℂ) (L : List (ℂ × ℝ)) (sub : ℂ)
    (nu : Option ℝ) (b : ℝ → ℂ)
    (hb : ∀ q, 0 ≤ q → (layered e L sub nu).reflCoefQs (FP.num q) = .ok (FP.num (b q))) (hne : sub ≠ e) :
    ∃ (d : ℝ → ℝ) (β : ℝ → ℂ), (∀ᶠ z in atTop, (layered e L sub nu).imageDepthAndCharge env (FP.num z) nLag =
        .ok (FP.num (d z), FP.num (β z))) ∧
      Tendsto (fun z => d z / z) atTop (𝓝 1) ∧ Tendsto β atTop (𝓝 ((sub - e) / (sub + e))) := by
  have hc := (refl_regular e L sub nu b hb).1
  have h0 := sum_tendsto _ hr.2.node_pos (fun xw => xw.2) b hc
  have h1 := sum_tendsto _ hr.2.node_pos (fun xw => xw.2 * xw.1) b hc
  rw [hr.2.sum_w hr.1, Complex.ofReal_one, one_mul] at h0
  rw [hr.2.sum_wx hr.1, Complex.ofReal_one, one_mul] at h1
  have hb0 := refl_zero e L sub nu _ (hb 0 le_rfl)
  have hB : b 0 ≠ 0 := by
    rw [hb0.2]
    exact div_ne_zero (sub_ne_zero.2 hne) hb0.1
  set S0 := fun z : ℝ => ((env.laggauss (nLag.getD env.defaults.nLag)).map fun xw =>
    ((xw.2 : ℝ) : ℂ) * b (xw.1 / (2 * z))).sum with hS0
  set S1 := fun z : ℝ => ((env.laggauss (nLag.getD env.defaults.nLag)).map fun xw =>
    ((xw.2 * xw.1 : ℝ) : ℂ) * b (xw.1 / (2 * z))).sum with hS1
  have hev := h1.eventually_ne hB
  refine ⟨fun z => z * (2 * ‖S0 z / S1 z‖ - 1), fun z => S0 z ^ 2 / S1 z, ?_, ?_, ?_⟩
  · filter_upwards [eventually_gt_atTop 0, hev] with z hz hS
    have hsurf := surf_num env (layered e L sub nu) b z hz.ne' nLag hr.1 ⟨_, hb z hz.le⟩ fun xw hxw =>
      hb _ (div_nonneg (hr.2.node_pos xw hxw).le (by positivity))
    have hz4 : ((4 * z ^ 2 : ℝ) : ℂ) ≠ 0 := by exact_mod_cast (by positivity : 4 * z ^ 2 ≠ 0)
    have hzc : (z : ℂ) ≠ 0 := by exact_mod_cast hz.ne'
    rw [image_num env _ z nLag _ _ hsurf, if_neg (div_ne_zero hS hz4)]
    change Except.ok (FP.num (‖S0 z / ((2 * z : ℝ) : ℂ) / (S1 z / ((4 * z ^ 2 : ℝ) : ℂ))‖ - z),
      FP.num ((S0 z / ((2 * z : ℝ) : ℂ)) ^ 2 / (S1 z / ((4 * z ^ 2 : ℝ) : ℂ)))) = _
    have hS' : S1 z ≠ 0 := hS
    generalize S0 z = u at *
    generalize S1 z = v at *
    have e1 : u / ((2 * z : ℝ) : ℂ) / (v / ((4 * z ^ 2 : ℝ) : ℂ)) = ((2 * z : ℝ) : ℂ) * (u / v) := by
      push_cast
      field_simp
      ring
    have e2 : (u / ((2 * z : ℝ) : ℂ)) ^ 2 / (v / ((4 * z ^ 2 : ℝ) : ℂ)) = u ^ 2 / v := by
      push_cast
      field_simp
      ring
    rw [e1, e2, norm_mul, Complex.norm_real, Real.norm_of_nonneg (by positivity)]
    ring_nf
  · have h2 : Tendsto (fun z => 2 * ‖S0 z / S1 z‖ - 1) atTop (𝓝 1) := by
      have := (((h0.div h1 hB).norm).const_mul 2).sub_const 1
      rw [div_self hB, norm_one, show (2 : ℝ) * 1 - 1 = 1 by norm_num] at this
      exact this
    refine h2.congr' ?_
    filter_upwards [eventually_gt_atTop 0] with z hz
    rw [mul_div_cancel_left₀ _ hz.ne']
  · have := (h0.pow 2).div h1 hB
    rw [sq, mul_div_cancel_left₀ _ hB, hb0.2] at this
    exact this

/-- Close to the surface only the top layer matters, up to the clipping of the exponentials. -/
theorem C64_contact (env : Env) (nLag : Option ℕ) (hr : env.RuleOk nLag) (e : ℝ) (eps : ℂ) (L : List (ℂ × ℝ))
    (sub : ℂ) (nu : Option ℝ) (h0 : 0 < e) (he : 0 < eps.re) (hL : ∀ l ∈ L, 0 < l.1.re ∧ 0 ≤ l.2) (hs : 0 < sub.re) :
    ∃ C : ℝ, ∀ t : ℝ, 0 < t → ∃ v : ℂ, ‖v - (eps - e) / (eps + e)‖ ≤ C * Real.exp (-2 * maxExpArg) ∧
      ∀ᶠ z in 𝓝[>] (0 : ℝ), (layered e ((eps, t) :: L) sub nu).reflCoefQsAboveSurf env (FP.num z) nLag =
        .ok (FP.num v) := by
  obtain ⟨C, hC⟩ := C17_exponential e eps L sub nu h0 he hL hs
  refine ⟨C, fun t ht => ?_⟩
  choose! b hb hbC using fun (q : ℝ) (hq : 0 ≤ q) => hC q t hq ht.le
  obtain ⟨-, l, hl⟩ := refl_regular e ((eps, t) :: L) sub nu b hb
  obtain ⟨Q, hQ⟩ := eventually_atTop.1 hl
  refine ⟨l, ?_, ?_⟩
  · obtain ⟨q, h1, h2, h3⟩ : ∃ q : ℝ, b q = l ∧ 0 ≤ q ∧ maxExpArg ≤ q * t := by
      refine ⟨max (max Q 0) (maxExpArg / t), hQ _ ((le_max_left _ _).trans (le_max_left _ _)),
        (le_max_right _ _).trans (le_max_left _ _), (div_le_iff₀ ht).1 (le_max_right _ _)⟩
    have := hbC q h2
    rwa [h1, min_eq_right h3] at this
  · have hev : ∀ᶠ z in 𝓝[>] (0 : ℝ), ∀ xw ∈ env.laggauss (nLag.getD env.defaults.nLag), Q ≤ xw.1 / (2 * z) := by
      have hpos := hr.2.node_pos
      generalize env.laggauss (nLag.getD env.defaults.nLag) = rule at hpos ⊢
      induction rule with
      | nil => simp
      | cons a r ih =>
        have h1 : Tendsto (fun z : ℝ => a.1 / (2 * z)) (𝓝[>] 0) atTop := by
          have h2 : Tendsto (fun z : ℝ => 2 * z) (𝓝[>] 0) (𝓝[>] 0) := by
            refine tendsto_nhdsWithin_iff.2 ⟨?_, ?_⟩
            · have : Tendsto (fun z : ℝ => 2 * z) (𝓝 0) (𝓝 (2 * 0)) := (continuous_const.mul continuous_id).tendsto 0
              rw [mul_zero] at this
              exact this.mono_left nhdsWithin_le_nhds
            · filter_upwards [self_mem_nhdsWithin] with z hz
              exact mul_pos two_pos (mem_Ioi.1 hz)
          exact (tendsto_inv_nhdsGT_zero.comp h2).const_mul_atTop (hpos a (by simp))
        filter_upwards [h1.eventually_ge_atTop Q, ih fun xw hxw => hpos xw (by simp [hxw])] with z h1 h2
        intro xw hxw
        rcases List.mem_cons.1 hxw with rfl | h
        · exact h1
        · exact h2 xw h
    filter_upwards [hev, self_mem_nhdsWithin] with z h1 hz
    have hz : 0 < z := hz
    rw [aboveSurf_num env _ b z hz.ne' nLag hr.1 ⟨_, hb z hz.le⟩ fun xw hxw =>
      hb _ (div_nonneg (hr.2.node_pos xw hxw).le (by positivity))]
    congr 2
    rw [List.map_congr_left (g := fun xw : ℝ × ℝ => ((xw.2 * xw.1 : ℝ) : ℂ) * l) fun xw hxw => by
      rw [hQ _ (h1 xw hxw)], sum_const_mul _ (fun xw => xw.2 * xw.1), hr.2.sum_wx hr.1]
    simp

example (d : Defaults) : EvalTendsto (fun z : ℝ => (layered ((1 : ℝ) : ℂ) [(⟨-2, 1⟩, 30)] 11.7).reflCoefQsAboveSurf
    (exactRules d) (FP.num z) (some 50)) atTop ((11.7 - (1 : ℝ)) / (11.7 + (1 : ℝ))) := by
  obtain ⟨b, hb⟩ := passive_finite 1 [(⟨-2, 1⟩, 30)] 11.7 none one_pos
    (by intro l hl; simp only [List.mem_singleton] at hl; subst hl; simp [Passive])
    (Or.inr (by norm_num))
  exact C64_average (exactRules d) (some 50) ⟨by simp, exactRules_ok d _ (by simp)⟩ _ _ _ none b hb

example (d : Defaults) := C64_contact (exactRules d) (some 50) ⟨by simp, exactRules_ok d _ (by simp)⟩ 1 2
  [(3, 4)] 11.7 none one_pos (by norm_num) (by simp) (by norm_num)

end Snompy.Props
