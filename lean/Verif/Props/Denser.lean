import Verif.Lemmas.Denser
import Verif.Props.DemodLayers
import Verif.Props.Electrostatics

/-!
# C132: samples whose permittivity increases with depth

The reflection decreases with the momentum, so that images lie deeper below the surface than the charges above it, and the default
method for layers always returns a number.
-/

namespace Snompy.Props

open Snompy Filter Topology

section

variable {e sub : ℝ} {L : List (ℝ × ℝ)}

theorem denser_ne_zero (h0 : 0 < e) (hinc : (e :: (L.map Prod.fst ++ [sub])).Pairwise (· ≤ ·)) :
    (∀ l ∈ L.map fun l => ((l.1 : ℂ), l.2), l.1 ≠ 0) ∧ (sub : ℂ) ≠ 0 := by
  refine ⟨fun l hl => ?_, Complex.ofReal_ne_zero.2 (by linarith [pairwise_sub hinc])⟩
  obtain ⟨a, ha, rfl⟩ := List.mem_map.1 hl
  have h1 : e ≤ a.1 := (List.pairwise_cons.1 hinc).1 a.1 (List.mem_append_left _ (List.mem_map_of_mem ha))
  exact Complex.ofReal_ne_zero.2 (by linarith)

theorem denser_refl (h0 : 0 < e) (hinc : (e :: (L.map Prod.fst ++ [sub])).Pairwise (· ≤ ·)) (nu : Option ℝ) (q : ℝ) :
    (layered e (L.map fun l => ((l.1 : ℂ), l.2)) sub nu).reflCoefQs (FP.num q) = .ok (FP.num (deepRefl q e L sub : ℂ)) := by
  obtain ⟨τ, h⟩ := deepRefl_stack (q := q) L e h0 hinc
  exact (C11_recursion e _ sub nu q (denser_ne_zero h0 hinc).1 (denser_ne_zero h0 hinc).2 _ _ h).1

/-- The reflection decreases with the momentum, from the reflection of the substrate alone; it never falls below the reflection of the
first interface. -/
theorem C132_reflection (e : ℝ) (L : List (ℝ × ℝ)) (sub : ℝ) (nu : Option ℝ) (h0 : 0 < e)
    (hinc : (e :: (L.map Prod.fst ++ [sub])).Pairwise (· ≤ ·)) (ht : ∀ l ∈ L, 0 ≤ l.2) :
    ∃ b : ℝ → ℝ, (∀ q, (layered e (L.map fun l => ((l.1 : ℂ), l.2)) sub nu).reflCoefQs (FP.num q) = .ok (FP.num (b q : ℂ))) ∧
      (∀ p q, p ≤ q → b q ≤ b p) ∧ b 0 = (sub - e) / (sub + e) ∧
      ∀ q, ((L.map Prod.fst).headD sub - e) / ((L.map Prod.fst).headD sub + e) ≤ b q ∧ (e < sub → 0 < b q) :=
  ⟨fun q => deepRefl q e L sub, denser_refl h0 hinc nu, fun _ _ h => deepRefl_anti h L e h0 hinc ht, deepRefl_zero L e h0 hinc,
    fun _ => ⟨deepRefl_ge h0 hinc, (deepRefl_mem L e h0 hinc).2⟩⟩

example := C132_reflection 1 [(2, 50), (3, 20)] 11 none one_pos (by norm_num) (by simp)

variable {env : Env} {nLag : Option ℕ}

/-- The sums over the rule. -/
noncomputable def denserSum (env : Env) (nLag : Option ℕ) (k : ℕ) (e : ℝ) (L : List (ℝ × ℝ)) (sub z : ℝ) : ℝ :=
  ((env.laggauss (nLag.getD env.defaults.nLag)).map fun xw => xw.2 * xw.1 ^ k * deepRefl (xw.1 / (2 * z)) e L sub).sum

theorem denserSum_mono (hr : env.RuleOk nLag) (h0 : 0 < e) (hinc : (e :: (L.map Prod.fst ++ [sub])).Pairwise (· ≤ ·))
    (ht : ∀ l ∈ L, 0 ≤ l.2) (k : ℕ) {y z : ℝ} (hy : 0 < y) (hyz : y ≤ z) :
    denserSum env nLag k e L sub y ≤ denserSum env nLag k e L sub z :=
  rule_sum_mono fun xw hxw => mul_le_mul_of_nonneg_left
    (deepRefl_anti (div_le_div_of_nonneg_left (hr.2.node_pos xw hxw).le (by linarith) (by linarith)) L e h0 hinc ht)
    (mul_nonneg (hr.2.weight_pos xw hxw).le (pow_nonneg (hr.2.node_pos xw hxw).le k))

theorem denserSum_bounds (hr : env.RuleOk nLag) (h0 : 0 < e) (hinc : (e :: (L.map Prod.fst ++ [sub])).Pairwise (· ≤ ·))
    (ht : ∀ l ∈ L, 0 ≤ l.2) {k : ℕ} (hk : k ≤ 1) {z : ℝ} (hz : 0 < z) :
    ((L.map Prod.fst).headD sub - e) / ((L.map Prod.fst).headD sub + e) ≤ denserSum env nLag k e L sub z ∧
      denserSum env nLag k e L sub z ≤ (sub - e) / (sub + e) := by
  have hn := hr.1
  have h1 : ((env.laggauss (nLag.getD env.defaults.nLag)).map fun xw => xw.2 * xw.1 ^ k).sum = 1 := by
    obtain ⟨m0, m1⟩ := rule_moments hr.1 hr.2
    interval_cases k
    · simpa using m0
    · simpa using m1
  have hw : ∀ xw ∈ env.laggauss (nLag.getD env.defaults.nLag), 0 ≤ xw.2 * xw.1 ^ k := fun xw hxw =>
    mul_nonneg (hr.2.weight_pos xw hxw).le (pow_nonneg (hr.2.node_pos xw hxw).le k)
  constructor
  · have := rule_sum_mono fun xw hxw => mul_le_mul_of_nonneg_left (deepRefl_ge (q := xw.1 / (2 * z)) h0 hinc) (hw xw hxw)
    rw [List.sum_map_mul_right, h1, one_mul] at this
    exact this
  · have := rule_sum_mono fun xw hxw => mul_le_mul_of_nonneg_left
      (deepRefl_anti (p := 0) (div_nonneg (hr.2.node_pos xw hxw).le (by linarith : (0 : ℝ) ≤ 2 * z)) L e h0 hinc ht) (hw xw hxw)
    rw [List.sum_map_mul_right, h1, one_mul, deepRefl_zero L e h0 hinc] at this
    exact this

theorem denserSum_pos (hr : env.RuleOk nLag) (h0 : 0 < e) (hinc : (e :: (L.map Prod.fst ++ [sub])).Pairwise (· ≤ ·))
    (hlt : e < sub) (k : ℕ) (z : ℝ) : 0 < denserSum env nLag k e L sub z := by
  refine List.sum_pos _ (fun y hy => ?_) ?_
  · obtain ⟨xw, hxw, rfl⟩ := List.mem_map.1 hy
    exact mul_pos (mul_pos (hr.2.weight_pos xw hxw) (pow_pos (hr.2.node_pos xw hxw) k)) ((deepRefl_mem L e h0 hinc).2 hlt)
  · intro h
    have := congrArg List.length h
    rw [List.length_map, hr.2.length] at this
    exact hr.1 this

theorem denserSum_cast (k : ℕ) (z : ℝ) : ((env.laggauss (nLag.getD env.defaults.nLag)).map fun xw =>
    ((xw.2 * xw.1 ^ k : ℝ) : ℂ) * (deepRefl (xw.1 / (2 * z)) e L sub : ℂ)).sum = (denserSum env nLag k e L sub z : ℂ) := by
  unfold denserSum
  rw [← rule_sum_ofReal]
  congr 1
  refine List.map_congr_left fun xw _ => ?_
  push_cast
  rfl

theorem denser_average (hr : env.RuleOk nLag) (h0 : 0 < e) (hinc : (e :: (L.map Prod.fst ++ [sub])).Pairwise (· ≤ ·)) (nu : Option ℝ)
    {z : ℝ} (hz : 0 < z) :
    (layered e (L.map fun l => ((l.1 : ℂ), l.2)) sub nu).reflCoefQsAboveSurf env (FP.num z) nLag =
      .ok (FP.num (denserSum env nLag 1 e L sub z : ℂ)) := by
  rw [aboveSurf_num env _ (fun q => (deepRefl q e L sub : ℂ)) z hz.ne' nLag hr.1 ⟨_, denser_refl h0 hinc nu z⟩
    fun xw _ => denser_refl h0 hinc nu _, ← denserSum_cast]
  simp only [pow_one]

/-- The charge average increases with the height of the charge. -/
theorem C132_average (env : Env) (e : ℝ) (L : List (ℝ × ℝ)) (sub : ℝ) (nu : Option ℝ) (h0 : 0 < e)
    (hinc : (e :: (L.map Prod.fst ++ [sub])).Pairwise (· ≤ ·)) (ht : ∀ l ∈ L, 0 ≤ l.2) (nLag : Option ℕ) (hr : env.RuleOk nLag) :
    ∃ A : ℝ → ℝ, (∀ z > 0, (layered e (L.map fun l => ((l.1 : ℂ), l.2)) sub nu).reflCoefQsAboveSurf env (FP.num z) nLag =
        .ok (FP.num (A z : ℂ))) ∧
      (∀ y z, 0 < y → y ≤ z → A y ≤ A z) ∧
      ∀ z > 0, ((L.map Prod.fst).headD sub - e) / ((L.map Prod.fst).headD sub + e) ≤ A z ∧ A z ≤ (sub - e) / (sub + e) :=
  ⟨denserSum env nLag 1 e L sub, fun _ hz => denser_average hr h0 hinc nu hz, fun _ _ hy hyz => denserSum_mono hr h0 hinc ht 1 hy hyz,
    fun _ hz => denserSum_bounds hr h0 hinc ht le_rfl hz⟩

example (d : Defaults) := C132_average (rule2 d) 1 [(2, 50), (3, 20)] 11 none one_pos (by norm_num) (by simp) (some 2) (rule2_ok d)

theorem denser_image (hr : env.RuleOk nLag) (h0 : 0 < e) (hinc : (e :: (L.map Prod.fst ++ [sub])).Pairwise (· ≤ ·)) (nu : Option ℝ)
    (hlt : e < sub) {z : ℝ} (hz : 0 < z) :
    (layered e (L.map fun l => ((l.1 : ℂ), l.2)) sub nu).imageDepthAndCharge env (FP.num z) nLag =
      .ok (FP.num (2 * z * (denserSum env nLag 0 e L sub z / denserSum env nLag 1 e L sub z) - z),
        FP.num ((denserSum env nLag 0 e L sub z ^ 2 / denserSum env nLag 1 e L sub z : ℝ) : ℂ)) := by
  have p0 := denserSum_pos hr h0 hinc hlt 0 z
  have p1 := denserSum_pos hr h0 hinc hlt 1 z
  have hs := surf_num env _ (fun q => (deepRefl q e L sub : ℂ)) z hz.ne' nLag hr.1 ⟨_, denser_refl h0 hinc nu z⟩
    fun xw _ => denser_refl h0 hinc nu _
  have c0 := denserSum_cast (env := env) (nLag := nLag) (e := e) (L := L) (sub := sub) 0 z
  have c1 := denserSum_cast (env := env) (nLag := nLag) (e := e) (L := L) (sub := sub) 1 z
  simp only [pow_zero, mul_one] at c0
  simp only [pow_one] at c1
  rw [c0, c1] at hs
  rw [image_num env _ z nLag _ _ hs]
  set S0 := denserSum env nLag 0 e L sub z
  set S1 := denserSum env nLag 1 e L sub z
  have z1 : (4 * z ^ 2 : ℝ) ≠ 0 := by positivity
  have z2 : (2 * z : ℝ) ≠ 0 := by positivity
  have hne : (S1 : ℂ) / ((4 * z ^ 2 : ℝ) : ℂ) ≠ 0 := div_ne_zero (Complex.ofReal_ne_zero.2 p1.ne') (Complex.ofReal_ne_zero.2 z1)
  have e1 : (S0 : ℂ) / ((2 * z : ℝ) : ℂ) / ((S1 : ℂ) / ((4 * z ^ 2 : ℝ) : ℂ)) = ((2 * z * (S0 / S1) : ℝ) : ℂ) := by
    rw [← Complex.ofReal_div, ← Complex.ofReal_div, ← Complex.ofReal_div]
    congr 1
    field_simp
    ring
  have e2 : ((S0 : ℂ) / ((2 * z : ℝ) : ℂ)) ^ 2 / ((S1 : ℂ) / ((4 * z ^ 2 : ℝ) : ℂ)) = ((S0 ^ 2 / S1 : ℝ) : ℂ) := by
    rw [← Complex.ofReal_div, ← Complex.ofReal_div, ← Complex.ofReal_pow, ← Complex.ofReal_div]
    congr 1
    field_simp
    ring
  rw [if_neg hne, e1, e2, Complex.norm_real, Real.norm_of_nonneg (by positivity)]

theorem denser_cheb (hr : env.RuleOk nLag) (h0 : 0 < e) (hinc : (e :: (L.map Prod.fst ++ [sub])).Pairwise (· ≤ ·))
    (ht : ∀ l ∈ L, 0 ≤ l.2) {z : ℝ} (hz : 0 < z) : denserSum env nLag 1 e L sub z ≤ denserSum env nLag 0 e L sub z := by
  have := rule_chebyshev hr.1 hr.2 (b := fun x => deepRefl (x / (2 * z)) e L sub) fun x y _ hxy =>
    deepRefl_anti (div_le_div_of_nonneg_right hxy (by linarith)) L e h0 hinc ht
  simpa only [denserSum, pow_zero, pow_one, mul_one] using this

/-- The image lies at least as far below the surface as the charge above it, and its charge is at least the charge average. -/
theorem C132_image (env : Env) (e : ℝ) (L : List (ℝ × ℝ)) (sub : ℝ) (nu : Option ℝ) (h0 : 0 < e)
    (hinc : (e :: (L.map Prod.fst ++ [sub])).Pairwise (· ≤ ·)) (hlt : e < sub) (ht : ∀ l ∈ L, 0 ≤ l.2) (nLag : Option ℕ)
    (hr : env.RuleOk nLag) (z : ℝ) (hz : 0 < z) :
    ∃ d c A : ℝ, (layered e (L.map fun l => ((l.1 : ℂ), l.2)) sub nu).imageDepthAndCharge env (FP.num z) nLag =
        .ok (FP.num d, FP.num (c : ℂ)) ∧
      (layered e (L.map fun l => ((l.1 : ℂ), l.2)) sub nu).reflCoefQsAboveSurf env (FP.num z) nLag = .ok (FP.num (A : ℂ)) ∧
      z ≤ d ∧ 0 < A ∧ A ≤ c ∧
      (e < (L.map Prod.fst).headD sub → ∀ top, top = ((L.map Prod.fst).headD sub - e) / ((L.map Prod.fst).headD sub + e) →
        d ≤ z * (2 * ((sub - e) / (sub + e)) / top - 1) ∧ c ≤ ((sub - e) / (sub + e)) ^ 2 / top) := by
  have p0 := denserSum_pos hr h0 hinc hlt 0 z
  have p1 := denserSum_pos hr h0 hinc hlt 1 z
  have hc := denser_cheb hr h0 hinc ht hz
  obtain ⟨-, b0⟩ := denserSum_bounds hr h0 hinc ht zero_le_one hz
  obtain ⟨b1, -⟩ := denserSum_bounds hr h0 hinc ht le_rfl hz
  refine ⟨_, _, _, denser_image hr h0 hinc nu hlt hz, denser_average hr h0 hinc nu hz, ?_, p1, ?_, ?_⟩
  · have : 1 ≤ denserSum env nLag 0 e L sub z / denserSum env nLag 1 e L sub z := by rwa [one_le_div p1]
    nlinarith
  · rw [le_div_iff₀ p1]
    nlinarith
  · rintro htop top rfl
    set top := ((L.map Prod.fst).headD sub - e) / ((L.map Prod.fst).headD sub + e)
    have hp : 0 < top := div_pos (by linarith) (by linarith)
    constructor
    · have : denserSum env nLag 0 e L sub z / denserSum env nLag 1 e L sub z ≤ (sub - e) / (sub + e) / top :=
        div_le_div₀ (p0.le.trans b0) b0 hp b1
      have h2 := mul_le_mul_of_nonneg_left this (by linarith : 0 ≤ 2 * z)
      have e3 : z * (2 * ((sub - e) / (sub + e)) / top - 1) = 2 * z * ((sub - e) / (sub + e) / top) - z := by ring
      linarith
    · exact div_le_div₀ (by positivity) (pow_le_pow_left₀ p0.le b0 2) hp b1

example (d : Defaults) := C132_image (rule2 d) 1 [(2, 50), (3, 20)] 11 none one_pos (by norm_num) (by norm_num) (by simp) (some 2)
  (rule2_ok d) 30 (by norm_num)

/-- Method `multi` with real image charges and an image depth in the domain of the logarithm. -/
theorem multi_number (env : Env) (s : Stack (FP ℝ) (FP ℂ)) (nLag : Option ℕ) (z r l : ℝ) (g : ℂ) (d0 d1 dA : ℝ) (hg : g.im ≠ 0)
    (hrp : 0 < r) (hlp : 0 < l) (hne : r ≠ 4 * l) (m : Option String) (hm : m = some "multi" ∨ m = none ∧ s.multilayer = true)
    (D0 D1 c0 c1 : ℝ) (i0 : s.imageDepthAndCharge env (FP.num (z + r * d0)) nLag = .ok (FP.num D0, FP.num (c0 : ℂ)))
    (i1 : s.imageDepthAndCharge env (FP.num (z + r * d1)) nLag = .ok (FP.num D1, FP.num (c1 : ℂ)))
    (p0 : 0 < r + 2 * z + 2 * D0) (p1 : 0 < r + 2 * z + 2 * D1) :
    ∃ v : ℂ, Fdm.effPol env s (some (FP.num z)) (fdmTip r l g d0 d1 dA) nLag m = .ok (FP.num v) := by
  have hdef : Fdm.effPol env s (some (FP.num z)) (fdmTip r l g d0 d1 dA) nLag m =
      Fdm.effPol env s (some (FP.num z)) (fdmTip r l g d0 d1 dA) nLag (some "multi") := by
    rcases hm with rfl | ⟨rfl, hL⟩
    · rfl
    · rw [Fdm.effPol_default, hL]
      rfl
  have hD : 1 - (c1 : ℂ) * depthGeom z D1 r l g ≠ 0 := by
    intro h
    have him := congrArg Complex.im h
    have hre := congrArg Complex.re h
    unfold depthGeom at him hre
    rw [mul_div_assoc, ← Complex.ofReal_div] at him hre
    set t := Real.log (4 * l / (r + 2 * z + 2 * D1)) / Real.log (4 * l / r)
    simp only [Complex.sub_im, Complex.sub_re, Complex.one_im, Complex.one_re, Complex.re_ofReal_mul, Complex.im_ofReal_mul,
      Complex.re_mul_ofReal, Complex.im_mul_ofReal, Complex.ofReal_im, Complex.ofReal_re, Complex.zero_im, Complex.zero_re] at him hre
    have : c1 * t = 0 := by
      have : g.im * (c1 * t) = 0 := by linarith
      exact (mul_eq_zero.1 this).resolve_left hg
    have h2 : c1 * ((g.re - (r + z + D1) / (2 * l)) * t) = (g.re - (r + z + D1) / (2 * l)) * (c1 * t) := by ring
    rw [h2, this] at hre
    norm_num at hre
  rw [hdef, Fdm.effPol_multi env, fdm_fdmTip]
  simp only [Option.getD_some, FP.num_mul, FP.num_add]
  rw [i0, PyM.ok_bind, i1, PyM.ok_bind, depthGeom_num hrp hlp hne p0, depthGeom_num hrp hlp hne p1, Fdm.formula_num _ _ _ _ hD]
  exact ⟨_, rfl⟩

/-- The default method for layers returns a number. -/
theorem C132_number (env : Env) (e : ℝ) (L : List (ℝ × ℝ)) (sub : ℝ) (nu : Option ℝ) (h0 : 0 < e)
    (hinc : (e :: (L.map Prod.fst ++ [sub])).Pairwise (· ≤ ·)) (hlt : e < sub) (ht : ∀ l ∈ L, 0 ≤ l.2) (nLag : Option ℕ)
    (hr : env.RuleOk nLag) (z r l : ℝ) (g : ℂ) (d0 d1 dA : ℝ) (hg : g.im ≠ 0) (hrp : 0 < r) (hlp : 0 < l) (hne : r ≠ 4 * l)
    (hz : 0 ≤ z) (k0 : 0 < d0) (k1 : 0 < d1) (m : Option String) (hm : m = some "multi" ∨ m = none ∧ L ≠ []) :
    ∃ v : ℂ, Fdm.effPol env (layered e (L.map fun l => ((l.1 : ℂ), l.2)) sub nu) (some (FP.num z)) (fdmTip r l g d0 d1 dA) nLag m =
      .ok (FP.num v) := by
  have q0 : 0 < z + r * d0 := by positivity
  have q1 : 0 < z + r * d1 := by positivity
  obtain ⟨D0, c0, -, i0, -, s0, -, -, -⟩ := C132_image env e L sub nu h0 hinc hlt ht nLag hr (z + r * d0) q0
  obtain ⟨D1, c1, -, i1, -, s1, -, -, -⟩ := C132_image env e L sub nu h0 hinc hlt ht nLag hr (z + r * d1) q1
  exact multi_number env _ nLag z r l g d0 d1 dA hg hrp hlp hne m (by
    rcases hm with rfl | ⟨rfl, hL⟩
    · exact .inl rfl
    · refine .inr ⟨rfl, ?_⟩
      cases L with
      | nil => exact absurd rfl hL
      | cons a L => simp [layered, Stack.multilayer, Stack.nLayers]) D0 D1 c0 c1 i0 i1 (by linarith) (by linarith)

example (d : Defaults) := C132_number (rule2 d) 1 [(2, 50), (3, 20)] 11 none one_pos (by norm_num) (by norm_num) (by simp) (some 2)
  (rule2_ok d) 0 20 300 ⟨0.7, 0.04⟩ 1 0.5 1.4 (by norm_num) (by norm_num) (by norm_num) (by norm_num) le_rfl one_pos (by norm_num) none
  (.inr ⟨rfl, by simp⟩)

/-- Hence `eff_pol_n` converges geometrically with the number of samples. -/
theorem C132_demod (env : Env) (e : ℝ) (L : List (ℝ × ℝ)) (sub : ℝ) (nu : Option ℝ) (h0 : 0 < e)
    (hinc : (e :: (L.map Prod.fst ++ [sub])).Pairwise (· ≤ ·)) (hlt : e < sub) (ht : ∀ l ∈ L, 0 ≤ l.2) (nLag : Option ℕ)
    (hr : env.RuleOk nLag) (z amp r l : ℝ) (g : ℂ) (d0 d1 dA : ℝ) (hA : 0 < amp) (hg : g.im ≠ 0) (hrp : 0 < r) (hlp : 0 < l)
    (hne : r ≠ 4 * l) (hz : 0 ≤ z) (k0 : 0 < d0) (k1 : 0 < d1) (m : Option String) (hm : m = some "multi" ∨ m = none ∧ L ≠ [])
    (hthin : ∀ x ∈ L, (4 * ((nLag.getD env.defaults.nLag : ℕ) : ℝ) - 2) * x.2 ≤ 1418 * (z + r * min d0 d1)) (n : ℤ) :
    ∃ f : ℝ → ℂ, (∀ x, z ≤ x → x ≤ z + 2 * amp →
        Fdm.effPol env (layered e (L.map fun l => ((l.1 : ℂ), l.2)) sub nu) (some (FP.num x)) (fdmTip r l g d0 d1 dA) nLag m =
          .ok (FP.num (f x))) ∧
      ∃ ρ > 0, ∃ C : ℝ, ∀ N : ℕ, N ≠ 0 →
        ∃ v, Fdm.effPolN env (layered e (L.map fun l => ((l.1 : ℂ), l.2)) sub nu) (FP.num amp) (FP.num n) (some (FP.num z)) (some N)
            (fdmTip r l g d0 d1 dA) nLag m = .ok (FP.num v) ∧
          ‖v - lockin f (z + amp) amp n‖ ≤ C * Real.exp (-(ρ * N)) := by
  have hmin : ∀ d, d = d0 ∨ d = d1 → 0 < d ∧ min d0 d1 ≤ d := by
    rintro d (rfl | rfl)
    · exact ⟨k0, min_le_left _ _⟩
    · exact ⟨k1, min_le_right _ _⟩
  have hk : ∀ d, d = d0 ∨ d = d1 → NoKink env nLag (L.map fun l => ((l.1 : ℂ), l.2)) (z + r * d) (z + 2 * amp + r * d) := fun d hd => by
    obtain ⟨hd0, hd1⟩ := hmin d hd
    refine NoKink.of_thin hr (by positivity) fun x hx => ?_
    obtain ⟨a, ha, rfl⟩ := List.mem_map.1 hx
    refine ⟨ht a ha, (hthin a ha).trans ?_⟩
    have := mul_le_mul_of_nonneg_left hd1 hrp.le
    linarith
  refine C131_image env e sub _ nu z amp r l g d0 d1 dA hA nLag m (hm.imp id fun h => ⟨h.1, by simpa using h.2⟩) (hk d0 (.inl rfl))
    (hk d1 (.inr rfl)) (fun x h1 h2 d hd t h => ?_) (fun x h1 h2 =>
      C132_number env e L sub nu h0 hinc hlt ht nLag hr x r l g d0 d1 dA hg hrp hlp hne (hz.trans h1) k0 k1 m hm) n
  have hd0 := (hmin d hd).1
  obtain ⟨D, c, A, i, -, -, hA0, hAc, -⟩ := C132_image env e L sub nu h0 hinc hlt ht nLag hr (x + r * d)
    (by have := hz.trans h1; positivity)
  have h' := FP.num.inj (Prod.mk.inj (Except.ok.inj (i.symm.trans h))).2
  have : c = 0 := by exact_mod_cast h'
  linarith

example (d : Defaults) := C132_demod (rule2 d) 1 [(2, 50), (3, 20)] 11 none one_pos (by norm_num) (by norm_num) (by simp) (some 2)
  (rule2_ok d) 0 50 20 300 ⟨0.7, 0.04⟩ 1 0.5 1.4 (by norm_num) (by norm_num) (by norm_num) (by norm_num) (by norm_num) le_rfl one_pos
  (by norm_num) none (.inr ⟨rfl, by simp⟩) (by norm_num) 3

/-- All defaults, above dielectric layers of at most 100 nm: no method is named, so that `multi` is used. -/
theorem C132_default (lag : ℕ → List (ℝ × ℝ)) (hlag : Env.RuleOk ⟨Defaults.initial, lag⟩ none) (e : ℝ) (L : List (ℝ × ℝ)) (sub : ℝ)
    (nu : Option ℝ) (h0 : 0 < e) (hinc : (e :: (L.map Prod.fst ++ [sub])).Pairwise (· ≤ ·)) (hlt : e < sub) (hL : L ≠ [])
    (ht : ∀ l ∈ L, 0 ≤ l.2 ∧ l.2 ≤ 100e-9) (amp z : ℝ) (hA : 0 < amp) (hz : 0 ≤ z) (n : ℤ) :
    ∃ f : ℝ → ℂ, (∀ x, z ≤ x → x ≤ z + 2 * amp →
        Fdm.effPol ⟨Defaults.initial, lag⟩ (layered e (L.map fun l => ((l.1 : ℂ), l.2)) sub nu) (some (FP.num x)) {} none none =
          .ok (FP.num (f x))) ∧
      ∃ ρ > 0, ∃ C : ℝ, ∀ N : ℕ, N ≠ 0 →
        ∃ v, Fdm.effPolN ⟨Defaults.initial, lag⟩ (layered e (L.map fun l => ((l.1 : ℂ), l.2)) sub nu) (FP.num amp) (FP.num n)
            (some (FP.num z)) (some N) {} none none = .ok (FP.num v) ∧
          ‖v - lockin f (z + amp) amp n‖ ≤ C * Real.exp (-(ρ * N)) := by
  set env : Env := ⟨Defaults.initial, lag⟩ with henv
  obtain ⟨g0, g0'⟩ := d0_default
  set d0 : ℝ := 1.31 * 300e-9 / (300e-9 + 2 * 20e-9) with hd0
  have hgi : gDefault.im ≠ 0 := by
    have := gDefault_im 0
    rw [Complex.sub_im, Complex.ofReal_im, sub_zero] at this
    rw [this]
    exact (mul_pos (by norm_num) (Real.sin_pos_of_pos_of_lt_pi (by norm_num) (by linarith [Real.pi_gt_three]))).ne'
  have hmin : min d0 0.5 = 0.5 := min_eq_right (le_trans (by norm_num) g0)
  have hfill : env.defaults.fdm ({} : FdmArgs (FP ℝ) (FP ℂ)) = env.defaults.fdm (fdmTip 20e-9 300e-9 gDefault d0 0.5 1.4) :=
    fdm_default lag
  have key := C132_demod env e L sub nu h0 hinc hlt (fun l hl => (ht l hl).1) none hlag z amp 20e-9 300e-9 gDefault d0 0.5 1.4 hA hgi
    (by norm_num) (by norm_num) (by norm_num) hz (lt_of_lt_of_le (by norm_num) g0) (by norm_num) none (.inr ⟨rfl, hL⟩) (fun l hl => by
      obtain ⟨h1, h2⟩ := ht l hl
      have hn : (((none : Option ℕ).getD env.defaults.nLag : ℕ) : ℝ) = 32 := by
        have : (none : Option ℕ).getD env.defaults.nLag = 32 := rfl
        rw [this]
        norm_num
      rw [hn, hmin]
      norm_num at h2 ⊢
      linarith) n
  have h1 : ∀ x m, Fdm.effPol env (layered e (L.map fun l => ((l.1 : ℂ), l.2)) sub nu) x {} none m =
      Fdm.effPol env (layered e (L.map fun l => ((l.1 : ℂ), l.2)) sub nu) x (fdmTip 20e-9 300e-9 gDefault d0 0.5 1.4) none m :=
    fun x m => by
      unfold Fdm.effPol
      rw [hfill]
  have h2 : ∀ (N : ℕ) m, Fdm.effPolN env (layered e (L.map fun l => ((l.1 : ℂ), l.2)) sub nu) (FP.num amp) (FP.num n)
      (some (FP.num z)) (some N) {} none m =
      Fdm.effPolN env (layered e (L.map fun l => ((l.1 : ℂ), l.2)) sub nu) (FP.num amp) (FP.num n) (some (FP.num z)) (some N)
        (fdmTip 20e-9 300e-9 gDefault d0 0.5 1.4) none m := fun N m => by
    unfold Fdm.effPolN
    simp only [h1]
  simp only [h1, h2]
  exact key

/-- An oxide on a semiconductor. -/
example := C132_default Laguerre.rule ⟨by decide, Laguerre.gaussLaguerre_rule (by decide)⟩ 1 [(2, 100e-9)] 11 none one_pos
  (by norm_num) (by norm_num) (by simp) (by norm_num) 50e-9 0 (by norm_num) le_rfl 3

end

end Snompy.Props
