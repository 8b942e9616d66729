import Verif.Lemmas.Thinner
import Verif.Props.Raised

/-!
# C134: samples whose permittivity decreases with depth, below a thinner environment

The reflection increases with the momentum, but not faster than linearly, so that images lie between the surface and the mirror
positions of the charges, and the default method for layers always returns a number.
-/

namespace Snompy.Props

open Snompy

section

variable {e sub : ℝ} {L : List (ℝ × ℝ)}

theorem Thins.pos (h : Thins L sub) (h0 : 0 < sub) : ∀ l ∈ L, 0 < l.1 ∧ 0 ≤ l.2 := fun l hl => ⟨h0.trans_le (h.ge l hl), h.2 l hl⟩

/-- There is a denser medium below the surface. -/
def Contrast (e : ℝ) (L : List (ℝ × ℝ)) (sub : ℝ) : Prop := e < sub ∨ (∀ l ∈ L, 0 < l.2) ∧ ∃ l ∈ L, e < l.1

theorem thins_gt (h : Thins L sub) (he : 0 < e) (hes : e ≤ sub) (hc : Contrast e L sub) {q : ℝ} (hq : 0 < q) : e < realEff q L sub := by
  rcases hc with hc | ⟨ht, l, hl, hlt⟩
  · have h0 : 0 < sub := by linarith
    exact hc.trans_le (realEff_between hq.le h0 ⟨le_rfl, le_max_left sub ((L.map Prod.fst).foldr max sub)⟩ fun l hl =>
      ⟨h.ge l hl, by
        refine le_max_of_le_right ?_
        clear h hc hes h0
        induction L with
        | nil => simp at hl
        | cons a L ih =>
          rw [List.map_cons, List.foldr_cons]
          rcases List.mem_cons.1 hl with rfl | hl
          · exact le_max_left _ _
          · exact le_max_of_le_right (ih hl), h.2 l hl⟩).1
  · have hF : List.Forall₂ Raised (L.map fun l => (e, l.2)) L := by
      rw [List.forall₂_map_left_iff]
      exact List.forall₂_same.2 fun x hx => ⟨he, hes.trans (h.ge x hx), h.2 x hx, rfl⟩
    have hconst : realEff q (L.map fun l => (e, l.2)) e = e := by
      obtain ⟨h1, h2⟩ := realEff_between (q := q) (sub := e) (m := e) (M := e) (L := L.map fun l => (e, l.2)) hq.le he ⟨le_rfl, le_rfl⟩
        fun x hx => by
          obtain ⟨a, ha, rfl⟩ := List.mem_map.1 hx
          exact ⟨le_rfl, le_rfl, h.2 a ha⟩
      exact le_antisymm h2 h1
    have := (realEff_mono hq.le he hes hF).2 hq (fun x hx => by
      obtain ⟨a, ha, rfl⟩ := List.mem_map.1 hx
      exact ht a ha) fun heq => by
        have hmap := (Prod.mk.inj heq).1
        rw [← hmap] at hl
        obtain ⟨a, -, rfl⟩ := List.mem_map.1 hl
        exact lt_irrefl _ hlt
    rwa [hconst] at this

theorem thins_refl (h : Thins L sub) (he : 0 < e) (hes : e ≤ sub) :
    (∀ p q, 0 ≤ p → p ≤ q → effRefl p e L sub ≤ effRefl q e L sub) ∧
    (∀ p q, 0 < p → p ≤ q → p * effRefl q e L sub ≤ q * effRefl p e L sub) ∧ ∀ q, 0 ≤ q → 0 ≤ effRefl q e L sub := by
  have h0 : 0 < sub := by linarith
  have hge : ∀ q, 0 ≤ q → sub ≤ realEff q L sub := fun q hq =>
    (h.bounds hq h0 (M := (L.map Prod.fst).foldr max sub) (by
      clear h hes h0
      induction L with
      | nil => exact le_rfl
      | cons a L ih =>
        rw [List.map_cons, List.foldr_cons]
        exact le_max_of_le_right ih) (fun l hl => by
      clear h hes h0
      induction L with
      | nil => simp at hl
      | cons a L ih =>
        rw [List.map_cons, List.foldr_cons]
        rcases List.mem_cons.1 hl with rfl | hl
        · exact le_max_left _ _
        · exact le_max_of_le_right (ih hl))).1
  refine ⟨fun p q hp hpq => (contrast_mono he le_rfl (h0.trans_le (hge p hp)) (h.mono h0 hp hpq)).1, fun p q hp hpq => ?_, fun q hq => ?_⟩
  · have hq : 0 < q := by linarith
    have y1 := hge p hp.le
    have y2 := hge q hq.le
    have hc := h.chord h0 hp hpq
    have hm := h.mono h0 hp.le hpq
    unfold effRefl
    rw [← mul_div_assoc, ← mul_div_assoc]
    refine div_le_div₀ (mul_nonneg hq.le (by linarith)) ?_ (by linarith) (by linarith)
    nlinarith
  · exact div_nonneg (by linarith [hge q hq]) (by linarith [hge q hq])

/-- The reflection increases with the momentum from the value of the substrate, and its ratio to the momentum decreases. -/
theorem C134_reflection (e : ℝ) (L : List (ℝ × ℝ)) (sub : ℝ) (nu : Option ℝ) (he : 0 < e) (hes : e ≤ sub)
    (hdec : (L.map Prod.fst ++ [sub]).Pairwise (· ≥ ·)) (ht : ∀ l ∈ L, 0 ≤ l.2) :
    ∃ b : ℝ → ℝ, (∀ q, 0 ≤ q → (layered e (L.map fun l => ((l.1 : ℂ), l.2)) sub nu).reflCoefQs (FP.num q) = .ok (FP.num (b q : ℂ))) ∧
      (∀ p q, 0 ≤ p → p ≤ q → b p ≤ b q) ∧ (∀ p q, 0 < p → p ≤ q → b q / q ≤ b p / p) ∧ b 0 = (sub - e) / (sub + e) ∧
      ∀ q, 0 ≤ q → b q ≤ ((L.map Prod.fst).headD sub - e) / ((L.map Prod.fst).headD sub + e) := by
  have h : Thins L sub := ⟨hdec, ht⟩
  have h0 : 0 < sub := by linarith
  obtain ⟨h1, h2, -⟩ := thins_refl h he hes
  refine ⟨fun q => effRefl q e L sub, fun q hq => effRefl_num he h0 (Thins.pos h h0) nu hq, h1, fun p q hp hpq => ?_, ?_, fun q hq => ?_⟩
  · rw [div_le_div_iff₀ (by linarith) hp]
    linarith [h2 p q hp hpq]
  · have : realEff 0 L sub = sub := by
      clear h1 h2 hdec ht
      induction L with
      | nil => rfl
      | cons l L ih =>
        obtain ⟨t1, t2, -, -⟩ := h.tail
        rw [realEff_cons, zero_mul, clipped_zero, Real.tanh_zero, mul_zero, mul_zero, zero_add, add_zero, ih t1,
          mul_div_cancel_left₀ _ (by linarith)]
    simp only [effRefl, this]
  · cases L with
    | nil => exact le_rfl
    | cons l L =>
      obtain ⟨t1, t2, t3, t4⟩ := h.tail
      obtain ⟨b1, b2⟩ := h.bounds hq h0 t2 (fun x hx => by
        rcases List.mem_cons.1 hx with rfl | hx
        · exact le_rfl
        · exact t4 x hx)
      exact (contrast_mono he le_rfl (h0.trans_le b1) b2).1

example := C134_reflection 1 [(11, 50), (3, 20)] 2 none one_pos (by norm_num) (by norm_num) (by simp)

variable {env : Env} {nLag : Option ℕ}

/-- The charge average decreases with the height of the charge. -/
theorem C134_average (env : Env) (e : ℝ) (L : List (ℝ × ℝ)) (sub : ℝ) (nu : Option ℝ) (he : 0 < e) (hes : e ≤ sub)
    (hdec : (L.map Prod.fst ++ [sub]).Pairwise (· ≥ ·)) (ht : ∀ l ∈ L, 0 ≤ l.2) (nLag : Option ℕ) (hr : env.RuleOk nLag) :
    ∃ A : ℝ → ℝ, (∀ z > 0, (layered e (L.map fun l => ((l.1 : ℂ), l.2)) sub nu).reflCoefQsAboveSurf env (FP.num z) nLag =
        .ok (FP.num (A z : ℂ))) ∧ ∀ y z, 0 < y → y ≤ z → A z ≤ A y := by
  have h : Thins L sub := ⟨hdec, ht⟩
  have h0 : 0 < sub := by linarith
  refine ⟨raisedSum env nLag 1 e L sub, fun z hz => raised_average hr he h0 (Thins.pos h h0) nu hz, fun y z hy hyz => ?_⟩
  refine rule_sum_mono fun xw hxw => mul_le_mul_of_nonneg_left ((thins_refl h he hes).1 _ _ ?_ ?_)
    (mul_nonneg (hr.2.weight_pos xw hxw).le (pow_nonneg (hr.2.node_pos xw hxw).le 1))
  · exact (div_pos (hr.2.node_pos xw hxw) (by linarith)).le
  · exact div_le_div_of_nonneg_left (hr.2.node_pos xw hxw).le (by linarith) (by linarith)

example (d : Defaults) := C134_average (rule2 d) 1 [(11, 50), (3, 20)] 2 none one_pos (by norm_num) (by norm_num) (by simp) (some 2)
  (rule2_ok d)

/-- The image of a charge, for any sample with real reflections. -/
theorem real_image (s : Stack (FP ℝ) (FP ℂ)) (S0 S1 z : ℝ) (hz : 0 < z) (p0 : 0 < S0) (p1 : 0 < S1)
    (hs : s.surfPotAndField env (FP.num z) nLag = .ok (FP.num ((S0 / (2 * z) : ℝ) : ℂ), FP.num ((S1 / (4 * z ^ 2) : ℝ) : ℂ))) :
    s.imageDepthAndCharge env (FP.num z) nLag = .ok (FP.num (2 * z * (S0 / S1) - z), FP.num ((S0 ^ 2 / S1 : ℝ) : ℂ)) := by
  rw [image_num env _ z nLag _ _ hs]
  have z1 : (4 * z ^ 2 : ℝ) ≠ 0 := by positivity
  have z2 : (2 * z : ℝ) ≠ 0 := by positivity
  have hne : ((S1 / (4 * z ^ 2) : ℝ) : ℂ) ≠ 0 := Complex.ofReal_ne_zero.2 (div_ne_zero p1.ne' z1)
  have e1 : ((S0 / (2 * z) : ℝ) : ℂ) / ((S1 / (4 * z ^ 2) : ℝ) : ℂ) = ((2 * z * (S0 / S1) : ℝ) : ℂ) := by
    rw [← Complex.ofReal_div]
    congr 1
    field_simp
    ring
  have e2 : ((S0 / (2 * z) : ℝ) : ℂ) ^ 2 / ((S1 / (4 * z ^ 2) : ℝ) : ℂ) = ((S0 ^ 2 / S1 : ℝ) : ℂ) := by
    rw [← Complex.ofReal_pow, ← Complex.ofReal_div]
    congr 1
    field_simp
    ring
  rw [if_neg hne, e1, e2, Complex.norm_real, Real.norm_of_nonneg (by positivity)]

/-- The image lies between the surface and the mirror position of the charge, and its charge is at most the charge average. -/
theorem C134_image (env : Env) (e : ℝ) (L : List (ℝ × ℝ)) (sub : ℝ) (nu : Option ℝ) (he : 0 < e) (hes : e ≤ sub)
    (hdec : (L.map Prod.fst ++ [sub]).Pairwise (· ≥ ·)) (ht : ∀ l ∈ L, 0 ≤ l.2)
    (hc : e < sub ∨ (∀ l ∈ L, 0 < l.2) ∧ ∃ l ∈ L, e < l.1) (nLag : Option ℕ) (hr : env.RuleOk nLag) (z : ℝ) (hz : 0 < z) :
    ∃ d c A : ℝ, (layered e (L.map fun l => ((l.1 : ℂ), l.2)) sub nu).imageDepthAndCharge env (FP.num z) nLag =
        .ok (FP.num d, FP.num (c : ℂ)) ∧
      (layered e (L.map fun l => ((l.1 : ℂ), l.2)) sub nu).reflCoefQsAboveSurf env (FP.num z) nLag = .ok (FP.num (A : ℂ)) ∧
      0 ≤ d ∧ d ≤ z ∧ 0 < c ∧ c ≤ A := by
  have h : Thins L sub := ⟨hdec, ht⟩
  have h0 : 0 < sub := by linarith
  obtain ⟨h1, h2, h3⟩ := thins_refl h he hes
  have hpos : ∀ k, 0 < raisedSum env nLag k e L sub z := fun k => by
    refine List.sum_pos _ (fun y hy => ?_) ?_
    · obtain ⟨xw, hxw, rfl⟩ := List.mem_map.1 hy
      have hx := hr.2.node_pos xw hxw
      have hq : 0 < xw.1 / (2 * z) := div_pos hx (by linarith)
      have := thins_gt h he hes hc hq
      exact mul_pos (mul_pos (hr.2.weight_pos xw hxw) (pow_pos hx k)) (div_pos (by linarith) (by linarith))
    · intro h
      have := congrArg List.length h
      rw [List.length_map, hr.2.length] at this
      exact hr.1 this
  have p0 := hpos 0
  have p1 := hpos 1
  have c1 : raisedSum env nLag 0 e L sub z ≤ raisedSum env nLag 1 e L sub z := by
    have := rule_chebyshev_mono hr.1 hr.2 (b := fun x => effRefl (x / (2 * z)) e L sub) fun x y hx hxy =>
      h1 _ _ (div_pos hx (by linarith)).le (div_le_div_of_nonneg_right hxy (by linarith))
    simpa only [raisedSum, pow_zero, pow_one, mul_one] using this
  have c2 : raisedSum env nLag 1 e L sub z ≤ 2 * raisedSum env nLag 0 e L sub z := by
    have := rule_chebyshev_half hr.1 hr.2 (b := fun x => effRefl (x / (2 * z)) e L sub)
      (fun x hx => h3 _ (div_pos hx (by linarith)).le) fun x y hx hxy => by
        have := h2 _ _ (div_pos hx (by linarith : 0 < 2 * z)) (div_le_div_of_nonneg_right hxy (by linarith))
        rw [div_mul_eq_mul_div, div_mul_eq_mul_div] at this
        exact (div_le_div_iff_of_pos_right (by linarith)).1 this
    simpa only [raisedSum, pow_zero, pow_one, mul_one] using this
  refine ⟨_, _, _, real_image _ _ _ z hz p0 p1 (raised_surf hr he h0 (Thins.pos h h0) nu hz),
    raised_average hr he h0 (Thins.pos h h0) nu hz, ?_, ?_, by positivity, ?_⟩
  · have : 1 / 2 ≤ raisedSum env nLag 0 e L sub z / raisedSum env nLag 1 e L sub z := by
      rw [div_le_div_iff₀ two_pos p1]
      linarith
    nlinarith
  · have : raisedSum env nLag 0 e L sub z / raisedSum env nLag 1 e L sub z ≤ 1 := by rwa [div_le_one p1]
    nlinarith
  · rw [div_le_iff₀ p1]
    nlinarith

/-- A free-standing film. -/
example (d : Defaults) := C134_image (rule2 d) 1 [(11, 50)] 1 none one_pos le_rfl (by norm_num) (by simp) (by simp) (some 2)
  (rule2_ok d) 30 (by norm_num)

/-- The default method for layers returns a number. -/
theorem C134_number (env : Env) (e : ℝ) (L : List (ℝ × ℝ)) (sub : ℝ) (nu : Option ℝ) (he : 0 < e) (hes : e ≤ sub)
    (hdec : (L.map Prod.fst ++ [sub]).Pairwise (· ≥ ·)) (ht : ∀ l ∈ L, 0 ≤ l.2)
    (hc : e < sub ∨ (∀ l ∈ L, 0 < l.2) ∧ ∃ l ∈ L, e < l.1) (nLag : Option ℕ)
    (hr : env.RuleOk nLag) (z r l : ℝ) (g : ℂ) (d0 d1 dA : ℝ) (hg : g.im ≠ 0) (hrp : 0 < r) (hlp : 0 < l) (hne : r ≠ 4 * l)
    (hz : 0 ≤ z) (k0 : 0 < d0) (k1 : 0 < d1) (m : Option String) (hm : m = some "multi" ∨ m = none ∧ L ≠ []) :
    ∃ v : ℂ, Fdm.effPol env (layered e (L.map fun l => ((l.1 : ℂ), l.2)) sub nu) (some (FP.num z)) (fdmTip r l g d0 d1 dA) nLag m =
      .ok (FP.num v) := by
  obtain ⟨D0, c0, -, i0, -, s0, -⟩ := C134_image env e L sub nu he hes hdec ht hc nLag hr (z + r * d0) (by positivity)
  obtain ⟨D1, c1, -, i1, -, s1, -⟩ := C134_image env e L sub nu he hes hdec ht hc nLag hr (z + r * d1) (by positivity)
  exact multi_number env _ nLag z r l g d0 d1 dA hg hrp hlp hne m (by
    rcases hm with rfl | ⟨rfl, hL⟩
    · exact .inl rfl
    · refine .inr ⟨rfl, ?_⟩
      cases L with
      | nil => exact absurd rfl hL
      | cons a L => simp [layered, Stack.multilayer, Stack.nLayers]) D0 D1 c0 c1 i0 i1 (by linarith) (by linarith)

example (d : Defaults) := C134_number (rule2 d) 1 [(11, 50)] 1 none one_pos le_rfl (by norm_num) (by simp) (by simp) (some 2)
  (rule2_ok d) 0 20 300 ⟨0.7, 0.04⟩ 1 0.5 1.4 (by norm_num) (by norm_num) (by norm_num) (by norm_num) le_rfl one_pos (by norm_num) none
  (.inr ⟨rfl, by simp⟩)

/-- Hence `eff_pol_n` converges geometrically with the number of samples. -/
theorem C134_demod (env : Env) (e : ℝ) (L : List (ℝ × ℝ)) (sub : ℝ) (nu : Option ℝ) (he : 0 < e) (hes : e ≤ sub)
    (hdec : (L.map Prod.fst ++ [sub]).Pairwise (· ≥ ·)) (ht : ∀ l ∈ L, 0 ≤ l.2)
    (hc : e < sub ∨ (∀ l ∈ L, 0 < l.2) ∧ ∃ l ∈ L, e < l.1) (nLag : Option ℕ)
    (hr : env.RuleOk nLag) (z amp r l : ℝ) (g : ℂ) (d0 d1 dA : ℝ) (hA : 0 < amp) (hg : g.im ≠ 0) (hrp : 0 < r) (hlp : 0 < l)
    (hne : r ≠ 4 * l) (hz : 0 ≤ z) (k0 : 0 < d0) (k1 : 0 < d1) (m : Option String) (hm : m = some "multi" ∨ m = none ∧ L ≠ [])
    (hthin : ∀ x ∈ L, (4 * ((nLag.getD env.defaults.nLag : ℕ) : ℝ) - 2) * x.2 ≤ 1418 * (z + r * min d0 d1)) (n : ℤ) :
    ∃ f : ℝ → ℂ, (∀ x, z ≤ x → x ≤ z + 2 * amp →
        Fdm.effPol env (layered e (L.map fun l => ((l.1 : ℂ), l.2)) sub nu) (some (FP.num x)) (fdmTip r l g d0 d1 dA) nLag m =
          .ok (FP.num (f x))) ∧
      ∃ ρ > 0, ∃ C : ℝ, ∀ N : ℕ, N ≠ 0 →
        ∃ v, Fdm.effPolN env (layered e (L.map fun l => ((l.1 : ℂ), l.2)) sub nu) (FP.num amp) (FP.num n) (some (FP.num z)) (some N)
            (fdmTip r l g d0 d1 dA) nLag m = .ok (FP.num v) ∧
          ‖v - lockin f (z + amp) amp n‖ ≤ C * Real.exp (-(ρ * N)) := by
  have hmin : ∀ d, d = d0 ∨ d = d1 → 0 < d ∧ min d0 d1 ≤ d := by
    rintro d (rfl | rfl)
    · exact ⟨k0, min_le_left _ _⟩
    · exact ⟨k1, min_le_right _ _⟩
  have hk : ∀ d, d = d0 ∨ d = d1 → NoKink env nLag (L.map fun l => ((l.1 : ℂ), l.2)) (z + r * d) (z + 2 * amp + r * d) := fun d hd => by
    obtain ⟨hd0, hd1⟩ := hmin d hd
    refine NoKink.of_thin hr (by positivity) fun x hx => ?_
    obtain ⟨a, ha, rfl⟩ := List.mem_map.1 hx
    refine ⟨ht a ha, (hthin a ha).trans ?_⟩
    have := mul_le_mul_of_nonneg_left hd1 hrp.le
    linarith
  refine C131_image env e sub _ nu z amp r l g d0 d1 dA hA nLag m (hm.imp id fun h => ⟨h.1, by simpa using h.2⟩) (hk d0 (.inl rfl))
    (hk d1 (.inr rfl)) (fun x h1 h2 d hd t h => ?_) (fun x h1 h2 =>
      C134_number env e L sub nu he hes hdec ht hc nLag hr x r l g d0 d1 dA hg hrp hlp hne (hz.trans h1) k0 k1 m hm) n
  have hd0 := (hmin d hd).1
  obtain ⟨D, c, A, i, -, -, -, hc0, -⟩ := C134_image env e L sub nu he hes hdec ht hc nLag hr (x + r * d)
    (by have := hz.trans h1; positivity)
  have h' := FP.num.inj (Prod.mk.inj (Except.ok.inj (i.symm.trans h))).2
  have : c = 0 := by exact_mod_cast h'
  linarith

example (d : Defaults) := C134_demod (rule2 d) 1 [(11, 50), (3, 20)] 2 none one_pos (by norm_num) (by norm_num) (by simp) (.inl (by norm_num)) (some 2)
  (rule2_ok d) 0 50 20 300 ⟨0.7, 0.04⟩ 1 0.5 1.4 (by norm_num) (by norm_num) (by norm_num) (by norm_num) (by norm_num) le_rfl one_pos
  (by norm_num) none (.inr ⟨rfl, by simp⟩) (by norm_num) 3

/-- All defaults, above dielectric layers of at most 100 nm: no method is named, so that `multi` is used. -/
theorem C134_default (lag : ℕ → List (ℝ × ℝ)) (hlag : Env.RuleOk ⟨Defaults.initial, lag⟩ none) (e : ℝ) (L : List (ℝ × ℝ)) (sub : ℝ)
    (nu : Option ℝ) (he : 0 < e) (hes : e ≤ sub) (hdec : (L.map Prod.fst ++ [sub]).Pairwise (· ≥ ·))
    (hc : e < sub ∨ (∀ l ∈ L, 0 < l.2) ∧ ∃ l ∈ L, e < l.1) (hL : L ≠ [])
    (ht : ∀ l ∈ L, 0 ≤ l.2 ∧ l.2 ≤ 100e-9) (amp z : ℝ) (hA : 0 < amp) (hz : 0 ≤ z) (n : ℤ) :
    ∃ f : ℝ → ℂ, (∀ x, z ≤ x → x ≤ z + 2 * amp →
        Fdm.effPol ⟨Defaults.initial, lag⟩ (layered e (L.map fun l => ((l.1 : ℂ), l.2)) sub nu) (some (FP.num x)) {} none none =
          .ok (FP.num (f x))) ∧
      ∃ ρ > 0, ∃ C : ℝ, ∀ N : ℕ, N ≠ 0 →
        ∃ v, Fdm.effPolN ⟨Defaults.initial, lag⟩ (layered e (L.map fun l => ((l.1 : ℂ), l.2)) sub nu) (FP.num amp) (FP.num n)
            (some (FP.num z)) (some N) {} none none = .ok (FP.num v) ∧
          ‖v - lockin f (z + amp) amp n‖ ≤ C * Real.exp (-(ρ * N)) := by
  set env : Env := ⟨Defaults.initial, lag⟩ with henv
  obtain ⟨g0, g0'⟩ := d0_default
  set d0 : ℝ := 1.31 * 300e-9 / (300e-9 + 2 * 20e-9) with hd0
  have hgi : gDefault.im ≠ 0 := by
    have := gDefault_im 0
    rw [Complex.sub_im, Complex.ofReal_im, sub_zero] at this
    rw [this]
    exact (mul_pos (by norm_num) (Real.sin_pos_of_pos_of_lt_pi (by norm_num) (by linarith [Real.pi_gt_three]))).ne'
  have hmin : min d0 0.5 = 0.5 := min_eq_right (le_trans (by norm_num) g0)
  have hfill : env.defaults.fdm ({} : FdmArgs (FP ℝ) (FP ℂ)) = env.defaults.fdm (fdmTip 20e-9 300e-9 gDefault d0 0.5 1.4) :=
    fdm_default lag
  have key := C134_demod env e L sub nu he hes hdec (fun l hl => (ht l hl).1) hc none hlag z amp 20e-9 300e-9 gDefault d0 0.5 1.4 hA hgi
    (by norm_num) (by norm_num) (by norm_num) hz (lt_of_lt_of_le (by norm_num) g0) (by norm_num) none (.inr ⟨rfl, hL⟩) (fun l hl => by
      obtain ⟨h1, h2⟩ := ht l hl
      have hn : (((none : Option ℕ).getD env.defaults.nLag : ℕ) : ℝ) = 32 := by
        have : (none : Option ℕ).getD env.defaults.nLag = 32 := rfl
        rw [this]
        norm_num
      rw [hn, hmin]
      norm_num at h2 ⊢
      linarith) n
  have h1 : ∀ x m, Fdm.effPol env (layered e (L.map fun l => ((l.1 : ℂ), l.2)) sub nu) x {} none m =
      Fdm.effPol env (layered e (L.map fun l => ((l.1 : ℂ), l.2)) sub nu) x (fdmTip 20e-9 300e-9 gDefault d0 0.5 1.4) none m :=
    fun x m => by
      unfold Fdm.effPol
      rw [hfill]
  have h2 : ∀ (N : ℕ) m, Fdm.effPolN env (layered e (L.map fun l => ((l.1 : ℂ), l.2)) sub nu) (FP.num amp) (FP.num n)
      (some (FP.num z)) (some N) {} none m =
      Fdm.effPolN env (layered e (L.map fun l => ((l.1 : ℂ), l.2)) sub nu) (FP.num amp) (FP.num n) (some (FP.num z)) (some N)
        (fdmTip 20e-9 300e-9 gDefault d0 0.5 1.4) none m := fun N m => by
    unfold Fdm.effPolN
    simp only [h1]
  simp only [h1, h2]
  exact key

/-- A free-standing membrane. -/
example := C134_default Laguerre.rule ⟨by decide, Laguerre.gaussLaguerre_rule (by decide)⟩ 1 [(11, 100e-9)] 1 none one_pos le_rfl
  (by norm_num) (.inr ⟨by norm_num, by norm_num⟩) (by simp) (by norm_num) 50e-9 0 (by norm_num) le_rfl 3

end

end Snompy.Props
