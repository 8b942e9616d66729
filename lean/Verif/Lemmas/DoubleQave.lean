import Verif.Lemmas.DoubleAverage
import Verif.Lemmas.DoubleFdmPol
import Verif.Lemmas.DoubleThick

/-!
# Rounding errors of the charge average above films, and of the finite dipole model that uses it
-/

namespace Snompy

variable {L : Libm}

seal uro eta maxDouble

/-- How much a relative error of the momentum changes the attenuation of a layer. -/
theorem exp_clipped_lipschitz {p x η : ℝ} (hx : 0 ≤ x) (h : |p - x| ≤ η * x) (hη0 : 0 ≤ η) (hη : η ≤ 1 / 2) :
    |Real.exp (-(2 * clipped p)) - Real.exp (-(2 * clipped x))| ≤ 2 * η := by
  have hM := maxExpArg_pos
  have hp : 0 ≤ p := by
    have := (abs_le.1 h).1
    nlinarith
  have key : ∀ a b : ℝ, 0 ≤ a → a ≤ b → b - a ≤ 2 * η * a →
      |Real.exp (-(2 * clipped a)) - Real.exp (-(2 * clipped b))| ≤ 2 * η := fun a b ha hab hba => by
    have ca : ∀ y : ℝ, 0 ≤ y → clipped y = min y maxExpArg := fun y hy => by
      unfold clipped
      rw [max_eq_left (by linarith)]
    rw [ca a ha, ca b (ha.trans hab)]
    set A := min a maxExpArg with hA
    set B := min b maxExpArg with hB
    have hA0 : 0 ≤ A := le_min ha hM.le
    have hAB : A ≤ B := min_le_min hab le_rfl
    have hBA : B - A ≤ 2 * η * A := by
      rcases le_total a maxExpArg with h1 | h1
      · have h2 : A = a := min_eq_left h1
        have h3 : B ≤ b := min_le_left _ _
        rw [h2]
        linarith
      · have h2 : A = maxExpArg := min_eq_right h1
        have h3 : B ≤ maxExpArg := min_le_right _ _
        have : 0 ≤ 2 * η * A := by positivity
        linarith
    rw [abs_of_nonneg (sub_nonneg.2 (Real.exp_le_exp.2 (by linarith)))]
    have e : Real.exp (-(2 * B)) = Real.exp (-(2 * A)) * Real.exp (-(2 * (B - A))) := by
      rw [← Real.exp_add]
      congr 1
      ring
    have h1 := Real.add_one_le_exp (-(2 * (B - A)))
    have h2 := Real.add_one_le_exp (2 * A)
    have h3 := Real.exp_pos (-(2 * A))
    have h4 : Real.exp (-(2 * A)) * Real.exp (2 * A) = 1 := by rw [← Real.exp_add, neg_add_cancel, Real.exp_zero]
    have h5 : Real.exp (-(2 * A)) * (2 * A) ≤ 1 := by
      rw [← h4]
      exact mul_le_mul_of_nonneg_left (by linarith) h3.le
    rw [e]
    have h6 : Real.exp (-(2 * A)) - Real.exp (-(2 * A)) * Real.exp (-(2 * (B - A))) ≤ Real.exp (-(2 * A)) * (2 * (B - A)) := by
      nlinarith
    have h7 : Real.exp (-(2 * A)) * (2 * (B - A)) ≤ Real.exp (-(2 * A)) * (2 * A) * (2 * η) := by
      have := mul_le_mul_of_nonneg_left hBA h3.le
      linarith
    have h8 := mul_le_mul_of_nonneg_right h5 (show 0 ≤ 2 * η by linarith)
    linarith
  rw [abs_le] at h
  rcases le_total p x with h1 | h1
  · exact key p x hp h1 (by nlinarith)
  · rw [abs_sub_comm]
    exact key x p hx h1 (by nlinarith)

theorem HeightOk.pos {z : ℝ} (h : HeightOk z) : 0 < z := lt_of_lt_of_le (by positivity) h.1

theorem HeightOk.node {z zh : ℝ} (h : HeightOk z) (hzh : |zh - z| ≤ 300 * uro * z) : NodeOk zh ∧ z / 2 ≤ zh := by
  have hu := uro_lt
  have hz := h.pos
  have h1 := h.1
  have h2 := h.2
  rw [abs_le] at hzh
  have h3 : 300 * uro * z ≤ 1 / 2 * z := mul_le_mul_of_nonneg_right (by norm_num at hu ⊢; linarith) hz.le
  refine ⟨⟨?_, ?_⟩, by linarith⟩
  · rw [pow_succ]
    linarith
  · rw [pow_succ]
    linarith

theorem momentum_err {x z zh : ℝ} (hx : NodeOk x) (hz : HeightOk z) (hzh : |zh - z| ≤ 300 * uro * z) :
    ∃ q, (F64.ofReal x / (lit 2 * .fin zh) : F64 L) = .fin q ∧ |q - x / (2 * z)| ≤ 320 * uro * (x / (2 * z)) := by
  obtain ⟨hn, hzh2⟩ := hz.node hzh
  obtain ⟨q, h1, h2⟩ := momentum_near (L := L) hx hn
  refine ⟨q, h1, ?_⟩
  have hu := uro_pos
  have hu' := uro_lt
  have hz0 := hz.pos
  have hzh0 : 0 < zh := by linarith
  have hQ : 0 < x / (2 * z) := div_pos hx.pos (by linarith)
  have e : x / (2 * zh) * zh = x / (2 * z) * z := by field_simp
  set Q := x / (2 * z) with hQd
  set Q' := x / (2 * zh) with hQd'
  clear_value Q Q'
  have e2 : Q' - Q = Q * (z - zh) / zh := by
    rw [eq_div_iff hzh0.ne']
    linear_combination e
  have e3 : |Q' - Q| ≤ 302 * uro * Q := by
    rw [e2, abs_div, abs_of_pos hzh0, div_le_iff₀ hzh0, abs_mul, abs_of_pos hQ, abs_sub_comm]
    have g1 : z ≤ zh * (302 / 300) := by
      have g2 := (abs_le.1 hzh).1
      have g3 : 300 * uro * z ≤ 1 / 1000 * z := mul_le_mul_of_nonneg_right (by norm_num at hu' ⊢; linarith) hz0.le
      linarith
    calc Q * |zh - z| ≤ Q * (300 * uro * z) := mul_le_mul_of_nonneg_left hzh hQ.le
      _ = 300 * uro * Q * z := by ring
      _ ≤ 300 * uro * Q * (zh * (302 / 300)) := mul_le_mul_of_nonneg_left g1 (by positivity)
      _ = _ := by ring
  have e4 : Q' ≤ 2 * Q := by
    have g3 : 302 * uro * Q ≤ 1 * Q := mul_le_mul_of_nonneg_right (by norm_num at hu' ⊢; linarith) hQ.le
    linarith [(abs_le.1 e3).2]
  calc |q - Q| ≤ |q - Q'| + |Q' - Q| := abs_sub_le _ _ _
    _ ≤ 8 * uro * (2 * Q) + 302 * uro * Q := add_le_add (h2.trans (mul_le_mul_of_nonneg_left e4 (by positivity))) e3
    _ ≤ _ := by nlinarith [mul_pos hu hQ]

/-- A stack whose computed reflection coefficient is accurate at momenta known up to rounding errors. -/
structure ReflAccurate (S : Stack (F64 L) (C128 L)) (P : ℝ → Prop) (β : ℝ → ℂ) (δ : ℝ) : Prop where
  ok : ∀ v, ∃ c, S.reflCoefQs v = .ok c
  le_one : ∀ q, P q → ‖β q‖ ≤ 1
  near : ∀ p q, P q → |p - q| ≤ 320 * uro * q → ∃ b, S.reflCoefQs (.fin p) = .ok (C128.mk' L b) ∧ ‖b - β q‖ ≤ δ

/-- The average of a reflection coefficient over the rule. -/
noncomputable def ruleAverage (env : Env) (nLag : Option ℕ) (β : ℝ → ℂ) (z : ℝ) : ℂ :=
  ((env.laggauss (nLag.getD env.defaults.nLag)).map fun xw => ((xw.2 * xw.1 : ℝ) : ℂ) * β (xw.1 / (2 * z))).sum

theorem ruleAverage_le {env : Env} {nLag : Option ℕ} (h : env.RuleOk nLag) {β : ℝ → ℂ} {z : ℝ}
    (hb : ∀ xw ∈ env.laggauss (nLag.getD env.defaults.nLag), ‖β (xw.1 / (2 * z))‖ ≤ 1) : ‖ruleAverage env nLag β z‖ ≤ 1 := by
  obtain ⟨h0, g⟩ := h
  unfold ruleAverage
  rw [← g.sum_wx h0]
  have key : ∀ l : List (ℝ × ℝ), (∀ xw ∈ l, 0 ≤ xw.2 * xw.1 ∧ ‖β (xw.1 / (2 * z))‖ ≤ 1) →
      ‖(l.map fun xw => ((xw.2 * xw.1 : ℝ) : ℂ) * β (xw.1 / (2 * z))).sum‖ ≤ (l.map fun xw => xw.2 * xw.1).sum := fun l hl => by
    induction l with
    | nil => simp
    | cons i l ih =>
      rw [List.map_cons, List.sum_cons, List.map_cons, List.sum_cons]
      obtain ⟨h1, h2⟩ := hl i List.mem_cons_self
      refine (norm_add_le _ _).trans (add_le_add ?_ (ih fun j hj => hl j (List.mem_cons_of_mem _ hj)))
      rw [norm_mul, Complex.norm_real, Real.norm_of_nonneg h1]
      exact mul_le_of_le_one_right h1 h2
  exact key _ fun xw hxw => ⟨(mul_pos (g.weight_pos xw hxw) (g.node_pos xw hxw)).le, hb xw hxw⟩

/-- The computed average. -/
theorem average_near {env : Env} {nLag : Option ℕ} (h : AverageOk env nLag) {S : Stack (F64 L) (C128 L)} {P : ℝ → Prop} {β : ℝ → ℂ}
    {z zh δ : ℝ} (hS : ReflAccurate S P β δ) (hδ : δ ≤ 1 / 10) (hz : HeightOk z) (hzh : |zh - z| ≤ 300 * uro * z)
    (hP : ∀ xw ∈ env.laggauss (nLag.getD env.defaults.nLag), P (xw.1 / (2 * z))) :
    ∃ y, S.reflCoefQsAboveSurf env (.fin zh) nLag = .ok (C128.mk' L y) ∧ ‖y - ruleAverage env nLag β z‖ ≤
      17 / 12 * (δ + 10 * uro + (env.laggauss (nLag.getD env.defaults.nLag)).length * (5 * uro)) :=
  aboveSurf_C128 h S (hS.ok _) (fun xw => β (xw.1 / (2 * z))) (fun xw hxw => by
    refine ⟨hS.le_one _ (hP xw hxw), ?_⟩
    obtain ⟨q, h1, h2⟩ := momentum_err (L := L) (h.nodes xw hxw) hz hzh
    obtain ⟨b, h3, h4⟩ := hS.near q _ (hP xw hxw) h2
    exact ⟨b, by rw [h1]; exact h3, h4⟩) hδ

/-- The computed average of real arrays. -/
theorem averageF64_near {env : Env} {nLag : Option ℕ} (h : AverageOk env nLag) {S : Stack (F64 L) (F64 L)} {P : ℝ → Prop} {β : ℝ → ℝ}
    {z δ : ℝ} (hok : ∀ v, ∃ c, S.reflCoefQs v = .ok c) (hle : ∀ q, P q → |β q| ≤ 1)
    (hnear : ∀ p q, P q → |p - q| ≤ 320 * uro * q → ∃ b, S.reflCoefQs (.fin p) = .ok (.fin b) ∧ |b - β q| ≤ δ) (hδ : δ ≤ 1 / 10)
    (hz : HeightOk z) (hP : ∀ xw ∈ env.laggauss (nLag.getD env.defaults.nLag), P (xw.1 / (2 * z))) :
    ∃ y, S.reflCoefQsAboveSurf env (.fin z) nLag = .ok (.fin y) ∧
      |y - ((env.laggauss (nLag.getD env.defaults.nLag)).map fun xw => xw.2 * xw.1 * β (xw.1 / (2 * z))).sum| ≤
        δ + 10 * uro + (env.laggauss (nLag.getD env.defaults.nLag)).length * (5 * uro) :=
  aboveSurf_F64 h S (hok _) (fun xw => β (xw.1 / (2 * z))) (fun xw hxw => by
    refine ⟨hle _ (hP xw hxw), ?_⟩
    obtain ⟨q, h1, h2⟩ := momentum_err (L := L) (zh := z) (h.nodes xw hxw) hz (by
      rw [sub_self, abs_zero]
      have := uro_pos
      have := hz.pos
      positivity)
    obtain ⟨b, h3, h4⟩ := hnear q _ (hP xw hxw) h2
    exact ⟨b, by rw [h1]; exact h3, h4⟩) hδ

theorem ruleAverage_real (env : Env) (nLag : Option ℕ) (β : ℝ → ℝ) (z : ℝ) : ruleAverage env nLag (fun q => (β q : ℂ)) z =
    (((env.laggauss (nLag.getD env.defaults.nLag)).map fun xw => xw.2 * xw.1 * β (xw.1 / (2 * z))).sum : ℝ) := by
  unfold ruleAverage
  generalize env.laggauss (nLag.getD env.defaults.nLag) = l
  induction l with
  | nil => simp
  | cons i l ih =>
    rw [List.map_cons, List.sum_cons, List.map_cons, List.sum_cons, ih]
    push_cast
    ring

/-- Exchanging the reflection coefficient in the formula of the finite dipole model. -/
theorem Fdm.pol_lipschitz {z d0 d1 r l δ : ℝ} {g b β : ℂ} (hb : ‖b - β‖ ≤ δ)
    (n0 : ‖Fdm.geom z d0 r l g‖ ≤ Fdm.size z d0 r l g) (n1 : ‖Fdm.geom z d1 r l g‖ ≤ Fdm.size z d1 r l g)
    (h0 : 1 - β * Fdm.geom z d1 r l g ≠ 0) (hδ : δ * Fdm.condition z d0 d1 r l g β ≤ 1 / 100) (hδ1 : δ ≤ 1 / 100) :
    1 - b * Fdm.geom z d1 r l g ≠ 0 ∧ Fdm.condition z d0 d1 r l g b ≤ 104 / 100 * Fdm.condition z d0 d1 r l g β ∧
      ‖Fdm.pol z d0 d1 r l g b - Fdm.pol z d0 d1 r l g β‖ ≤
        102 / 100 * δ * Fdm.condition z d0 d1 r l g β * (1 + ‖Fdm.pol z d0 d1 r l g β - 1‖) := by
  have hD : 0 < ‖1 - β * Fdm.geom z d1 r l g‖ := norm_pos_iff.2 h0
  rw [Fdm.pol_sub_one, ← sub_sub_sub_cancel_right (Fdm.pol z d0 d1 r l g b) _ 1, Fdm.pol_sub_one, Fdm.pol_sub_one]
  unfold Fdm.condition at hδ ⊢
  generalize Fdm.geom z d0 r l g = G0 at *
  generalize Fdm.geom z d1 r l g = G1 at *
  generalize Fdm.size z d0 r l g = H0 at *
  generalize Fdm.size z d1 r l g = H1 at *
  have hH0 := (norm_nonneg _).trans n0
  have hH1 := (norm_nonneg _).trans n1
  have hδ0 : 0 ≤ δ := (norm_nonneg _).trans hb
  have hβ := norm_nonneg β
  have hB1 : 1 ≤ (1 + ‖β‖) ^ 2 := one_le_pow₀ (by linarith)
  have hBn : (1 + ‖b‖) ^ 2 ≤ 10201 / 10000 * (1 + ‖β‖) ^ 2 := by
    have h1 := norm_sub_norm_le b β
    have h2 : 1 + ‖b‖ ≤ 101 / 100 * (1 + ‖β‖) := by linarith
    calc (1 + ‖b‖) ^ 2 ≤ (101 / 100 * (1 + ‖β‖)) ^ 2 := pow_le_pow_left₀ (by positivity) h2 2
      _ = _ := by ring
  set W := 1 + H0 + H1 with hW
  have hW1 : 1 ≤ W := by linarith
  have hBW : W ≤ (1 + ‖β‖) ^ 2 * W := le_mul_of_one_le_left (by linarith) hB1
  set X := (1 + ‖β‖) ^ 2 * W with hX
  have hδX : δ * X ≤ 1 / 100 * ‖1 - β * G1‖ := by
    rwa [mul_div_assoc', div_le_iff₀ hD] at hδ
  have eD : 1 - b * G1 = (1 - β * G1) - (b - β) * G1 := by ring
  have hDb : 99 / 100 * ‖1 - β * G1‖ ≤ ‖1 - b * G1‖ := by
    have h1 := norm_sub_norm_le (1 - β * G1) ((b - β) * G1)
    rw [← eD, norm_mul] at h1
    have h2 : ‖b - β‖ * ‖G1‖ ≤ δ * X := mul_le_mul hb (by linarith) (norm_nonneg _) hδ0
    linarith
  have hDb0 : 0 < ‖1 - b * G1‖ := by linarith
  have hne : 1 - b * G1 ≠ 0 := norm_pos_iff.1 hDb0
  refine ⟨hne, ?_, ?_⟩
  · rw [mul_div_assoc', div_le_div_iff₀ hDb0 hD]
    have h1 : (1 + ‖b‖) ^ 2 * W ≤ 10201 / 10000 * X := by
      calc (1 + ‖b‖) ^ 2 * W ≤ 10201 / 10000 * (1 + ‖β‖) ^ 2 * W := mul_le_mul_of_nonneg_right hBn (by linarith)
        _ = _ := by rw [hX]; ring
    have hX0 : 0 ≤ X := by linarith
    calc (1 + ‖b‖) ^ 2 * W * ‖1 - β * G1‖ ≤ 10201 / 10000 * X * ‖1 - β * G1‖ := mul_le_mul_of_nonneg_right h1 hD.le
      _ ≤ 104 / 100 * X * (99 / 100 * ‖1 - β * G1‖) := by nlinarith [mul_nonneg hX0 hD.le]
      _ ≤ _ := mul_le_mul_of_nonneg_left hDb (by linarith)
  · set V := β * G0 / (2 * (1 - β * G1)) with hV
    have e : b * G0 / (2 * (1 - b * G1)) - V = (b - β) * (G0 / 2 + V * G1) / (1 - b * G1) := by
      have hVD : V * (1 - β * G1) = β * G0 / 2 := by
        rw [hV, div_mul_eq_mul_div, div_eq_div_iff (mul_ne_zero two_ne_zero h0) two_ne_zero]
        ring
      rw [eq_div_iff hne, sub_mul, show b * G0 / (2 * (1 - b * G1)) * (1 - b * G1) = b * G0 / 2 by
        rw [div_mul_eq_mul_div, div_eq_div_iff (mul_ne_zero two_ne_zero hne) two_ne_zero]
        ring]
      linear_combination -hVD
    rw [e, norm_div, norm_mul, div_le_iff₀ hDb0]
    have h1 : ‖G0 / 2 + V * G1‖ ≤ X * (1 + ‖V‖) := by
      refine (norm_add_le _ _).trans ?_
      rw [norm_div, norm_mul, Complex.norm_ofNat]
      have hV0 := norm_nonneg V
      have g1 : ‖V‖ * ‖G1‖ ≤ ‖V‖ * X := mul_le_mul_of_nonneg_left (by linarith) hV0
      linarith
    have hV0 := norm_nonneg V
    have hX0 : 0 ≤ X := by linarith
    have hkd : X / ‖1 - β * G1‖ * ‖1 - β * G1‖ = X := div_mul_cancel₀ _ hD.ne'
    have hk0 : 0 ≤ X / ‖1 - β * G1‖ := by positivity
    generalize X / ‖1 - β * G1‖ = κ at *
    calc ‖b - β‖ * ‖G0 / 2 + V * G1‖ ≤ δ * (X * (1 + ‖V‖)) := mul_le_mul hb h1 (norm_nonneg _) hδ0
      _ = δ * κ * (1 + ‖V‖) * ‖1 - β * G1‖ := by rw [← hkd]; ring
      _ ≤ δ * κ * (1 + ‖V‖) * (102 / 100 * ‖1 - b * G1‖) := mul_le_mul_of_nonneg_left (by linarith) (by positivity)
      _ = _ := by ring

/-- The height of the charge. -/
theorem charge_height {rh dh : F64 L} {x y r dA : ℝ} (hr : rh.Near r 2) (hd : dh.Near dA 20) (hr0 : (1 / 2) ^ 90 ≤ r)
    (hd0 : 1 / 2 ≤ dA) (hy : 0 ≤ y) (hxy : |x - y| ≤ 130 * uro * (r + y)) (htop : y + r * dA ≤ 2 ^ 99) :
    HeightOk (y + r * dA) ∧ ∃ zh, (F64.fin x + rh * dh : F64 L) = .fin zh ∧ |zh - (y + r * dA)| ≤ 300 * uro * (y + r * dA) := by
  have hu := uro_pos
  have hu' := uro_lt
  have hrp : 0 < r := lt_of_lt_of_le (by positivity) hr0
  have hrd : r / 2 ≤ r * dA := by nlinarith
  have hrd0 : 0 < r * dA := by linarith
  have h91 : (1 / 2 : ℝ) ^ 91 ≤ r * dA := by
    rw [pow_succ]
    linarith
  have hH : HeightOk (y + r * dA) := by
    refine ⟨le_trans ?_ (h91.trans (by linarith)), htop⟩
    exact pow_le_pow_of_le_one (by norm_num) (by norm_num) (by norm_num)
  refine ⟨hH, ?_⟩
  obtain ⟨m, hm, em⟩ := hr.mul hd (by norm_num) (by norm_num) (by norm_num) (by norm_num) (by
    rw [abs_of_pos hrd0]
    exact sized_of (a := 91) (b := 99) (by norm_num) (by norm_num) h91 (by linarith))
  rw [abs_of_pos hrd0] at em
  set Z := y + r * dA with hZ
  have hZ0 : 0 < Z := hH.pos
  have hrZ : r + y ≤ 2 * Z := by linarith
  have hmZ : r * dA ≤ Z := by linarith
  clear_value Z
  have huZ : 0 < uro * Z := by positivity
  have d : |x + m - Z| ≤ 285 * uro * Z := by
    have e : x + m - Z = (x - y) + (m - r * dA) := by rw [hZ]; ring
    rw [e]
    refine (abs_add_le _ _).trans ?_
    have g1 : 130 * uro * (r + y) ≤ 130 * uro * (2 * Z) := mul_le_mul_of_nonneg_left hrZ (by positivity)
    have g2 : (2 + 20 + 2) * uro * (r * dA) ≤ (2 + 20 + 2) * uro * Z := mul_le_mul_of_nonneg_left hmZ (by positivity)
    linarith
  have hsmall : 285 * uro * Z ≤ 1 / 1000 * Z := mul_le_mul_of_nonneg_right (by norm_num at hu' ⊢; linarith) hZ0.le
  have hs : Sized |Z| := by
    rw [abs_of_pos hZ0]
    exact sized_of (a := 99) (b := 99) (by norm_num) (by norm_num) hH.1 hH.2
  have heta := hs.eta_le
  have hmax := hs.le_max
  rw [abs_of_pos hZ0] at heta hmax
  have hle : |x + m| ≤ 1001 / 1000 * Z := by
    have := abs_sub_abs_le_abs_sub (x + m) Z
    rw [abs_of_pos hZ0] at this
    linarith
  obtain ⟨e1, e2, -⟩ := F64.fl (L := L) hle (by
    have h3 : (2 : ℝ) ^ 99 * 2 ^ 1 ≤ 2 ^ 100 := by norm_num
    have h4 := pow_le_max (n := 100) (by norm_num)
    have h5 := hH.2
    generalize (2 : ℝ) ^ 99 = P at *
    generalize (2 : ℝ) ^ 100 = P2 at *
    norm_num at hu'
    nlinarith)
  refine ⟨_, by rw [hm, F64.fin_add, e1], ?_⟩
  have e := abs_sub_le (rnd (x + m)) (x + m) Z
  linarith

/-- Method `Q_ave` at one height. -/
theorem Fdm.qave_near (cfg : Env) {S : Stack (F64 L) (C128 L)} {nLag : Option ℕ} (h : AverageOk cfg nLag) {P : ℝ → Prop} {β : ℝ → ℂ}
    {a : FdmArgs (F64 L) (C128 L)} {x y d0 d1 dA r l δ ε : ℝ} {g : ℂ} (hS : ReflAccurate S P β δ) (hδ : δ ≤ 1 / 10)
    (ha : Fdm.TipNear (cfg.defaults.fdm a) d0 d1 r l g) (hdA : (cfg.defaults.fdm a).dQa.Near dA 20) (hr0 : (1 / 2) ^ 90 ≤ r)
    (hd0 : 1 / 2 ≤ dA) (htop : y + r * dA ≤ 2 ^ 99) (hxy : |x - y| ≤ 130 * uro * (r + y))
    (hP : ∀ xw ∈ cfg.laggauss (nLag.getD cfg.defaults.nLag), P (xw.1 / (2 * (y + r * dA))))
    (R0 : Fdm.Range y d0 r l g) (R1 : Fdm.Range y d1 r l g)
    (hε : 17 / 12 * (δ + 10 * uro + (cfg.laggauss (nLag.getD cfg.defaults.nLag)).length * (5 * uro)) ≤ ε) (hε1 : ε ≤ 1 / 100)
    (h0 : 1 - ruleAverage cfg nLag β (y + r * dA) * Fdm.geom y d1 r l g ≠ 0)
    (hκ : Fdm.condition y d0 d1 r l g (ruleAverage cfg nLag β (y + r * dA)) ≤ 10 ^ 8)
    (hεκ : ε * Fdm.condition y d0 d1 r l g (ruleAverage cfg nLag β (y + r * dA)) ≤ 1 / 100) :
    ∃ w, Fdm.effPol cfg S (some (.fin x)) a nLag (some "Q_ave") = .ok (C128.mk' L w) ∧
      ‖w - Fdm.pol y d0 d1 r l g (ruleAverage cfg nLag β (y + r * dA))‖ ≤
        (43 / 10 ^ 14 + 103 / 100 * ε) * Fdm.condition y d0 d1 r l g (ruleAverage cfg nLag β (y + r * dA)) *
          (1 + ‖Fdm.pol y d0 d1 r l g (ruleAverage cfg nLag β (y + r * dA)) - 1‖) := by
  obtain ⟨hH, zh, hzh, ezh⟩ := charge_height (L := L) ha.r hdA hr0 hd0 R0.z_nonneg hxy htop
  obtain ⟨b, hb, eb⟩ := average_near (L := L) h hS hδ hH ezh hP
  have hB : ‖ruleAverage cfg nLag β (y + r * dA)‖ ≤ 1 := ruleAverage_le h.rule fun xw hxw => hS.le_one _ (hP xw hxw)
  replace eb := eb.trans hε
  generalize ruleAverage cfg nLag β (y + r * dA) = B at *
  obtain ⟨-, -, -, n0, -⟩ := Fdm.geom_near (L := L) R0 ha.r ha.l ha.g ⟨x, rfl, hxy⟩ ha.d0 (by norm_num) le_rfl
  obtain ⟨-, -, -, n1, -⟩ := Fdm.geom_near (L := L) R1 ha.r ha.l ha.g ⟨x, rfl, hxy⟩ ha.d1 (by norm_num) le_rfl
  obtain ⟨k1, k2, k3⟩ := Fdm.pol_lipschitz eb n0 n1 h0 hεκ hε1
  obtain ⟨w, hw, ew⟩ := Fdm.formula_near (L := L) (b := b) (β := b) ha (by rw [sub_self, norm_zero]; positivity) (by
    have := norm_sub_norm_le b B
    norm_num
    linarith) R0 R1 ⟨x, rfl, hxy⟩ k1 (k2.trans (by linarith))
  refine ⟨w, ?_, ?_⟩
  · unfold Fdm.effPol
    simp only [Option.getD_some]
    rw [if_neg (by decide), if_neg (by decide), if_pos trivial, hzh, hb, PyM.ok_bind, hw]
    rfl
  · have t1 := norm_sub_le_norm_sub_add_norm_sub w (Fdm.pol y d0 d1 r l g b) (Fdm.pol y d0 d1 r l g B)
    have t2 : ‖Fdm.pol y d0 d1 r l g b - 1‖ ≤ ‖Fdm.pol y d0 d1 r l g b - Fdm.pol y d0 d1 r l g B‖ + ‖Fdm.pol y d0 d1 r l g B - 1‖ :=
      norm_sub_le_norm_sub_add_norm_sub _ _ _
    have hV0 := norm_nonneg (Fdm.pol y d0 d1 r l g B - 1)
    have hVb0 := norm_nonneg (Fdm.pol y d0 d1 r l g b - 1)
    have hc0 : 0 ≤ Fdm.condition y d0 d1 r l g B := by
      have := Fdm.one_le_condition h0 ((norm_nonneg _).trans n0) n1
      linarith
    have hcb : 0 ≤ Fdm.condition y d0 d1 r l g b := by
      have := Fdm.one_le_condition k1 ((norm_nonneg _).trans n0) n1
      linarith
    generalize Fdm.condition y d0 d1 r l g B = κ at *
    generalize Fdm.condition y d0 d1 r l g b = κb at *
    generalize ‖Fdm.pol y d0 d1 r l g B - 1‖ = V at *
    generalize ‖Fdm.pol y d0 d1 r l g b - 1‖ = Vb at *
    generalize ‖Fdm.pol y d0 d1 r l g b - Fdm.pol y d0 d1 r l g B‖ = D at *
    have hε0 : 0 ≤ ε := (norm_nonneg _).trans eb
    have h1 : D ≤ 102 / 10000 * (1 + V) := by
      have : ε * κ * (1 + V) ≤ 1 / 100 * (1 + V) := mul_le_mul_of_nonneg_right hεκ (by linarith)
      linarith
    have h2 : 1 + Vb ≤ 10102 / 10000 * (1 + V) := by linarith
    have h3 : 4 / 10 ^ 13 * κb * (1 + Vb) ≤ 4 / 10 ^ 13 * (104 / 100 * κ) * (10102 / 10000 * (1 + V)) :=
      mul_le_mul (mul_le_mul_of_nonneg_left k2 (by norm_num)) h2 (by linarith) (by positivity)
    have h4 : 0 ≤ κ * (1 + V) := by positivity
    have h5 : 0 ≤ ε * (κ * (1 + V)) := by positivity
    nlinarith

/-- A film between a thinner and a denser medium. -/
theorem film_moves {env e sub t : ℝ} (h0 : 0 < env) (h1 : env ≤ e) (h2 : e ≤ sub) (ht : 0 ≤ t) {p q : ℝ} (hq : 0 < q)
    (hp : |p - q| ≤ 320 * uro * q) : 0 ≤ p ∧
      |slabRefl (env / e) (e / sub) (Real.exp (-(2 * clipped (p * t)))) -
        slabRefl (env / e) (e / sub) (Real.exp (-(2 * clipped (q * t))))| ≤ 3 / 10 ^ 13 := by
  have hu := uro_pos
  have hu' := uro_le
  have he : 0 < e := by linarith
  have hs : 0 < sub := by linarith
  have hp0 : 0 ≤ p := by
    have g1 := (abs_le.1 hp).1
    have g2 : 320 * uro * q ≤ 1 * q := mul_le_mul_of_nonneg_right (by norm_num at hu' ⊢; linarith) hq.le
    linarith
  refine ⟨hp0, ?_⟩
  have k := exp_clipped_lipschitz (p := p * t) (x := q * t) (η := 320 * uro) (by positivity) (by
    rw [← sub_mul, abs_mul, abs_of_nonneg ht, ← mul_assoc]
    exact mul_le_mul_of_nonneg_right hp ht) (by positivity) (by norm_num at hu' ⊢; linarith)
  refine (slabRefl_lipschitz (div_pos h0 he) ((div_le_one he).2 h1) (div_pos he hs) ((div_le_one hs).2 h2) (Real.exp_pos _).le
    (Real.exp_pos _).le).trans ?_
  linarith

theorem film_le_one {env e sub t q : ℝ} (h0 : 0 < env) (h1 : env ≤ e) (h2 : e ≤ sub) (hqt : 0 ≤ q * t) :
    |slabRefl (env / e) (e / sub) (Real.exp (-(2 * clipped (q * t))))| ≤ 1 := by
  have he : 0 < e := by linarith
  have hs : 0 < sub := by linarith
  refine slabRefl_abs (div_pos h0 he) ((div_le_one he).2 h1) (div_pos he hs) ((div_le_one hs).2 h2) (Real.exp_pos _).le
    (Real.exp_le_one_iff.2 ?_)
  have : 0 ≤ clipped (q * t) := by
    unfold clipped
    exact le_min (le_max_of_le_left hqt) maxExpArg_pos.le
  linarith

end Snompy
