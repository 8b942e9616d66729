import Verif.Lemmas.DoubleThick
import Verif.Model.Fdm

/-!
# `nan` in sums over quadrature nodes
-/

namespace Snompy

variable {L : Libm}

/-- A value that spoils every result it enters. -/
structure Absorbs {C : Type} [CplxOps (F64 L) ℤ C] (n : C) : Prop where
  add_right : ∀ a : C, a + n = n
  add_left : ∀ a : C, n + a = n
  mul_right : ∀ a : C, a * n = n
  mul_left : ∀ a : C, n * a = n
  div_right : ∀ a : C, a / n = n
  div_left : ∀ a : C, n / a = n
  sq : CplxOps.cpow n 2 = n
  quad : ∀ (rule : List (ℝ × ℝ)) (like : List (F64 L ⊕ C)) (body : F64 L → F64 L → PyM C),
    (∀ x w, ∃ v, body x w = .ok v) → (∃ p ∈ rule, body (F64.ofReal p.1) (F64.ofReal p.2) = .ok n) →
    CplxOps.quad0 rule like body = .ok n
  quad_ok : ∀ (rule : List (ℝ × ℝ)) (like : List (F64 L ⊕ C)) (body : F64 L → F64 L → PyM C),
    (∀ x w, ∃ v, body x w = .ok v) → ∃ v, CplxOps.quad0 rule like body = .ok v

theorem foldl_absorbs {C : Type} [Add C] {n : C} (h1 : ∀ a : C, a + n = n) (h2 : ∀ a : C, n + a = n) (l : List C) (a : C)
    (h : a = n ∨ n ∈ l) : l.foldl (· + ·) a = n := by
  induction l generalizing a with
  | nil => simpa using h
  | cons b l ih =>
    refine ih _ ?_
    rcases h with rfl | h
    · exact Or.inl (h2 b)
    · rcases List.mem_cons.1 h with rfl | h
      · exact Or.inl (h1 a)
      · exact Or.inr h

theorem mapM_all {C ι : Type} (f : ι → PyM C) (hf : ∀ i, ∃ v, f i = .ok v) (l : List ι) : ∃ vs, l.mapM f = .ok vs := by
  induction l with
  | nil => exact ⟨[], rfl⟩
  | cons i l ih =>
    obtain ⟨vs, hvs⟩ := ih
    obtain ⟨v, hv⟩ := hf i
    exact ⟨v :: vs, by rw [List.mapM_cons, hv, hvs]; rfl⟩

theorem mapM_absorbs {C ι : Type} {n : C} (f : ι → PyM C) (l : List ι) (hf : ∀ i, ∃ v, f i = .ok v) (h : ∃ i ∈ l, f i = .ok n) :
    ∃ vs, l.mapM f = .ok vs ∧ n ∈ vs := by
  have hall := mapM_all f hf
  induction l with
  | nil => obtain ⟨i, hi, -⟩ := h; cases hi
  | cons i l ih =>
    obtain ⟨j, hj, hn⟩ := h
    rcases List.mem_cons.1 hj with rfl | hj
    · obtain ⟨vs, hvs⟩ := hall l
      exact ⟨n :: vs, by rw [List.mapM_cons, hn, hvs]; rfl, by simp⟩
    · obtain ⟨vs, hvs, hm⟩ := ih ⟨j, hj, hn⟩
      obtain ⟨v, hv⟩ := hf i
      exact ⟨v :: vs, by rw [List.mapM_cons, hv, hvs]; rfl, by simp [hm]⟩

theorem absorbsF64 : Absorbs (L := L) (.nan : F64 L) where
  add_right := F64.add_nan
  add_left := F64.nan_add
  mul_right := F64.mul_nan
  mul_left := F64.nan_mul
  div_right := F64.div_nan
  div_left := F64.nan_div
  sq := rfl
  quad rule like body hf h := by
    obtain ⟨vs, hvs, hm⟩ := mapM_absorbs (fun xw : ℝ × ℝ => body (F64.ofReal xw.1) (F64.ofReal xw.2)) rule
      (fun i => hf _ _) h
    show (rule.mapM fun xw => body (F64.ofReal xw.1) (F64.ofReal xw.2)) >>= _ = _
    rw [hvs]
    show Except.ok (F64.sum vs) = _
    rw [F64.sum, foldl_absorbs F64.add_nan F64.nan_add _ _ (Or.inr hm)]
  quad_ok rule like body hf := by
    obtain ⟨vs, hvs⟩ := mapM_all (fun xw : ℝ × ℝ => body (F64.ofReal xw.1) (F64.ofReal xw.2)) (fun i => hf _ _) rule
    exact ⟨F64.sum vs, by
      show (rule.mapM fun xw => body (F64.ofReal xw.1) (F64.ofReal xw.2)) >>= _ = _
      rw [hvs]
      rfl⟩

/-- `nan + nan j` -/
def C128.nan (L : Libm) : C128 L := ⟨.nan, .nan⟩

theorem C128.add_nan (a : C128 L) : a + C128.nan L = C128.nan L := by
  show (⟨a.re + .nan, a.im + .nan⟩ : C128 L) = _
  rw [F64.add_nan, F64.add_nan]; rfl

theorem C128.nan_add (a : C128 L) : C128.nan L + a = C128.nan L := by
  show (⟨.nan + a.re, .nan + a.im⟩ : C128 L) = _
  rw [F64.nan_add, F64.nan_add]; rfl

theorem absorbsC128 : Absorbs (C128.nan L) where
  add_right := C128.add_nan
  add_left := C128.nan_add
  mul_right a := by
    show (⟨a.re * .nan - a.im * .nan, a.re * .nan + a.im * .nan⟩ : C128 L) = _
    simp only [F64.mul_nan, F64.nan_sub, F64.nan_add]; rfl
  mul_left a := by
    show (⟨.nan * a.re - .nan * a.im, .nan * a.im + .nan * a.re⟩ : C128 L) = _
    simp only [F64.nan_mul, F64.nan_sub, F64.nan_add]; rfl
  div_right a := by
    show C128.div a ⟨.nan, .nan⟩ = _
    unfold C128.div C128.absGe
    simp only [Bool.false_eq_true, if_false, F64.div_nan, F64.mul_nan, F64.nan_add, F64.nan_sub, F64.add_nan]
    rfl
  div_left a := by
    show C128.div ⟨.nan, .nan⟩ a = _
    unfold C128.div
    simp only [F64.nan_div, F64.nan_mul, F64.add_nan, F64.nan_sub, ite_self]
    rfl
  sq := rfl
  quad rule like body hf h := by
    obtain ⟨vs, hvs, hm⟩ := mapM_absorbs (fun xw : ℝ × ℝ => body (F64.ofReal xw.1) (F64.ofReal xw.2)) rule
      (fun i => hf _ _) h
    show (rule.mapM fun xw => body (F64.ofReal xw.1) (F64.ofReal xw.2)) >>= _ = _
    rw [hvs]
    show Except.ok (C128.sum vs) = _
    rw [C128.sum, foldl_absorbs C128.add_nan C128.nan_add _ _ (Or.inr hm)]
  quad_ok rule like body hf := by
    obtain ⟨vs, hvs⟩ := mapM_all (fun xw : ℝ × ℝ => body (F64.ofReal xw.1) (F64.ofReal xw.2)) (fun i => hf _ _) rule
    exact ⟨C128.sum vs, by
      show (rule.mapM fun xw => body (F64.ofReal xw.1) (F64.ofReal xw.2)) >>= _ = _
      rw [hvs]
      rfl⟩

theorem reflCoefQs_scalar_ok {C : Type} [CplxOps (F64 L) ℤ C] (s : Stack (F64 L) C) {a b : C} {l : List C} (h : s.eps = a :: b :: l)
    (q : F64 L) : ∃ v, s.reflCoefQs q = .ok v := by
  unfold Stack.reflCoefQs Stack.transferMatrixQs
  rw [h]
  cases l <;> by_cases hm : s.multilayer = true <;> simp [hm]

section

variable {C : Type} [CplxOps (F64 L) ℤ C] {n : C} (hn : Absorbs (L := L) n) {s : Stack (F64 L) C} {env : Env} {zQ : F64 L}
  {nLag : Option ℕ} (hs : ∀ q, ∃ v, s.reflCoefQs q = .ok v) (h0 : nLag.getD env.defaults.nLag ≠ 0)
  (hnode : ∃ p ∈ env.laggauss (nLag.getD env.defaults.nLag),
    s.reflCoefQs (F64.ofReal p.1 / (lit 2 * zQ)) = .ok n)

include hn hs h0 hnode

theorem aboveSurf_absorbs : s.reflCoefQsAboveSurf env zQ nLag = .ok n := by
  obtain ⟨p, hp, hv⟩ := hnode
  obtain ⟨like, hl⟩ := hs zQ
  simp only [Stack.reflCoefQsAboveSurf, Env.lagRule, if_neg h0, PyM.ok_bind, hl]
  refine hn.quad _ _ _ (fun x w => ?_) ⟨p, hp, ?_⟩
  · obtain ⟨v, hv⟩ := hs (x / (lit 2 * zQ))
    exact ⟨_, by rw [hv]; rfl⟩
  · rw [hv, PyM.ok_bind, hn.mul_right]; rfl

theorem surf_absorbs : s.surfPotAndField env zQ nLag = .ok (n, n) := by
  obtain ⟨p, hp, hv⟩ := hnode
  obtain ⟨like, hl⟩ := hs zQ
  have h1 : CplxOps.quad0 (env.laggauss (nLag.getD env.defaults.nLag)) [.inr like] (fun x w => do
      let q := x / (lit 2 * zQ)
      let betaQ ← s.reflCoefQs q
      pure (ofR w * betaQ)) = .ok n := by
    refine hn.quad _ _ _ (fun x w => ?_) ⟨p, hp, ?_⟩
    · obtain ⟨v, hv⟩ := hs (x / (lit 2 * zQ))
      exact ⟨_, by simp only [hv]; rfl⟩
    · simp only [hv, PyM.ok_bind, hn.mul_right]; rfl
  have h2 : CplxOps.quad0 (env.laggauss (nLag.getD env.defaults.nLag)) [.inr like] (fun x w => do
      let q := x / (lit 2 * zQ)
      let betaQ ← s.reflCoefQs q
      pure (ofR (w * x) * betaQ)) = .ok n := by
    refine hn.quad _ _ _ (fun x w => ?_) ⟨p, hp, ?_⟩
    · obtain ⟨v, hv⟩ := hs (x / (lit 2 * zQ))
      exact ⟨_, by simp only [hv]; rfl⟩
    · simp only [hv, PyM.ok_bind, hn.mul_right]; rfl
  simp only [Stack.surfPotAndField, Env.lagRule, if_neg h0, PyM.ok_bind, hl]
  rw [h1, PyM.ok_bind, h2, PyM.ok_bind, hn.div_left, hn.div_left]
  rfl

theorem image_absorbs : ∃ d, s.imageDepthAndCharge env zQ nLag = .ok (d, n) := by
  unfold Stack.imageDepthAndCharge
  rw [surf_absorbs hn hs h0 hnode]
  exact ⟨_, by simp only [PyM.ok_bind, hn.sq, hn.div_left]; rfl⟩

omit hnode in
theorem image_scalar_ok : ∃ d, s.imageDepthAndCharge env zQ nLag = .ok d := by
  obtain ⟨like, hl⟩ := hs zQ
  obtain ⟨v1, h1⟩ := hn.quad_ok (env.laggauss (nLag.getD env.defaults.nLag)) [.inr like] (fun x w => do
      let q := x / (lit 2 * zQ)
      let betaQ ← s.reflCoefQs q
      pure (ofR w * betaQ)) (fun x w => by
        obtain ⟨v, hv⟩ := hs (x / (lit 2 * zQ))
        exact ⟨_, by simp only [hv]; rfl⟩)
  obtain ⟨v2, h2⟩ := hn.quad_ok (env.laggauss (nLag.getD env.defaults.nLag)) [.inr like] (fun x w => do
      let q := x / (lit 2 * zQ)
      let betaQ ← s.reflCoefQs q
      pure (ofR (w * x) * betaQ)) (fun x w => by
        obtain ⟨v, hv⟩ := hs (x / (lit 2 * zQ))
        exact ⟨_, by simp only [hv]; rfl⟩)
  simp only [Stack.imageDepthAndCharge, Stack.surfPotAndField, Env.lagRule, if_neg h0, PyM.ok_bind, hl]
  rw [h1, PyM.ok_bind, h2, PyM.ok_bind]
  exact ⟨_, rfl⟩

end

attribute [local irreducible] maxDouble uro eta

/-- The numbers behind `node_momentum`. -/
theorem node_num {x y X Y q t u e : ℝ} (hu : 0 < u) (hu' : u < 1 / 10 ^ 15) (hx : 0 < x) (hy : 0 < y)
    (hX : |X - x| ≤ 2 * u * x) (hY : |Y - y| ≤ 2 * u * y) (hq : |q - X / Y| ≤ u * |X / Y| + e) (he : e ≤ u * (x / y))
    (ht : 750 ≤ x / y * t) : 0 < Y ∧ |X / Y| ≤ 2 * (x / y) ∧ 710 ≤ q * t := by
  rw [abs_le] at hX hY
  have huy : u * y ≤ 1 / 10 ^ 15 * y := mul_le_mul_of_nonneg_right hu'.le hy.le
  have hux : u * x ≤ 1 / 10 ^ 15 * x := mul_le_mul_of_nonneg_right hu'.le hx.le
  have hY0 : 0 < Y := by linarith
  have hX0 : 0 < X := by linarith
  have hxy : 0 < x / y := by positivity
  have h1 : 99 / 100 * (x / y) ≤ X / Y := by
    rw [← mul_div_assoc, div_le_div_iff₀ hy hY0]
    have : 99 / 100 * x * Y ≤ 99 / 100 * x * (y * (1 + 1 / 1000)) := mul_le_mul_of_nonneg_left (by linarith) (by positivity)
    have : (x * (1 - 1 / 1000)) * y ≤ X * y := mul_le_mul_of_nonneg_right (by linarith) hy.le
    have := mul_pos hx hy
    linarith
  have h2 : X / Y ≤ 101 / 100 * (x / y) := by
    rw [← mul_div_assoc, div_le_div_iff₀ hY0 hy]
    have : 101 / 100 * x * (y * (1 - 1 / 1000)) ≤ 101 / 100 * x * Y := mul_le_mul_of_nonneg_left (by linarith) (by positivity)
    have : X * y ≤ (x * (1 + 1 / 1000)) * y := mul_le_mul_of_nonneg_right (by linarith) hy.le
    have := mul_pos hx hy
    linarith
  have hXY : 0 < X / Y := by positivity
  rw [abs_of_pos hXY] at hq ⊢
  refine ⟨hY0, by linarith, ?_⟩
  have ht0 : 0 < t := by
    by_contra h
    have := mul_nonpos_of_nonneg_of_nonpos hxy.le (not_lt.1 h)
    linarith
  have h3 : u * (X / Y) ≤ 1 / 1000 * (X / Y) := mul_le_mul_of_nonneg_right (by linarith) hXY.le
  have h4 : u * (x / y) ≤ 1 / 1000 * (x / y) := mul_le_mul_of_nonneg_right (by linarith) hxy.le
  have h5 : 98 / 100 * (x / y) ≤ q := by
    have := (abs_le.1 hq).1
    linarith
  have h6 := mul_le_mul_of_nonneg_right h5 ht0.le
  linarith

/-- The momentum of a node. -/
theorem node_momentum {x z t : ℝ} (hz : (1 / 2) ^ 500 ≤ z) (hz' : z ≤ 2 ^ 500) (hx : (1 / 2) ^ 500 ≤ x) (hx' : x ≤ 2 ^ 500)
    (h : 1500 * z ≤ x * t) :
    ∃ q, (F64.ofReal x / (lit 2 * F64.fin z) : F64 L) = .fin q ∧ 710 ≤ q * t := by
  have hu := uro_pos
  have hu' := uro_lt
  have he := eta_pos
  have he' := eta_lt
  have hp : (0 : ℝ) < (1 / 2) ^ 500 := by positivity
  have hz0 : 0 < z := hp.trans_le hz
  have hx0 : 0 < x := hp.trans_le hx
  have hPp : (2 : ℝ) ^ 500 * (1 / 2) ^ 500 = 1 := by rw [← mul_pow]; norm_num
  have hPP : (2 : ℝ) ^ 500 * 2 ^ 500 * 4 ≤ maxDouble := by
    rw [← pow_add]
    exact four_pow_le
  have hpp : eta * 4 ≤ uro * ((1 / 2) ^ 500 * (1 / 2) ^ 500) := by
    have h1 : eta * 4 ≤ uro * (1 / 2) ^ 1000 := by
      unfold eta uro
      rw [← pow_add, show 1075 = 1073 + 2 from rfl, pow_add, mul_assoc,
        show ((1 : ℝ) / 2) ^ 2 * 4 = 1 by norm_num, mul_one]
      exact pow_le_pow_of_le_one (by norm_num) (by norm_num) (by norm_num)
    rwa [← pow_add]
  have hP4 : (4 : ℝ) ≤ 2 ^ 500 := le_trans (by norm_num : (4 : ℝ) ≤ 2 ^ 2) (pow_le_pow_right₀ (by norm_num) (by norm_num))
  generalize (2 : ℝ) ^ 500 = P at *
  generalize ((1 : ℝ) / 2) ^ 500 = p at *
  have hP0 : 0 < P := by linarith
  have hp1 : p ≤ 1 := by nlinarith
  have hep : eta * 4 ≤ uro * p := hpp.trans (mul_le_mul_of_nonneg_left (by nlinarith) hu.le)
  have hxz : p * p / 2 ≤ x / (2 * z) := by
    rw [div_le_div_iff₀ (by norm_num) (by positivity)]
    have : p * z ≤ p * P := mul_le_mul_of_nonneg_left hz' hp.le
    have : p * (p * z) ≤ p * 1 := mul_le_mul_of_nonneg_left (by linarith) hp.le
    linarith
  have hxz' : x / (2 * z) ≤ P * P / 2 := by
    rw [div_le_div_iff₀ (by positivity) (by norm_num)]
    have h1 : P * p ≤ P * z := mul_le_mul_of_nonneg_left hz hP0.le
    have h2 : P * 1 ≤ P * (P * z) := mul_le_mul_of_nonneg_left (by linarith) hP0.le
    linarith
  have hX : |rnd x - x| ≤ 2 * uro * x := by
    have h1 := rnd_err x
    rw [abs_of_pos hx0] at h1
    have : uro * p ≤ uro * x := mul_le_mul_of_nonneg_left hx hu.le
    linarith
  have hY : |rnd (2 * z) - 2 * z| ≤ 2 * uro * (2 * z) := by
    have h1 := rnd_err (2 * z)
    rw [abs_of_pos (show 0 < 2 * z by positivity)] at h1
    have : uro * p ≤ uro * z := mul_le_mul_of_nonneg_left hz hu.le
    linarith
  have hee : eta ≤ uro * (x / (2 * z)) := by
    have := mul_le_mul_of_nonneg_left hxz hu.le
    linarith
  obtain ⟨hY0, hXY, hq⟩ := node_num hu hu' hx0 (by positivity : 0 < 2 * z) hX hY (rnd_err (rnd x / rnd (2 * z))) hee (by
    rw [div_mul_eq_mul_div, le_div_iff₀ (by positivity)]
    linarith : 750 ≤ x / (2 * z) * t)
  refine ⟨rnd (rnd x / rnd (2 * z)), ?_, hq⟩
  have hPP1 : P * 4 ≤ P * P := mul_le_mul_of_nonneg_left hP4 hP0.le
  have f1 : (F64.ofReal x : F64 L) = .fin (rnd x) := by
    refine F64.ofReal_room ?_
    rw [abs_of_pos hx0]
    have : x * (1 + 2 * uro) ≤ P * 2 := mul_le_mul hx' (by linarith) (by linarith) hP0.le
    linarith
  have f2 : (F64.ofReal (2 * z) : F64 L) = .fin (rnd (2 * z)) := by
    refine F64.ofReal_room ?_
    rw [abs_of_pos (by positivity)]
    have : 2 * z * (1 + 2 * uro) ≤ 2 * P * 2 := mul_le_mul (by linarith) (by linarith) (by linarith) (by linarith)
    linarith
  have f3 : (F64.ofReal (rnd x / rnd (2 * z)) : F64 L) = .fin (rnd (rnd x / rnd (2 * z))) := by
    refine F64.ofReal_room ?_
    have h1 : |rnd x / rnd (2 * z)| ≤ P * P := by linarith
    have : |rnd x / rnd (2 * z)| * (1 + 2 * uro) ≤ P * P * 2 := mul_le_mul h1 (by linarith) (by linarith) (by positivity)
    have : 0 < P * P := by positivity
    linarith
  have f4 : (lit 2 : F64 L) = .fin 2 := F64.ofReal_two
  rw [f4, F64.fin_mul, f1, f2, F64.fin_div _ hY0.ne', f3]

end Snompy
