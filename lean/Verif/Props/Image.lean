import Verif.Lemmas.Quad
import Verif.Props.Quasistatic
import Mathlib.Analysis.Complex.Convex

/-!
# C28–C31: averages over the field of a point charge and image charges

`env.RuleOk nLag` (`Verif/Spec/Laguerre.lean`) says that numpy's `laggauss` returns a correct rule for the order
in use.  `n_lag = 0` raises (`C28_order_zero`).
-/

namespace Snompy.Props

open Snompy

/-! ## C28 Charge-averaged reflection of a bulk sample is its reflection coefficient -/

theorem C28_average (env : Env) (e sub : ℂ) (nu : Option ℝ) (z : FP ℝ) (nLag : Option ℕ)
    (hr : env.RuleOk nLag) (hs : sub ≠ 0) (h : sub + e ≠ 0) :
    (bulk e sub nu).reflCoefQsAboveSurf env z nLag = (bulk e sub nu).reflCoefQs := by
  unfold Stack.reflCoefQsAboveSurf Env.lagRule
  rw [if_neg hr.1, PyM.ok_bind, C09_refl e sub nu _ hs h, PyM.ok_bind, C09_refl e sub nu _ hs h,
    quad0_num _ _ _ (fun xw => ((xw.2 * xw.1 : ℝ) : ℂ) * ((sub - e) / (sub + e))) fun xw _ => ?_,
    sum_const_mul, hr.2.sum_wx hr.1]
  · simp
  · simp only [C09_refl e sub nu _ hs h, PyM.ok_bind, FP.num_mul, sofR]
    rfl

/-- An environment whose rule of order 2 is right. -/
noncomputable def rule2 (d : Defaults) : Env :=
  ⟨d, fun _ => [(2 - √2, (2 + √2) / 4), (2 + √2, (2 - √2) / 4)]⟩

theorem rule2_ok (d : Defaults) : (rule2 d).RuleOk (some 2) := ⟨two_ne_zero, gaussLaguerre_two⟩

example (d : Defaults) := C28_average (rule2 d) 1 2 none (FP.num 3) (some 2) (rule2_ok d) two_ne_zero
  (by norm_num)

theorem C28_order_zero (env : Env) (s : Stack (FP ℝ) (FP ℂ)) (z : FP ℝ) (nLag : Option ℕ)
    (h : nLag.getD env.defaults.nLag = 0) :
    ∃ m, s.reflCoefQsAboveSurf env z nLag = .error (.valueError m) ∧
      s.surfPotAndField env z nLag = .error (.valueError m) ∧
      s.imageDepthAndCharge env z nLag = .error (.valueError m) := by
  refine ⟨"deg must be a positive integer", ?_⟩
  unfold Stack.reflCoefQsAboveSurf Stack.imageDepthAndCharge Stack.surfPotAndField Env.lagRule
  rw [if_pos h]
  exact ⟨rfl, rfl, rfl⟩

example (env : Env) := C28_order_zero env (bulk 1 2) (FP.num 1) (some 0) rfl

/-! ## C29 Image charge of a bulk sample -/

theorem C29_image (env : Env) (e sub : ℂ) (nu : Option ℝ) (z : ℝ) (hz : 0 < z) (nLag : Option ℕ)
    (hr : env.RuleOk nLag) (hs : sub ≠ 0) (h : sub + e ≠ 0) (hne : sub ≠ e) :
    (bulk e sub nu).imageDepthAndCharge env (FP.num z) nLag =
      .ok (FP.num z, FP.num ((sub - e) / (sub + e))) := by
  have hb : (sub - e) / (sub + e) ≠ 0 := div_ne_zero (sub_ne_zero.2 hne) h
  have hzc : (z : ℂ) ≠ 0 := by exact_mod_cast hz.ne'
  have hsurf := surf_num env (bulk e sub nu) (fun _ => (sub - e) / (sub + e)) z hz.ne' nLag hr.1
    ⟨_, C09_refl e sub nu _ hs h⟩ fun xw _ => C09_refl e sub nu _ hs h
  rw [sum_const_mul _ (fun xw => xw.2), sum_const_mul _ (fun xw => xw.2 * xw.1), hr.2.sum_w hr.1,
    hr.2.sum_wx hr.1] at hsurf
  rw [image_num env _ z nLag _ _ hsurf, if_neg (by
    push_cast
    exact div_ne_zero (by simpa using hb) (by simpa using hzc))]
  generalize (sub - e) / (sub + e) = b at hb
  push_cast
  have h1 : 1 * b / (2 * z) / (1 * b / (4 * (z : ℂ) ^ 2)) = ((2 * z : ℝ) : ℂ) := by
    push_cast
    field_simp
    ring
  have h2 : (1 * b / (2 * z)) ^ 2 / (1 * b / (4 * (z : ℂ) ^ 2)) = b := by
    field_simp
    ring
  rw [h1, h2, Complex.norm_real, Real.norm_of_nonneg (by positivity)]
  ring_nf

example (d : Defaults) := C29_image (rule2 d) 1 2 none 3 (by norm_num) (some 2) (rule2_ok d) two_ne_zero
  (by norm_num) (by norm_num)

theorem C29_no_contrast (env : Env) (e : ℂ) (nu : Option ℝ) (z : ℝ) (hz : 0 < z) (nLag : Option ℕ)
    (hr : env.RuleOk nLag) (hs : e ≠ 0) :
    (bulk e e nu).imageDepthAndCharge env (FP.num z) nLag = .ok (FP.nan, FP.nan) := by
  have h : e + e ≠ 0 := by rw [← two_mul]; exact mul_ne_zero two_ne_zero hs
  have hsurf := surf_num env (bulk e e nu) (fun _ => (e - e) / (e + e)) z hz.ne' nLag hr.1
    ⟨_, C09_refl e e nu _ hs h⟩ fun xw _ => C09_refl e e nu _ hs h
  rw [sub_self, zero_div] at hsurf
  rw [image_num env _ z nLag _ _ hsurf, if_pos (by simp)]

example (d : Defaults) := C29_no_contrast (rule2 d) 1 none 3 (by norm_num) (some 2) (rule2_ok d)
  one_ne_zero

/-! ## C30 The charge average is an average -/

/-- The values of `refl_coef_qs` may be any function `b` of the momentum. -/
theorem C30_convex (env : Env) (s : Stack (FP ℝ) (FP ℂ)) (b : ℝ → ℂ)
    (hb : ∀ q, 0 < q → s.reflCoefQs (FP.num q) = .ok (FP.num (b q)))
    (z : ℝ) (hz : 0 < z) (nLag : Option ℕ) (hr : env.RuleOk nLag)
    (K : Set ℂ) (hK : Convex ℝ K) (hbK : ∀ q, 0 < q → b q ∈ K) :
    ∃ v ∈ K, s.reflCoefQsAboveSurf env (FP.num z) nLag = .ok (FP.num v) := by
  have hpos : ∀ xw ∈ env.laggauss (nLag.getD env.defaults.nLag), 0 < xw.1 / (2 * z) :=
    fun xw hxw => div_pos (hr.2.node_pos xw hxw) (by positivity)
  refine ⟨_, ?_, aboveSurf_num env s b z hz.ne' nLag hr.1 ⟨_, hb z hz⟩ fun xw hxw => hb _ (hpos xw hxw)⟩
  exact sum_mem_convex hK _ (fun xw => xw.2 * xw.1)
    (fun xw hxw => (mul_pos (hr.2.weight_pos xw hxw) (hr.2.node_pos xw hxw)).le)
    (hr.2.sum_wx hr.1) (fun xw => b (xw.1 / (2 * z))) fun xw hxw => hbK _ (hpos xw hxw)

/-- The disc around zero. -/
theorem C30_bound (env : Env) (s : Stack (FP ℝ) (FP ℂ)) (b : ℝ → ℂ)
    (hb : ∀ q, 0 < q → s.reflCoefQs (FP.num q) = .ok (FP.num (b q)))
    (z : ℝ) (hz : 0 < z) (nLag : Option ℕ) (hr : env.RuleOk nLag) (M : ℝ)
    (hM : ∀ q, 0 < q → ‖b q‖ ≤ M) :
    ∃ v, s.reflCoefQsAboveSurf env (FP.num z) nLag = .ok (FP.num v) ∧ ‖v‖ ≤ M := by
  obtain ⟨v, hv, h⟩ := C30_convex env s b hb z hz nLag hr (Metric.closedBall 0 M)
    (convex_closedBall 0 M) fun q hq => by simpa using hM q hq
  exact ⟨v, h, by simpa using hv⟩

example (d : Defaults) := C30_bound (rule2 d) (bulk 1 2) _
  (fun q _ => C09_refl 1 2 none _ two_ne_zero (by norm_num)) 3 (by norm_num) (some 2) (rule2_ok d)
  1 fun q _ => by norm_num

/-- Passive stacks have a passive charge average. -/
theorem C30_passive (env : Env) (e : ℝ) (L : List (ℂ × ℝ)) (sub : ℂ) (nu : Option ℝ) (h0 : 0 < e)
    (hL : ∀ l ∈ L, Passive l.1 ∧ 0 ≤ l.2) (hs : Passive sub)
    (z : ℝ) (hz : 0 < z) (nLag : Option ℕ) (hr : env.RuleOk nLag) :
    ∃ v, (layered e L sub nu).reflCoefQsAboveSurf env (FP.num z) nLag = .ok (FP.num v) ∧
      0 ≤ v.im := by
  choose b hb hbi using fun q (hq : 0 < q) => C15_passive e L sub nu q h0 hL hs hq.le
  obtain ⟨v, hv, h⟩ := C30_convex env (layered e L sub nu)
    (fun q => if hq : 0 < q then b q hq else 0)
    (fun q hq => by rw [dif_pos hq]; exact hb q hq) z hz nLag hr {w | 0 ≤ w.im}
    (convex_halfSpace_im_ge 0) fun q hq => by
      rw [dif_pos hq]
      exact hbi q hq
  exact ⟨v, h, hv⟩

example (d : Defaults) := C30_passive (rule2 d) 1 [(⟨-2, 1⟩, 30)] 11.7 none one_pos
  (by intro l hl; simp only [List.mem_singleton] at hl; subst hl; simp [Passive])
  (Or.inr (by norm_num)) 3 (by norm_num) (some 2) (rule2_ok d)

/-! ## C31 Potential, field, image charge and charge average are consistent -/

/-- For every sample, also one whose reflection coefficient raises or is not finite. -/
theorem C31_average (env : Env) (s : Stack (FP ℝ) (FP ℂ)) (z : ℝ) (hz : z ≠ 0) (nLag : Option ℕ) :
    s.reflCoefQsAboveSurf env (FP.num z) nLag = (do
      let (_, E) ← s.surfPotAndField env (FP.num z) nLag
      pure (FP.num (4 * (z : ℂ) ^ 2) * E)) := by
  have hz4 : ((4 * z ^ 2 : ℝ) : ℂ) ≠ 0 := by
    exact_mod_cast mul_ne_zero four_ne_zero (pow_ne_zero 2 hz)
  unfold Stack.reflCoefQsAboveSurf Stack.surfPotAndField
  cases env.lagRule (nLag.getD env.defaults.nLag) with
  | error e => rfl
  | ok rule =>
    simp only [PyM.ok_bind]
    cases s.reflCoefQs (FP.num z) with
    | error e => rfl
    | ok lk =>
      simp only [PyM.ok_bind, quad0_unfold]
      rw [mapM_bind_ok rule (fun xw => s.reflCoefQs (FP.num xw.1 / (lit 2 * FP.num z)))
        (fun xw b => ofR (FP.num xw.2 * FP.num xw.1) * b),
        mapM_bind_ok rule (fun xw => s.reflCoefQs (FP.num xw.1 / (lit 2 * FP.num z)))
        (fun xw b => ofR (FP.num xw.2) * b)]
      cases rule.mapM fun xw => s.reflCoefQs (FP.num xw.1 / (lit 2 * FP.num z)) with
      | error e => rfl
      | ok bs =>
        simp only [PyM.ok_bind, PyM.pure_eq_ok, slit, snpow, FP.num_mul, sofR]
        congr 1
        generalize FP.sum (α := ℂ) _ = S
        cases S with
        | nan => simp
        | num S =>
          rw [FP.num_div _ hz4, FP.num_mul]
          congr 1
          push_cast at hz4 ⊢
          rw [mul_div_cancel₀ _ hz4]

example (env : Env) := C31_average env (layered 1 [(2, 3)] 4) 1 one_ne_zero none

/-- The image of a surface potential and field: depth `|phi/E| - z` and charge `phi²/E`, not finite
without field. -/
theorem C31_image (env : Env) (s : Stack (FP ℝ) (FP ℂ)) (z : ℝ) (nLag : Option ℕ) (phi E : ℂ)
    (h : s.surfPotAndField env (FP.num z) nLag = .ok (FP.num phi, FP.num E)) :
    (E ≠ 0 → s.imageDepthAndCharge env (FP.num z) nLag =
      .ok (FP.num (‖phi / E‖ - z), FP.num (phi * (phi / E)))) ∧
    (E = 0 → s.imageDepthAndCharge env (FP.num z) nLag = .ok (FP.nan, FP.nan)) := by
  rw [image_num env s z nLag phi E h]
  constructor <;> intro hE
  · rw [if_neg hE]
    ring_nf
  · rw [if_pos hE]

/-- The returned image charge reproduces the potential and the field at the surface when `phi/E` is
positive. -/
theorem C31_source (env : Env) (s : Stack (FP ℝ) (FP ℂ)) (z : ℝ) (nLag : Option ℕ) (phi E : ℂ)
    (h : s.surfPotAndField env (FP.num z) nLag = .ok (FP.num phi, FP.num E)) (r : ℝ) (hr : 0 < r)
    (hpe : phi / E = r) :
    ∃ (d : ℝ) (β : ℂ), s.imageDepthAndCharge env (FP.num z) nLag = .ok (FP.num d, FP.num β) ∧
      β / (z + d : ℝ) = phi ∧ β / (z + d : ℝ) ^ 2 = E := by
  have hE : E ≠ 0 := by
    rintro rfl
    rw [div_zero] at hpe
    exact hr.ne (by exact_mod_cast hpe)
  refine ⟨_, _, (C31_image env s z nLag phi E h).1 hE, ?_⟩
  have hrc : (r : ℂ) ≠ 0 := by exact_mod_cast hr.ne'
  rw [hpe, Complex.norm_real, Real.norm_of_nonneg hr.le, add_sub_cancel]
  rw [div_eq_iff hE] at hpe
  subst hpe
  constructor <;> field_simp

/-- A bulk sample has `phi/E = 2z`. -/
theorem example_image (d : Defaults) : ∃ (dIm : ℝ) (β : ℂ),
    (bulk 1 2).imageDepthAndCharge (rule2 d) (FP.num 1) (some 2) = .ok (FP.num dIm, FP.num β) ∧
      β / (1 + dIm : ℝ) = 1 / 6 ∧ β / (1 + dIm : ℝ) ^ 2 = 1 / 12 := by
  have h : (bulk 1 2).surfPotAndField (rule2 d) (FP.num 1) (some 2) =
      .ok (FP.num (1 / 6), FP.num (1 / 12)) := by
    have hr := rule2_ok d
    have := surf_num (rule2 d) (bulk 1 2) (fun _ => 1 / 3) 1 one_ne_zero (some 2) two_ne_zero
      ⟨_, C09_refl 1 2 none _ two_ne_zero (by norm_num)⟩ fun xw _ => by
        rw [C09_refl 1 2 none _ two_ne_zero (by norm_num)]; norm_num
    rw [sum_const_mul _ (fun xw => xw.2), sum_const_mul _ (fun xw => xw.2 * xw.1), hr.2.sum_w hr.1,
      hr.2.sum_wx hr.1] at this
    rw [this]
    norm_num
  exact C31_source _ _ 1 _ _ _ h 2 two_pos (by norm_num)

end Snompy.Props
