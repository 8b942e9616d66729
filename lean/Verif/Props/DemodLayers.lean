import Verif.Lemmas.RealAnalytic
import Verif.Lemmas.AnalyticHeight
import Verif.Props.DemodRate
import Verif.Props.Resonance
import Verif.Props.LaguerreRule

/-!
# C131: demodulation converges geometrically for real-analytic signals, and so above layers

`C89` starts from signals that are holomorphic around the range of the oscillation.  It suffices that they are real-analytic on it.
-/

namespace Snompy.Props

open Snompy Filter Topology

/-- For every signal that is real-analytic on the range of the oscillation. -/
theorem C131_signal (env : Env) (g : ℝ → ℂ) (x0 amp : ℝ) (hA : 0 < amp) (hg : ∀ x, x0 - amp ≤ x → x ≤ x0 + amp → AnalyticAt ℝ g x)
    (n : ℤ) :
    ∃ s > 0, ∃ C : ℝ, ∀ N : ℕ, N ≠ 0 →
      ∃ v, demod env (onFinite g) (FP.num x0) (FP.num amp) (FP.num n) (some N) = .ok (FP.num v) ∧
        ‖v - lockin g x0 amp n‖ ≤ C * Real.exp (-(s * N)) := by
  obtain ⟨U, G, hU, hS, hd, hG⟩ := exists_holomorphic (S := Set.Icc (x0 - amp) (x0 + amp)) fun x hx => hg x hx.1 hx.2
  obtain ⟨s, hs, C, h⟩ := C89_geometric env G x0 amp hA U hU (fun x h1 h2 => hS x ⟨h1, h2⟩) hd n
  have hcos : ∀ θ : ℝ, x0 - amp ≤ x0 + amp * Real.cos θ ∧ x0 + amp * Real.cos θ ≤ x0 + amp := fun θ => by
    have h1 := mul_le_mul_of_nonneg_left (Real.cos_le_one θ) hA.le
    have h2 := mul_le_mul_of_nonneg_left (Real.neg_one_le_cos θ) hA.le
    constructor <;> linarith
  have hl : lockin (fun x : ℝ => G x) x0 amp n = lockin g x0 amp n := by
    unfold lockin
    congr 1
    refine intervalIntegral.integral_congr fun θ _ => ?_
    simp only
    rw [hG _ ⟨(hcos θ).1, (hcos θ).2⟩]
  have hdem : ∀ N : ℕ, demod env (onFinite g) (FP.num x0) (FP.num amp) (FP.num n) (some N) =
      demod env (onFinite fun x : ℝ => G x) (FP.num x0) (FP.num amp) (FP.num n) (some N) := fun N =>
    demod_ext env _ _ x0 hA.le (FP.num (n : ℝ)) (some N) fun x h1 h2 => by
      simp only [onFinite, FP.map]
      rw [hG x ⟨h1, h2⟩]
  refine ⟨s, hs, C, fun N hN => ?_⟩
  rw [hdem, ← hl]
  exact h N hN

/-- A Lorentzian between -1 and 1. -/
example (env : Env) := C131_signal env (fun x => ((1 + x ^ 2)⁻¹ : ℝ)) 0 1 one_pos (fun x _ _ => by
    refine AnalyticAt.comp (g := fun x : ℝ => (x : ℂ)) (Complex.ofRealCLM.analyticAt _) ?_
    exact ((analyticAt_const (v := (1 : ℝ))).add (analyticAt_id.pow 2)).inv (by
      show (1 : ℝ) + x ^ 2 ≠ 0
      positivity)) 2

/-- The same for `eff_pol_n`, with any model that depends analytically on the height along the oscillation. -/
theorem C131_model (env : Env) (f : FP ℝ → PyM (FP ℂ)) (z amp : ℝ) (hA : 0 < amp)
    (hf : ∀ x, z ≤ x → x ≤ z + 2 * amp → IsAnalytic ℝ x fun x : ℝ => f (FP.num x)) (n : ℤ) :
    ∃ F : ℝ → ℂ, (∀ x, z ≤ x → x ≤ z + 2 * amp → f (FP.num x) = .ok (FP.num (F x))) ∧
      ∃ ρ > 0, ∃ C : ℝ, ∀ N : ℕ, N ≠ 0 →
        ∃ v, demod env f (FP.num z + FP.num amp) (FP.num amp) (FP.num n) (some N) = .ok (FP.num v) ∧
          ‖v - lockin F (z + amp) amp n‖ ≤ C * Real.exp (-(ρ * N)) := by
  let F : ℝ → ℂ := fun x => match f (FP.num x) with
    | .ok (.num v) => v
    | _ => 0
  have hF : ∀ (x : ℝ) (v : ℂ), f (FP.num x) = .ok (FP.num v) → F x = v := fun x v h => by
    simp only [F]
    rw [h]
  have hval : ∀ x, z ≤ x → x ≤ z + 2 * amp → f (FP.num x) = .ok (FP.num (F x)) := fun x h1 h2 => by
    obtain ⟨v, hv, -⟩ := hf x h1 h2
    have h : f (FP.num x) = _ := hv.self_of_nhds
    rw [h, hF x _ h]
  obtain ⟨s, hs, C, h⟩ := C131_signal env F (z + amp) amp hA (fun x h1 h2 => by
    obtain ⟨v, hv, ha⟩ := hf x (by linarith) (by linarith)
    refine ha.congr ?_
    filter_upwards [hv] with a ha
    exact (hF a _ ha).symm) n
  refine ⟨F, hval, s, hs, C, fun N hN => ?_⟩
  obtain ⟨v, hv, hle⟩ := h N hN
  refine ⟨v, ?_, hle⟩
  rw [FP.num_add]
  refine Eq.trans ?_ hv
  exact demod_ext env _ _ (z + amp) hA.le (FP.num (n : ℝ)) (some N) fun x h1 h2 => hval x (by linarith) (by linarith)

example (env : Env) := C131_model env (fun x => .ok (ofR x)) 0 1 one_pos (fun x _ _ =>
  ⟨fun x => (x : ℂ), Eventually.of_forall fun _ => rfl, Complex.ofRealCLM.analyticAt x⟩) 1

section Layers

variable {e sub : ℂ} {L : List (ℂ × ℝ)} {nu : Option ℝ}

/-- The charge average of the finite dipole model. -/
theorem fdm_average_analytic (env : Env) (x r l : ℝ) (g : ℂ) (d0 d1 dA : ℝ) (nLag : Option ℕ)
    (hk : RuleUnkinked env nLag L (.num (x + r * dA))) :
    PyT (𝓝 x) (FPA ℝ x) (fun a => Fdm.effPol env (layered e L sub nu) (some (FP.num a)) (fdmTip r l g d0 d1 dA) nLag (some "Q_ave"))
      (Fdm.effPol env (layered e L sub nu) (some (FP.num x)) (fdmTip r l g d0 d1 dA) nLag (some "Q_ave")) := by
  have hz := num_analytic x
  unfold Fdm.effPol
  simp only [Option.getD_some, String.reduceEq, if_false, if_true]
  refine (aboveSurf_analytic env (hz.add (FPA.const (FP.num r * FP.num dA))) nLag hk).bind fun b b0 hb => ?_
  exact PyT.ok (hb.fdmFormula (hz.fdmGeom (FPA.const _) (FPA.const _) (FPA.const _) (FPA.const _)) hb
    (hz.fdmGeom (FPA.const _) (FPA.const _) (FPA.const _) (FPA.const _)))

/-- The image charges of the finite dipole model. -/
theorem fdm_image_analytic (env : Env) (x r l : ℝ) (g : ℂ) (d0 d1 dA : ℝ) (nLag : Option ℕ)
    (hk0 : RuleUnkinked env nLag L (.num (x + r * d0))) (hk1 : RuleUnkinked env nLag L (.num (x + r * d1)))
    (h0 : ∀ d, (layered e L sub nu).imageDepthAndCharge env (.num (x + r * d0)) nLag ≠ .ok (d, .num 0))
    (h1 : ∀ d, (layered e L sub nu).imageDepthAndCharge env (.num (x + r * d1)) nLag ≠ .ok (d, .num 0)) :
    PyT (𝓝 x) (FPA ℝ x) (fun a => Fdm.effPol env (layered e L sub nu) (some (FP.num a)) (fdmTip r l g d0 d1 dA) nLag (some "multi"))
      (Fdm.effPol env (layered e L sub nu) (some (FP.num x)) (fdmTip r l g d0 d1 dA) nLag (some "multi")) := by
  have hz := num_analytic x
  unfold Fdm.effPol
  simp only [Option.getD_some, String.reduceEq, if_false, if_true]
  refine (image_analytic env (hz.add (FPA.const (FP.num r * FP.num d0))) nLag hk0 h0).bind fun v v0 hv => ?_
  refine (image_analytic env (hz.add (FPA.const (FP.num r * FP.num d1))) nLag hk1 h1).bind fun u u0 hu => ?_
  exact PyT.ok (hv.2.fdmFormula (hz.fdmGeomMulti hv.1 (FPA.const _) (FPA.const _) (FPA.const _)) hu.2
    (hz.fdmGeomMulti hu.1 (FPA.const _) (FPA.const _) (FPA.const _)))

/-- The point where the clipping of `q t` sets in is not met: the momenta of the rule times the thicknesses differ from `log` of the
largest double all along the oscillation of a charge between `a` and `b`. -/
def NoKink (env : Env) (nLag : Option ℕ) (L : List (ℂ × ℝ)) (a b : ℝ) : Prop :=
  ∀ x, a ≤ x → x ≤ b → ∀ xw ∈ env.laggauss (nLag.getD env.defaults.nLag), ∀ l ∈ L, |xw.1 / (2 * x) * l.2| ≠ maxExpArg

theorem NoKink.unkinked {env : Env} {nLag : Option ℕ} {a b c d : ℝ} (h : NoKink env nLag L (a + c) (b + c)) (h1 : a ≤ d) (h2 : d ≤ b) :
    RuleUnkinked env nLag L (.num (d + c)) :=
  .of_num fun xw hxw l hl => h _ (by linarith) (by linarith) xw hxw l hl

/-- It is not met by layers that are not thick: the clipping does not set in. -/
theorem NoKink.of_thin {env : Env} {nLag : Option ℕ} (hr : env.RuleOk nLag) {a b : ℝ} (ha : 0 < a)
    (hL : ∀ l ∈ L, 0 ≤ l.2 ∧ (4 * ((nLag.getD env.defaults.nLag : ℕ) : ℝ) - 2) * l.2 ≤ 1418 * a) : NoKink env nLag L a b := by
  intro x hx _ xw hxw l hl
  have hb := C130_bounds _ _ hr.2 xw hxw
  have hp := hr.2.node_pos xw hxw
  obtain ⟨h1, h2⟩ := hL l hl
  have hx0 : 0 < x := by linarith
  rw [abs_of_nonneg (by positivity)]
  refine ne_of_lt (lt_of_le_of_lt ?_ maxExpArg_gt)
  rw [div_mul_eq_mul_div, div_le_iff₀ (by linarith)]
  have := mul_le_mul_of_nonneg_right hb.2.le h1
  linarith

/-- The method `Q_ave` above layers, wherever the effective polarisability is a number. -/
theorem C131_average (env : Env) (e sub : ℂ) (L : List (ℂ × ℝ)) (nu : Option ℝ) (z amp r l : ℝ) (g : ℂ) (d0 d1 dA : ℝ) (hA : 0 < amp)
    (nLag : Option ℕ) (hk : NoKink env nLag L (z + r * dA) (z + 2 * amp + r * dA))
    (hfin : ∀ x, z ≤ x → x ≤ z + 2 * amp → ∃ v : ℂ,
      Fdm.effPol env (layered e L sub nu) (some (FP.num x)) (fdmTip r l g d0 d1 dA) nLag (some "Q_ave") = .ok (FP.num v)) (n : ℤ) :
    ∃ f : ℝ → ℂ, (∀ x, z ≤ x → x ≤ z + 2 * amp →
        Fdm.effPol env (layered e L sub nu) (some (FP.num x)) (fdmTip r l g d0 d1 dA) nLag (some "Q_ave") = .ok (FP.num (f x))) ∧
      ∃ ρ > 0, ∃ C : ℝ, ∀ N : ℕ, N ≠ 0 →
        ∃ v, Fdm.effPolN env (layered e L sub nu) (FP.num amp) (FP.num n) (some (FP.num z)) (some N) (fdmTip r l g d0 d1 dA) nLag
            (some "Q_ave") = .ok (FP.num v) ∧
          ‖v - lockin f (z + amp) amp n‖ ≤ C * Real.exp (-(ρ * N)) :=
  C131_model env (fun x => Fdm.effPol env (layered e L sub nu) (some x) (fdmTip r l g d0 d1 dA) nLag (some "Q_ave")) z amp hA
    (fun x h1 h2 => by
      obtain ⟨v, hv⟩ := hfin x h1 h2
      exact PyA.finite (fdm_average_analytic env x r l g d0 d1 dA nLag (hk.unkinked h1 h2)) hv) n

/-- The method `multi` above layers, wherever the effective polarisability is a number and the images have a charge. -/
theorem C131_image (env : Env) (e sub : ℂ) (L : List (ℂ × ℝ)) (nu : Option ℝ) (z amp r l : ℝ) (g : ℂ) (d0 d1 dA : ℝ) (hA : 0 < amp)
    (nLag : Option ℕ) (m : Option String) (hm : m = some "multi" ∨ m = none ∧ L ≠ [])
    (hk0 : NoKink env nLag L (z + r * d0) (z + 2 * amp + r * d0)) (hk1 : NoKink env nLag L (z + r * d1) (z + 2 * amp + r * d1))
    (hc : ∀ x, z ≤ x → x ≤ z + 2 * amp → ∀ d, d = d0 ∨ d = d1 → ∀ t,
      (layered e L sub nu).imageDepthAndCharge env (FP.num (x + r * d)) nLag ≠ .ok (t, FP.num 0))
    (hfin : ∀ x, z ≤ x → x ≤ z + 2 * amp → ∃ v : ℂ,
      Fdm.effPol env (layered e L sub nu) (some (FP.num x)) (fdmTip r l g d0 d1 dA) nLag m = .ok (FP.num v)) (n : ℤ) :
    ∃ f : ℝ → ℂ, (∀ x, z ≤ x → x ≤ z + 2 * amp →
        Fdm.effPol env (layered e L sub nu) (some (FP.num x)) (fdmTip r l g d0 d1 dA) nLag m = .ok (FP.num (f x))) ∧
      ∃ ρ > 0, ∃ C : ℝ, ∀ N : ℕ, N ≠ 0 →
        ∃ v, Fdm.effPolN env (layered e L sub nu) (FP.num amp) (FP.num n) (some (FP.num z)) (some N) (fdmTip r l g d0 d1 dA) nLag m =
            .ok (FP.num v) ∧
          ‖v - lockin f (z + amp) amp n‖ ≤ C * Real.exp (-(ρ * N)) := by
  have hdef : ∀ x, Fdm.effPol env (layered e L sub nu) x (fdmTip r l g d0 d1 dA) nLag m =
      Fdm.effPol env (layered e L sub nu) x (fdmTip r l g d0 d1 dA) nLag (some "multi") := fun x => by
    rcases hm with rfl | ⟨rfl, hL⟩
    · rfl
    · rw [Fdm.effPol_default]
      have : (layered e L sub nu).multilayer = true := by
        cases L with
        | nil => exact absurd rfl hL
        | cons a L => simp [layered, Stack.multilayer, Stack.nLayers]
      rw [this]
      rfl
  refine C131_model env (fun x => Fdm.effPol env (layered e L sub nu) (some x) (fdmTip r l g d0 d1 dA) nLag m) z amp hA
    (fun x h1 h2 => ?_) n
  obtain ⟨v, hv⟩ := hfin x h1 h2
  simp only [hdef] at hv ⊢
  exact PyA.finite (fdm_image_analytic env x r l g d0 d1 dA nLag (hk0.unkinked h1 h2) (hk1.unkinked h1 h2)
    (hc x h1 h2 d0 (.inl rfl)) (hc x h1 h2 d1 (.inr rfl))) hv

/-- The hypotheses hold for a dielectric. -/
private theorem example_finite (d : Defaults) (m : String) (hm : m = "multi" ∨ m = "Q_ave") (x : ℝ) (h1 : 0 ≤ x) (h2 : x ≤ 0 + 2 * 1) :
    ∃ v : ℂ, Fdm.effPol (rule2 d) (layered 1 [] 2 none) (some (FP.num x)) (fdmTip 1 300 Complex.I 1 (1 / 2) 1.4) (some 2) (some m) =
      .ok (FP.num v) := by
  have him : (Fdm.geom x (1 / 2) 1 300 Complex.I).im ≠ 0 := by
    unfold Fdm.geom
    rw [Complex.div_ofReal_im, Complex.im_mul_ofReal, Complex.sub_im, Complex.ofReal_im, Complex.I_im]
    have h1 : 0 < Real.log (4 * 300 / (1 + 4 * x + 2 * (1 / 2) * 1)) :=
      Real.log_pos (by rw [lt_div_iff₀ (by linarith)]; linarith)
    have h2 : 0 < Real.log (4 * 300 / 1 : ℝ) := Real.log_pos (by norm_num)
    simp only [sub_zero, one_mul]
    exact (div_pos h1 h2).ne'
  exact ⟨_, (C32_eff_pol (rule2 d) 1 2 none two_ne_zero (by norm_num) (by norm_num) (some 2) (rule2_ok d) x 1 300 Complex.I 1 (1 / 2) 1.4
    (by linarith) (by linarith) (some m) (some "bulk") (.inr (.inr (by rcases hm with rfl | rfl <;> simp))) (.inr (.inl rfl))).trans
    (effPol_val (rule2 d) (bulk 1 2) (bulk_multilayer _ _ _) ((1 / 3 : ℝ) : ℂ)
      (by rw [C09_refl 1 2 none _ two_ne_zero (by norm_num)]; norm_num) x 1 300 Complex.I 1
      (1 / 2) 1.4 (example_geomOk.1.mono h1) (example_geomOk.2.mono h1) (sub_ne_zero.2 (example_im_ne him (1 / 3)).symm) (some 2))⟩

example (d : Defaults) := C131_average (rule2 d) 1 2 [] none 0 1 1 300 Complex.I 1 (1 / 2) 1.4 one_pos (some 2)
  (fun _ _ _ _ _ _ hl => by cases hl) (example_finite d "Q_ave" (.inr rfl)) 2

example (d : Defaults) := C131_image (rule2 d) 1 2 [] none 0 1 1 300 Complex.I 1 (1 / 2) 1.4 one_pos (some 2) (some "multi") (.inl rfl)
  (fun _ _ _ _ _ _ hl => by cases hl) (fun _ _ _ _ _ _ hl => by cases hl) (fun x h1 h2 c hc t h => by
    have hc0 : 0 < c := by rcases hc with rfl | rfl <;> norm_num
    have := C29_image (rule2 d) 1 2 none (x + 1 * c) (by linarith) (some 2) (rule2_ok d) two_ne_zero (by norm_num) (by norm_num)
    have h' := this.symm.trans h
    have := FP.num.inj (Prod.mk.inj (Except.ok.inj h')).2
    norm_num at this) (example_finite d "multi" (.inl rfl)) 2

/-- Passive layers that are not thick and a tip with `Im g_factor > 0`: there are no other conditions. -/
theorem C131_passive (env : Env) (e : ℝ) (L : List (ℂ × ℝ)) (sub : ℂ) (nu : Option ℝ) (h0 : 0 < e)
    (hL : ∀ l ∈ L, Passive l.1 ∧ 0 ≤ l.2) (hs : Passive sub) (nLag : Option ℕ) (hr : env.RuleOk nLag) (z amp r l : ℝ) (g : ℂ)
    (d0 d1 dA : ℝ) (hA : 0 < amp) (hg : 0 < g.im) (k0 : Fdm.GeomOk z d0 r l) (k1 : Fdm.GeomOk z d1 r l) (hl : r < 4 * l)
    (hz : r + 4 * (z + 2 * amp) + 2 * d1 * r < 4 * l) (hQ : 0 < z + r * dA)
    (ht : ∀ l ∈ L, (4 * ((nLag.getD env.defaults.nLag : ℕ) : ℝ) - 2) * l.2 ≤ 1418 * (z + r * dA)) (n : ℤ) :
    ∃ f : ℝ → ℂ, (∀ x, z ≤ x → x ≤ z + 2 * amp →
        Fdm.effPol env (layered e L sub nu) (some (FP.num x)) (fdmTip r l g d0 d1 dA) nLag (some "Q_ave") = .ok (FP.num (f x))) ∧
      ∃ ρ > 0, ∃ C : ℝ, ∀ N : ℕ, N ≠ 0 →
        ∃ v, Fdm.effPolN env (layered e L sub nu) (FP.num amp) (FP.num n) (some (FP.num z)) (some N) (fdmTip r l g d0 d1 dA) nLag
            (some "Q_ave") = .ok (FP.num v) ∧
          ‖v - lockin f (z + amp) amp n‖ ≤ C * Real.exp (-(ρ * N)) := by
  obtain ⟨B, hB, -⟩ := C108_layered env e L sub nu h0 hL hs nLag hr z r l g d0 d1 dA amp hg k0 k1 hl hA.le hz hQ 0 1 one_ne_zero
  refine C131_average env e sub L nu z amp r l g d0 d1 dA hA nLag (NoKink.of_thin hr hQ fun l hl => ⟨(hL l hl).2, ht l hl⟩)
    (fun x hx hx' => ?_) n
  obtain ⟨-, h2, h3⟩ := hB x hx hx'
  refine ⟨1 + B x * Fdm.geom x d0 r l g / (2 * (1 - B x * Fdm.geom x d1 r l g)), ?_⟩
  rw [Fdm.effPol_Qave env, fdm_fdmTip]
  simp only [Option.getD_some, FP.num_mul, FP.num_add]
  rw [h2, PyM.ok_bind, Fdm.geomFunc_num (k0.mono hx), Fdm.geomFunc_num (k1.mono hx), Fdm.formula_num _ _ _ _ (sub_ne_zero.2 h3.symm)]

example (d : Defaults) := C131_passive (rule2 d) 1 [(⟨2, 1⟩, 3)] 5 none one_pos (by simp [Passive]) (by simp [Passive]) (some 2)
  (rule2_ok d) 0 1 1 10 ⟨0.7, 0.04⟩ 1 0.5 1.4 one_pos (by norm_num) ⟨by norm_num, by norm_num, by norm_num, by norm_num⟩
  ⟨by norm_num, by norm_num, by norm_num, by norm_num⟩ (by norm_num) (by norm_num) (by norm_num) (by norm_num) 3

end Layers

/-- The default tip and rule above passive layers of at most 300 nm. -/
theorem C131_default (lag : ℕ → List (ℝ × ℝ)) (hlag : Env.RuleOk ⟨Defaults.initial, lag⟩ none) (e : ℝ) (L : List (ℂ × ℝ)) (sub : ℂ)
    (nu : Option ℝ) (h0 : 0 < e) (hL : ∀ l ∈ L, Passive l.1 ∧ 0 ≤ l.2 ∧ l.2 ≤ 300e-9) (hs : Passive sub) (amp z : ℝ) (hA : 0 < amp)
    (hz : 0 ≤ z) (hz' : z + 2 * amp < 290e-9) (n : ℤ) :
    ∃ f : ℝ → ℂ, (∀ x, z ≤ x → x ≤ z + 2 * amp →
        Fdm.effPol ⟨Defaults.initial, lag⟩ (layered e L sub nu) (some (FP.num x)) {} none (some "Q_ave") = .ok (FP.num (f x))) ∧
      ∃ ρ > 0, ∃ C : ℝ, ∀ N : ℕ, N ≠ 0 →
        ∃ v, Fdm.effPolN ⟨Defaults.initial, lag⟩ (layered e L sub nu) (FP.num amp) (FP.num n) (some (FP.num z)) (some N) {} none
            (some "Q_ave") = .ok (FP.num v) ∧
          ‖v - lockin f (z + amp) amp n‖ ≤ C * Real.exp (-(ρ * N)) := by
  set env : Env := ⟨Defaults.initial, lag⟩ with henv
  obtain ⟨g0, g0'⟩ := d0_default
  set d0 : ℝ := 1.31 * 300e-9 / (300e-9 + 2 * 20e-9) with hd0
  have hgi : 0 < gDefault.im := by
    have := gDefault_im 0
    rw [Complex.sub_im, Complex.ofReal_im, sub_zero] at this
    rw [this]
    exact mul_pos (by norm_num) (Real.sin_pos_of_pos_of_lt_pi (by norm_num) (by linarith [Real.pi_gt_three]))
  have hfill : env.defaults.fdm ({} : FdmArgs (FP ℝ) (FP ℂ)) = env.defaults.fdm (fdmTip 20e-9 300e-9 gDefault d0 0.5 1.4) :=
    fdm_default lag
  have key := C131_passive env e L sub nu h0 (fun l hl => ⟨(hL l hl).1, (hL l hl).2.1⟩) hs none hlag z amp 20e-9 300e-9 gDefault d0 0.5 1.4
    hA hgi (geomOk_default g0 hz) (geomOk_default (d := 0.5) (by norm_num) hz) (by norm_num) (by norm_num at hz' ⊢; linarith)
    (by norm_num; linarith) (fun l hl => by
      obtain ⟨-, h1, h2⟩ := hL l hl
      have hn : (((none : Option ℕ).getD env.defaults.nLag : ℕ) : ℝ) = 32 := by
        have : (none : Option ℕ).getD env.defaults.nLag = 32 := rfl
        rw [this]
        norm_num
      rw [hn]
      norm_num at h2 ⊢
      linarith) n
  have h1 : ∀ x m, Fdm.effPol env (layered e L sub nu) x {} none m =
      Fdm.effPol env (layered e L sub nu) x (fdmTip 20e-9 300e-9 gDefault d0 0.5 1.4) none m := fun x m => by
    unfold Fdm.effPol
    rw [hfill]
  have h2 : ∀ (N : ℕ) m, Fdm.effPolN env (layered e L sub nu) (FP.num amp) (FP.num n) (some (FP.num z)) (some N) {} none m =
      Fdm.effPolN env (layered e L sub nu) (FP.num amp) (FP.num n) (some (FP.num z)) (some N)
        (fdmTip 20e-9 300e-9 gDefault d0 0.5 1.4) none m := fun N m => by
    unfold Fdm.effPolN
    simp only [h1]
  simp only [h1, h2]
  exact key

/-- Silica on a polar crystal. -/
example := C131_default Laguerre.rule ⟨by decide, Laguerre.gaussLaguerre_rule (by decide)⟩ 1 [(⟨2, 1⟩, 100e-9)] ⟨-3, 1⟩ none one_pos
  (by simp [Passive]; norm_num) (by simp [Passive]) 50e-9 0 (by norm_num) le_rfl (by norm_num) 3

end Snompy.Props
