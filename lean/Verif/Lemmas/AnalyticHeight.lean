import Verif.Lemmas.AnalyticTip
import Verif.Lemmas.Fdm

/-!
# Analytic dependence on the height of a tip above a sample with layers

In `Lemmas/AnalyticTip.lean` real arguments are constant or no product `q t` is clipped.  Here the height varies, and no product `q t` of
a momentum of the Gauss-Laguerre rule and a thickness is at the point where the clipping sets in.
-/

namespace Snompy

open Filter Topology

variable {E : Type} [NormedAddCommGroup E] [NormedSpace ℝ E] {w : E}

theorem PyA.quad0_mem (rule : List (ℝ × ℝ)) (p : E → List (FP ℝ ⊕ FP ℂ)) (p0 : List (FP ℝ ⊕ FP ℂ)) {body : E → FP ℝ → FP ℝ → PyM (FP ℂ)}
    {body0 : FP ℝ → FP ℝ → PyM (FP ℂ)}
    (h : ∀ xw ∈ rule, PyT (𝓝 w) (FPA ℝ w) (fun a => body a (.num xw.1) (.num xw.2)) (body0 (.num xw.1) (.num xw.2))) :
    PyT (𝓝 w) (FPA ℝ w) (fun a => CplxOps.quad0 rule (p a) (body a)) (CplxOps.quad0 rule p0 body0) :=
  (PyT.mapM (T := FPA ℝ w) rule (f := fun a xw => body a (.num xw.1) (.num xw.2)) fun i hi => h i hi).bind fun _ _ hv => PyT.ok hv.csum

omit [NormedSpace ℝ E] in
theorem PyT.returns {β : Type} {x : E → PyM β} {x0 : PyM β} (h : ∀ a, ∃ v, x a = .ok v) :
    PyT (𝓝 w) (fun _ _ => True) x x0 := fun _ _ => by
  choose v hv using h
  exact ⟨v, Eventually.of_forall hv, trivial⟩

/-- The momentum is analytic, and no layer is at the point where the clipping sets in. -/
def Unkinked (w : E) (L : List (ℂ × ℝ)) (x : E → FP ℝ) (x0 : FP ℝ) : Prop :=
  FPA ℝ w x x0 ∧ ∀ v, x0 = .num v → ∀ l ∈ L, |v * l.2| ≠ maxExpArg

variable {e sub : ℂ} {L : List (ℂ × ℝ)} {nu : Option ℝ}

theorem SAnalytic.fixed : SAnalytic ℝ w (Unkinked w L) (fun _ => Snompy.layered e L sub nu) (Snompy.layered e L sub nu) := by
  refine ⟨LT.of_forall _ (fun _ => rfl) fun b _ => FPA.const b, ?_⟩
  rintro q q0 ⟨hq, hk⟩
  simp only [Snompy.layered, List.map_map]
  have h : ∀ l ∈ L, FPA ℝ w (fun a => RealOps.clip (-maxExpArg) maxExpArg (q a * FP.num l.2))
      (RealOps.clip (-maxExpArg) maxExpArg (q0 * FP.num l.2)) := fun l hl =>
    (hq.mul (FPA.const _)).clip fun v hv => by
      cases q0 with
      | nan => cases hv
      | num u =>
        obtain rfl := FP.num.inj hv
        exact hk u rfl l hl
  induction L with
  | nil => exact Eventually.of_forall fun _ => rfl
  | cons l L ih =>
    refine ⟨fun a => RealOps.clip (-maxExpArg) maxExpArg (q a * FP.num l.2), _, Eventually.of_forall fun _ => rfl, h l (by simp), ?_⟩
    exact ih (fun v hv l hl => hk v hv l (by simp [hl])) fun l hl => h l (by simp [hl])

/-- No momentum of the rule is at the point where the clipping sets in, for the height `z0`. -/
def RuleUnkinked (env : Env) (nLag : Option ℕ) (L : List (ℂ × ℝ)) (z0 : FP ℝ) : Prop :=
  ∀ xw ∈ env.laggauss (nLag.getD env.defaults.nLag), ∀ v, FP.num xw.1 / (lit 2 * z0) = .num v → ∀ l ∈ L, |v * l.2| ≠ maxExpArg

theorem RuleUnkinked.of_num {env : Env} {nLag : Option ℕ} {z : ℝ}
    (h : ∀ xw ∈ env.laggauss (nLag.getD env.defaults.nLag), ∀ l ∈ L, |xw.1 / (2 * z) * l.2| ≠ maxExpArg) :
    RuleUnkinked env nLag L (.num z) := by
  intro xw hxw v hv l hl
  rw [slit, FP.num_mul] at hv
  by_cases hz : 2 * z = 0
  · rw [hz, FP.num_div_zero] at hv
    cases hv
  · rw [FP.num_div _ hz] at hv
    obtain rfl := FP.num.inj hv
    exact h xw hxw l hl

theorem layered_ok (q : FP ℝ) : ∃ v, (layered e L sub nu).reflCoefQs q = .ok v :=
  reflCoefQs_ok _ (by simp [layered]) q

theorem node_analytic {z : E → FP ℝ} {z0 : FP ℝ} (hz : FPA ℝ w z z0) {x : ℝ}
    (hk : ∀ v, FP.num x / (lit 2 * z0) = .num v → ∀ l ∈ L, |v * l.2| ≠ maxExpArg) :
    PyT (𝓝 w) (FPA ℝ w) (fun a => (layered e L sub nu).reflCoefQs (FP.num x / (lit 2 * z a)))
      ((layered e L sub nu).reflCoefQs (FP.num x / (lit 2 * z0))) :=
  SAnalytic.fixed.reflCoefQs (q := fun a => FP.num x / (lit 2 * z a)) (q0 := FP.num x / (lit 2 * z0))
    ⟨(FPA.const _).div ((FPA.const _).mul hz), hk⟩

omit [NormedSpace ℝ E] in
theorem lagRule_const (env : Env) (n : ℕ) :
    PyT (𝓝 w) (fun r r0 => (r = fun _ => r0) ∧ r0 = env.laggauss n) (fun _ => env.lagRule n) (env.lagRule n) := fun v0 hv => by
  refine ⟨fun _ => v0, Eventually.of_forall fun _ => hv, rfl, ?_⟩
  unfold Env.lagRule at hv
  split at hv
  · cases hv
  · cases hv
    rfl

theorem aboveSurf_analytic (env : Env) {z : E → FP ℝ} {z0 : FP ℝ} (hz : FPA ℝ w z z0) (nLag : Option ℕ)
    (hk : RuleUnkinked env nLag L z0) :
    PyT (𝓝 w) (FPA ℝ w) (fun a => (layered e L sub nu).reflCoefQsAboveSurf env (z a) nLag)
      ((layered e L sub nu).reflCoefQsAboveSurf env z0 nLag) := by
  refine (lagRule_const env (nLag.getD env.defaults.nLag)).bind fun r r0 hr => ?_
  obtain ⟨rfl, rfl⟩ := hr
  refine (PyT.returns fun a => layered_ok (z a)).bind fun like like0 _ => ?_
  refine PyA.quad0_mem _ (fun a => [.inr (like a)]) _ fun xw hxw => ?_
  exact (node_analytic hz (hk xw hxw)).bind fun b b0 hb => PyT.ok ((FPA.const _).cmul hb)

theorem surf_analytic (env : Env) {z : E → FP ℝ} {z0 : FP ℝ} (hz : FPA ℝ w z z0) (nLag : Option ℕ)
    (hk : RuleUnkinked env nLag L z0) :
    PyT (𝓝 w) (fun x x0 => FPA ℝ w (fun a => (x a).1) x0.1 ∧ FPA ℝ w (fun a => (x a).2) x0.2)
      (fun a => (layered e L sub nu).surfPotAndField env (z a) nLag) ((layered e L sub nu).surfPotAndField env z0 nLag) := by
  refine (lagRule_const env (nLag.getD env.defaults.nLag)).bind fun r r0 hr => ?_
  obtain ⟨rfl, rfl⟩ := hr
  refine (PyT.returns fun a => layered_ok (z a)).bind fun like like0 _ => ?_
  refine (PyA.quad0_mem (w := w) _ (fun a => [.inr (like a)]) _ fun xw hxw => ?_).bind fun phi phi0 hphi => ?_
  · exact (node_analytic hz (hk xw hxw)).bind fun b b0 hb => PyT.ok ((FPA.const _).cmul hb)
  refine (PyA.quad0_mem (w := w) _ (fun a => [.inr (like a)]) _ fun xw hxw => ?_).bind fun f f0 hf => ?_
  · exact (node_analytic hz (hk xw hxw)).bind fun b b0 hb => PyT.ok ((FPA.const _).cmul hb)
  have c : ∀ x : ℝ, FPA ℝ w (fun _ => (lit x : FP ℝ)) (lit x) := fun x => FPA.const _
  exact PyT.ok ⟨hphi.cdiv ((c _).mul hz).ofR, hf.cdiv ((c _).mul (hz.npow 2)).ofR⟩

theorem image_analytic (env : Env) {z : E → FP ℝ} {z0 : FP ℝ} (hz : FPA ℝ w z z0) (nLag : Option ℕ)
    (hk : RuleUnkinked env nLag L z0) (h0 : ∀ d, (layered e L sub nu).imageDepthAndCharge env z0 nLag ≠ .ok (d, .num 0)) :
    PyT (𝓝 w) (fun x x0 => FPA ℝ w (fun a => (x a).1) x0.1 ∧ FPA ℝ w (fun a => (x a).2) x0.2)
      (fun a => (layered e L sub nu).imageDepthAndCharge env (z a) nLag) ((layered e L sub nu).imageDepthAndCharge env z0 nLag) := by
  have hs := surf_analytic (e := e) (sub := sub) (nu := nu) env hz nLag hk
  unfold Stack.imageDepthAndCharge at h0 ⊢
  cases hv : (layered e L sub nu).surfPotAndField env z0 nLag with
  | error e => exact PyT.error
  | ok v0 =>
    rw [hv] at hs h0
    obtain ⟨v, h1, h2, h3⟩ := hs v0 rfl
    refine PyT.congr (x := fun a => pure (CplxOps.cabs ((v a).1 / (v a).2) - z a, CplxOps.cpow (v a).1 2 / (v a).2)) (PyT.ok ?_)
      (by filter_upwards [h1] with a ha; rw [ha]; rfl)
    refine ⟨((h2.cdiv h3).cabs fun hd => ?_).sub hz, (h2.cpow 2).cdiv h3⟩
    obtain ⟨phi, e⟩ := v0
    refine h0 (CplxOps.cabs (phi / e) - z0) (congrArg Except.ok (Prod.ext rfl ?_))
    cases phi with
    | nan => rw [FP.nan_div] at hd; cases hd
    | num p =>
      cases e with
      | nan => rw [FP.div_nan] at hd; cases hd
      | num e =>
        by_cases he : e = 0
        · subst he
          rw [FP.num_div_zero] at hd
          cases hd
        · rw [FP.num_div _ he] at hd
          have hp := (div_eq_zero_iff.1 (FP.num.inj hd)).resolve_right he
          change CplxOps.cpow (FP.num p) 2 / FP.num e = _
          rw [scpow, FP.num_div _ he, hp]
          simp

theorem num_analytic (w : ℝ) : FPA ℝ w (fun x : ℝ => FP.num x) (FP.num w) :=
  FPA.num (v := fun x : ℝ => x) (Complex.ofRealCLM.analyticAt w)

end Snompy
