import Verif.Spec.Shaped
import Verif.Props.Vectorised

/-!
# C58: the shapes of results, function by function
-/

namespace Snompy.Props

open Snompy

theorem shaped {α : Type} {x : PyM (PyM (NDArray α))} {s : Shape} {f : (ℕ → ℕ) → PyM α} (h : DenM x s f) (ss : List (List ℕ))
    (hs : s = joinAll (ss.map some)) : Shaped x ss f := by
  subst hs
  constructor
  · intro hc
    rw [(C58_raises ss).2 hc] at h
    exact h
  · intro hc
    cases hj : joinAll (ss.map some) with
    | none => exact absurd ((C58_raises ss).1 hj) hc
    | some u =>
      rw [hj] at h
      rcases h with h | ⟨A, g, hx, hA, -⟩
      · exact .inl h
      · exact .inr ⟨A, hx, hA ▸ (C58_shape ss u).1 hj⟩

section

variable (env : Env) (S : ArrSample) (nLag : Option ℕ)

theorem C58_refl_coef_qs (nu : Option RArr) (q : NDArray (FP ℝ)) :
    Shaped ((S.stack nu).reflCoefQs (.ok q)) [q.rshape, S.epsShape, S.tShape] fun i => (S.at_ i).reflCoefQs (q.get i) :=
  shaped (C60_refl_coef_qs S nu q) _ rfl

theorem C58_refl_coef (snu q th nu : Option (NDArray (FP ℝ))) (pol : String) :
    Shaped ((S.stack (snu.map .ok)).reflCoef ⟨q.map .ok, th.map .ok, nu.map .ok, pol⟩)
      [dims (nu.orElse fun _ => snu), dims q, dims th, S.epsShape, S.tShape]
      fun i => (S.at_ i (snu.map (·.get i))).reflCoef ⟨q.map (·.get i), th.map (·.get i), nu.map (·.get i), pol⟩ :=
  shaped (C60_refl_coef S snu q th nu pol) _ rfl

theorem C58_above_surf (nu : Option RArr) (z : NDArray (FP ℝ)) :
    Shaped ((S.stack nu).reflCoefQsAboveSurf env (.ok z) nLag) [z.rshape, S.epsShape, S.tShape]
      fun i => (S.at_ i).reflCoefQsAboveSurf env (z.get i) nLag :=
  shaped (C60_above_surf S nu env nLag z) _ rfl

theorem C58_image (nu : Option RArr) (z : NDArray (FP ℝ)) :
    Shaped ((S.stack nu).imageDepthAndCharge env (.ok z) nLag >>= fun p => .ok p.1) [z.rshape, S.epsShape, S.tShape]
        (fun i => (S.at_ i).imageDepthAndCharge env (z.get i) nLag >>= fun p => .ok p.1) ∧
      Shaped ((S.stack nu).imageDepthAndCharge env (.ok z) nLag >>= fun p => .ok p.2) [z.rshape, S.epsShape, S.tShape]
        fun i => (S.at_ i).imageDepthAndCharge env (z.get i) nLag >>= fun p => .ok p.2 :=
  ⟨shaped (C60_image_depth S nu env nLag z) _ rfl, shaped (C60_image_charge S nu env nLag z) _ rfl⟩

/-- `d_Qa` counts for the method `Q_ave` only. -/
theorem C58_fdm_eff_pol (a : Fdm.Args) (method : Option String) (nu : Option RArr) (z : Option (NDArray (FP ℝ))) :
    Shaped (Fdm.effPol env (S.stack nu) (z.map .ok) (Fdm.argsArr a) nLag method)
      [dims z, dims a.rTip, dims a.lTip, dims a.gFactor, dims a.dQ0, dims a.dQ1,
        if method = some "Q_ave" then dims a.dQa else [], S.epsShape, S.tShape]
      fun i => Fdm.effPol env (S.at_ i) (z.map (·.get i)) (Fdm.argsAt a i) nLag method :=
  shaped (C61_fdm_eff_pol env S a nLag method nu z) _ (by split <;> rfl)

theorem C58_fdm_eff_pol_n (a : Fdm.Args) (method : Option String) (nu : Option RArr) (z : Option (NDArray (FP ℝ)))
    (A n : NDArray (FP ℝ)) (nTrapz : Option ℕ) :
    Shaped (Fdm.effPolN env (S.stack nu) (.ok A) (.ok n) (z.map .ok) nTrapz (Fdm.argsArr a) nLag method)
      [dims z, A.rshape, n.rshape, dims a.rTip, dims a.lTip, dims a.gFactor, dims a.dQ0, dims a.dQ1,
        if method = some "Q_ave" then dims a.dQa else [], S.epsShape, S.tShape]
      fun i => Fdm.effPolN env (S.at_ i) (A.get i) (n.get i) (z.map (·.get i)) nTrapz (Fdm.argsAt a i) nLag method :=
  shaped (C61_fdm_eff_pol_n env S a nLag method nu z A n nTrapz) _ (by split <;> rfl)

theorem C58_fdm_eff_pol_n_taylor (a : Fdm.Args) (method : Option String) (nu : Option RArr) (z : Option (NDArray (FP ℝ)))
    (A n : NDArray (FP ℝ)) (nTrapz nTayl : Option ℕ) :
    Shaped (Fdm.effPolNTaylor env (S.stack nu) (.ok A) (.ok n) (z.map .ok) (Fdm.argsArr a) nLag method nTrapz nTayl)
      [dims z, A.rshape, n.rshape, dims a.rTip, dims a.lTip, dims a.gFactor, dims a.dQ0, dims a.dQ1,
        if method.getD (if S.t = [] then "bulk" else "Q_ave") = "Q_ave" then dims a.dQa else [], S.epsShape, S.tShape]
      fun i => Fdm.effPolNTaylor env (S.at_ i) (A.get i) (n.get i) (z.map (·.get i)) (Fdm.argsAt a i) nLag method nTrapz nTayl :=
  shaped (C62_fdm_eff_pol_n_taylor env S a nLag method nu z A n nTrapz nTayl) _ (by
    by_cases h : method.getD (if S.t = [] then "bulk" else "Q_ave") = "Q_ave"
    · rw [if_pos h, if_pos h]
      rfl
    · rw [if_neg h, if_neg h]
      rfl)

theorem C58_pdm_eff_pol (a : Pdm.Args) (nu : Option RArr) (z : Option (NDArray (FP ℝ))) :
    Shaped (Pdm.effPol env (S.stack nu) (z.map .ok) (Pdm.argsArr a))
      [dims z, dims a.rTip, dims a.epsTip, dims a.alphaTip, S.epsShape, S.tShape]
      fun i => Pdm.effPol env (S.at_ i) (z.map (·.get i)) (Pdm.argsAt a i) :=
  shaped (C61_pdm_eff_pol env S a nu z) _ rfl

theorem C58_pdm_eff_pol_n (a : Pdm.Args) (nu : Option RArr) (z : Option (NDArray (FP ℝ))) (A n : NDArray (FP ℝ))
    (nTrapz : Option ℕ) :
    Shaped (Pdm.effPolN env (S.stack nu) (.ok A) (.ok n) (z.map .ok) nTrapz (Pdm.argsArr a))
      [dims z, A.rshape, n.rshape, dims a.rTip, dims a.epsTip, dims a.alphaTip, S.epsShape, S.tShape]
      fun i => Pdm.effPolN env (S.at_ i) (A.get i) (n.get i) (z.map (·.get i)) nTrapz (Pdm.argsAt a i) :=
  shaped (C61_pdm_eff_pol_n env S a nu z A n nTrapz) _ rfl

theorem C58_pdm_eff_pol_n_taylor (a : Pdm.Args) (nu : Option RArr) (z : Option (NDArray (FP ℝ))) (A n : NDArray (FP ℝ))
    (nTrapz nTayl : Option ℕ) :
    Shaped (Pdm.effPolNTaylor env (S.stack nu) (.ok A) (.ok n) (z.map .ok) (Pdm.argsArr a) nTrapz nTayl)
      [dims z, A.rshape, n.rshape, dims a.rTip, dims a.epsTip, dims a.alphaTip, S.epsShape, S.tShape]
      fun i => Pdm.effPolNTaylor env (S.at_ i) (A.get i) (n.get i) (z.map (·.get i)) (Pdm.argsAt a i) nTrapz nTayl :=
  shaped (C62_pdm_eff_pol_n_taylor env S a nu z A n nTrapz nTayl) _ rfl

/-- Both cases occur: a row of two and a column of three broadcast, two and three entries do not. -/
example : ¬ Clash [[2], [1, 3]] ∧ Clash [[2], [3]] :=
  ⟨fun h => absurd ((C58_raises _).2 h) (by decide), (C58_raises _).1 (by decide)⟩

end

end Snompy.Props
