import Verif.Props.SampleObj
import Verif.Props.Vectorised
import Verif.Props.Quasistatic

/-!
# C66: from the arrays given to the constructor to the results
-/

namespace Snompy.Props

open Snompy SampleObj

/-! ## C66 What is computed is determined, entry by entry, by the arrays given to the constructor -/

/-- The scalar sample made of the entries of the arrays at an index. -/
def scalarAt (E : List (NDArray (FP ℂ))) (T : List (NDArray (FP ℝ))) (nu : Option (NDArray (FP ℝ))) (i : ℕ → ℕ) :
    Stack (FP ℝ) (FP ℂ) := ⟨E.map (·.get i), T.map (·.get i), nu.map (·.get i)⟩

/-- `Sample(eps_stack=E, t_stack=T, nu_vac=nu)`. -/
noncomputable abbrev sampleOf (d : Defaults) (E : List (NDArray (FP ℂ))) (T : List (NDArray (FP ℝ)))
    (nu : Option (NDArray (FP ℝ))) : PyM SampleObj :=
  init d { eps := some (.items E), t := some (.items T), nuVac := nu }

/-- Shapes of a list of arrays. -/
def shapes {α : Type} (l : List (NDArray α)) : List Shape := l.map fun A => some A.rshape

theorem joinAll_shapes {α : Type} (l : List (NDArray α)) :
    broadcastShapes (l.map (·.rshape)) = joinAll (shapes l) := by
  rw [broadcastShapes_eq, shapes, List.map_map]
  rfl

/-- Construction raises when the layer counts do not fit. -/
theorem C66_rejects (d : Defaults) (E : List (NDArray (FP ℂ))) (T : List (NDArray (FP ℝ)))
    (nu : Option (NDArray (FP ℝ))) (h : E.length ≠ T.length + 2) : ∃ e, sampleOf d E T nu = .error e := by
  cases hs : sampleOf d E T nu with
  | error e => exact ⟨e, rfl⟩
  | ok o =>
    exfalso
    obtain ⟨eps, t, h1, h2, h3⟩ := (init_inv hs).2
    apply h
    simp only [sampleOf, init, setT, setEps, unpackStack, Option.isNone_some, Option.isNone_none, Bool.false_eq_true,
      if_false] at hs
    cases hT : broadcastShapes (T.map (·.rshape)) with
    | none => simp [hT, raised] at hs
    | some sT =>
      cases hE : broadcastShapes (E.map (·.rshape)) with
      | none => simp [hT, hE, raised, checkLayersValid] at hs
      | some sE =>
        simp only [hT, hE, raised, checkLayersValid, PyM.ok_bind, PyM.pure_eq_ok, List.length_map] at hs
        split at hs
        · cases hs
        · rename_i h4
          exact not_not.1 h4

theorem sampleOf_cases (d : Defaults) (E : List (NDArray (FP ℂ))) (T : List (NDArray (FP ℝ)))
    (nu : Option (NDArray (FP ℝ))) (h : E.length = T.length + 2) :
    ((∃ e, sampleOf d E T nu = .error e) ∧ joinAll (shapes E ++ shapes T) = none) ∨
      ∃ (o : SampleObj) (S : ArrSample), sampleOf d E T nu = .ok o ∧ o.stack = S.stack (nu.map .ok) ∧
        some S.epsShape = joinAll (shapes E) ∧ some S.tShape = joinAll (shapes T) ∧
        ∀ i, S.at_ i (nu.map (·.get i)) = scalarAt E T nu i := by
  simp only [sampleOf, init, setT, setEps, unpackStack, Option.isNone_some, Option.isNone_none, Bool.false_eq_true,
    if_false, joinAll_append, ← joinAll_shapes]
  cases hT : broadcastShapes (T.map (·.rshape)) with
  | none =>
    refine Or.inl ⟨⟨_, rfl⟩, ?_⟩
    cases broadcastShapes (E.map (·.rshape)) <;> rfl
  | some sT =>
    cases hE : broadcastShapes (E.map (·.rshape)) with
    | none => exact Or.inl ⟨⟨_, rfl⟩, rfl⟩
    | some sE =>
      refine Or.inr ⟨⟨some (T.map (NDArray.broadcastTo sT)), some (E.map (NDArray.broadcastTo sE)), NDArray.scalar (FP.num d.epsEnv),
          nu⟩,
        ⟨E.map (NDArray.broadcastTo sE), T.map (NDArray.broadcastTo sT), sE, sT, ?_, ?_, ?_, ?_⟩, ?_, ?_, rfl, rfl, ?_⟩
      · intro e he
        obtain ⟨A, _, rfl⟩ := List.mem_map.1 he
        rfl
      · intro e he
        obtain ⟨A, _, rfl⟩ := List.mem_map.1 he
        rfl
      · intro hn
        rw [List.map_eq_nil_iff] at hn
        subst hn
        simpa [broadcastShapes] using hT.symm
      · simpa using h
      · simp [raised, checkLayersValid, h]
      · rfl
      · intro i
        simp only [ArrSample.at_, scalarAt, List.map_map]
        congr 1
        · refine List.map_congr_left fun A hA => ?_
          exact NDArray.broadcastTo_get (le_of_broadcastShapes hE (List.mem_map_of_mem hA)) i
        · refine List.map_congr_left fun A hA => ?_
          exact NDArray.broadcastTo_get (le_of_broadcastShapes hT (List.mem_map_of_mem hA)) i

/-- Any elementwise method of the constructed sample is elementwise in the arrays given to the constructor. -/
theorem whole {α : Type} (d : Defaults) (E : List (NDArray (FP ℂ))) (T : List (NDArray (FP ℝ)))
    (nu : Option (NDArray (FP ℝ))) (h : E.length = T.length + 2)
    (m : Stack RArr CArr → PyM (PyM (NDArray α))) (f : (ℕ → ℕ) → Stack (FP ℝ) (FP ℂ) → PyM α) (l : List Shape)
    (hm : ∀ S : ArrSample, DenM (m (S.stack (nu.map .ok))) (joinAll (l ++ [some S.epsShape, some S.tShape]))
      fun i => f i (S.at_ i (nu.map (·.get i)))) :
    DenM (sampleOf d E T nu >>= fun o => m o.stack) (joinAll (l ++ (shapes E ++ shapes T)))
      fun i => f i (scalarAt E T nu i) := by
  rcases sampleOf_cases d E T nu h with ⟨⟨e, he⟩, hn⟩ | ⟨o, S, ho, hS, h1, h2, h3⟩
  · rw [he, joinAll_append, hn, Shape.join_comm]
    exact ⟨e, rfl⟩
  · rw [ho, PyM.ok_bind, hS]
    refine (hm S).congr ?_ fun i => by rw [h3]
    rw [joinAll_append, joinAll_append, joinAll_append, ← h1, ← h2]
    simp only [joinAll, Shape.join_unit]

section
variable (env : Env) (E : List (NDArray (FP ℂ))) (T : List (NDArray (FP ℝ))) (snu : Option (NDArray (FP ℝ)))
  (h : E.length = T.length + 2)
include h

theorem C66_refl_coef_qs (q : NDArray (FP ℝ)) :
    DenM (sampleOf env.defaults E T snu >>= fun o => o.stack.reflCoefQs (.ok q))
      (joinAll (some q.rshape :: (shapes E ++ shapes T))) (fun i => (scalarAt E T snu i).reflCoefQs (q.get i)) :=
  whole env.defaults E T snu h (fun s => s.reflCoefQs (.ok q)) (fun i s => s.reflCoefQs (q.get i)) [_] fun S => C60_refl_coef_qs S _ q

theorem C66_trans_coef_qs (q : NDArray (FP ℝ)) :
    DenM (sampleOf env.defaults E T snu >>= fun o => o.stack.transCoefQs (.ok q))
      (joinAll (some q.rshape :: (shapes E ++ shapes T))) (fun i => (scalarAt E T snu i).transCoefQs (q.get i)) :=
  whole env.defaults E T snu h (fun s => s.transCoefQs (.ok q)) (fun i s => s.transCoefQs (q.get i)) [_] fun S => C60_trans_coef_qs S _ q

theorem C66_above_surf (nLag : Option ℕ) (z : NDArray (FP ℝ)) :
    DenM (sampleOf env.defaults E T snu >>= fun o => o.stack.reflCoefQsAboveSurf env (.ok z) nLag)
      (joinAll (some z.rshape :: (shapes E ++ shapes T)))
      (fun i => (scalarAt E T snu i).reflCoefQsAboveSurf env (z.get i) nLag) :=
  whole env.defaults E T snu h (fun s => s.reflCoefQsAboveSurf env (.ok z) nLag) (fun i s => s.reflCoefQsAboveSurf env (z.get i) nLag) [_] fun S =>
    C60_above_surf S _ env nLag z

theorem C66_refl_coef (q th nu : Option (NDArray (FP ℝ))) (pol : String) :
    DenM (sampleOf env.defaults E T snu >>= fun o => o.stack.reflCoef ⟨q.map .ok, th.map .ok, nu.map .ok, pol⟩)
      (joinAll ([farNuShape snu nu, optShape q, optShape th] ++ (shapes E ++ shapes T)))
      (fun i => (scalarAt E T snu i).reflCoef ⟨q.map (·.get i), th.map (·.get i), nu.map (·.get i), pol⟩) :=
  whole env.defaults E T snu h (fun s => s.reflCoef ⟨q.map .ok, th.map .ok, nu.map .ok, pol⟩)
    (fun i s => s.reflCoef ⟨q.map (·.get i), th.map (·.get i), nu.map (·.get i), pol⟩) _ fun S =>
    C60_refl_coef S snu q th nu pol

theorem C66_trans_coef (q th nu : Option (NDArray (FP ℝ))) (pol : String) :
    DenM (sampleOf env.defaults E T snu >>= fun o => o.stack.transCoef ⟨q.map .ok, th.map .ok, nu.map .ok, pol⟩)
      (joinAll ([farNuShape snu nu, optShape q, optShape th] ++ (shapes E ++ shapes T)))
      (fun i => (scalarAt E T snu i).transCoef ⟨q.map (·.get i), th.map (·.get i), nu.map (·.get i), pol⟩) :=
  whole env.defaults E T snu h (fun s => s.transCoef ⟨q.map .ok, th.map .ok, nu.map .ok, pol⟩)
    (fun i s => s.transCoef ⟨q.map (·.get i), th.map (·.get i), nu.map (·.get i), pol⟩) _ fun S =>
    C60_trans_coef S snu q th nu pol

theorem C66_fdm (a : Fdm.Args) (nLag : Option ℕ) (method : Option String) (z : Option (NDArray (FP ℝ)))
    (A n : NDArray (FP ℝ)) (nTrapz : Option ℕ) :
    DenM (sampleOf env.defaults E T snu >>= fun o => Fdm.effPolN env o.stack (.ok A) (.ok n) (z.map .ok) nTrapz
        (Fdm.argsArr a) nLag method)
      (joinAll ([optShape z, some A.rshape, some n.rshape, optShape a.rTip, optShape a.lTip,
        optShape a.gFactor, optShape a.dQ0, optShape a.dQ1,
        if method = some "Q_ave" then optShape a.dQa else some []] ++ (shapes E ++ shapes T)))
      (fun i => Fdm.effPolN env (scalarAt E T none i) (A.get i) (n.get i) (z.map (·.get i)) nTrapz
        (Fdm.argsAt a i) nLag method) := by
  have h1 := whole env.defaults E T snu h
    (fun s => Fdm.effPolN env s (.ok A) (.ok n) (z.map .ok) nTrapz (Fdm.argsArr a) nLag method)
    (fun i s => Fdm.effPolN env ⟨s.eps, s.t, none⟩ (A.get i) (n.get i) (z.map (·.get i)) nTrapz
      (Fdm.argsAt a i) nLag method)
    [optShape z, some A.rshape, some n.rshape, optShape a.rTip, optShape a.lTip, optShape a.gFactor, optShape a.dQ0,
      optShape a.dQ1, if method = some "Q_ave" then optShape a.dQa else some []]
    fun S => by
      simp only [List.cons_append, List.nil_append]
      exact C61_fdm_eff_pol_n env S a nLag method (snu.map .ok) z A n nTrapz
  exact h1

theorem C66_pdm (a : Pdm.Args) (z : Option (NDArray (FP ℝ))) (A n : NDArray (FP ℝ)) (nTrapz : Option ℕ) :
    DenM (sampleOf env.defaults E T snu >>= fun o => Pdm.effPolN env o.stack (.ok A) (.ok n) (z.map .ok) nTrapz
        (Pdm.argsArr a))
      (joinAll ([optShape z, some A.rshape, some n.rshape, optShape a.rTip, optShape a.epsTip,
        optShape a.alphaTip] ++ (shapes E ++ shapes T)))
      (fun i => Pdm.effPolN env (scalarAt E T none i) (A.get i) (n.get i) (z.map (·.get i)) nTrapz
        (Pdm.argsAt a i)) := by
  have h1 := whole env.defaults E T snu h
    (fun s => Pdm.effPolN env s (.ok A) (.ok n) (z.map .ok) nTrapz (Pdm.argsArr a))
    (fun i s => Pdm.effPolN env ⟨s.eps, s.t, none⟩ (A.get i) (n.get i) (z.map (·.get i)) nTrapz (Pdm.argsAt a i))
    [optShape z, some A.rshape, some n.rshape, optShape a.rTip, optShape a.epsTip, optShape a.alphaTip]
    fun S => by
      simp only [List.cons_append, List.nil_append]
      exact C61_pdm_eff_pol_n env S a (snu.map .ok) z A n nTrapz
  exact h1

end

/-- So the theorems about scalar samples speak about every entry of the arrays: here passivity (C15). -/
theorem C66_passive (d : Defaults) (E : List (NDArray (FP ℂ))) (T : List (NDArray (FP ℝ))) (q : NDArray (FP ℝ))
    (h : E.length = T.length + 2) {u : List ℕ} (hu : IsBroadcast (q.rshape :: (E.map (·.rshape) ++ T.map (·.rshape))) u)
    (hq : ∀ i, ∃ x : ℝ, q.get i = FP.num x ∧ 0 ≤ x)
    (hE : ∀ i, ∃ (env : ℝ) (L : List (ℂ × ℝ)) (sub : ℂ), 0 < env ∧ (∀ l ∈ L, Passive l.1 ∧ 0 ≤ l.2) ∧ Passive sub ∧
      E.map (·.get i) = FP.num ((env : ℝ) : ℂ) :: (L.map (fun l => FP.num l.1) ++ [FP.num sub]) ∧
      T.map (·.get i) = L.map fun l => FP.num l.2) :
    ∃ (o : SampleObj) (B : NDArray (FP ℂ)), sampleOf d E T none = .ok o ∧ o.stack.reflCoefQs (.ok q) = .ok (.ok B) ∧
      B.rshape = u ∧ ∀ i, ∃ β : ℂ, B.get i = FP.num β ∧ 0 ≤ β.im := by
  have hd := C66_refl_coef_qs ⟨d, fun _ => []⟩ E T none h q
  have hj : joinAll (some q.rshape :: (shapes E ++ shapes T)) = some u := by
    have := (C58_shape _ _).2 hu
    simpa only [shapes, List.map_cons, List.map_append, List.map_map, Function.comp_def] using this
  have hs : ∀ i, ∃ β : ℂ, (scalarAt E T none i).reflCoefQs (q.get i) = .ok (FP.num β) ∧ 0 ≤ β.im := by
    intro i
    obtain ⟨x, hx, hx0⟩ := hq i
    obtain ⟨env, L, sub, h0, hL, hsub, h1, h2⟩ := hE i
    have : scalarAt E T none i = layered env L sub none := by
      simp only [scalarAt, layered, h1, h2, Option.map_none]
    rw [this, hx]
    exact C15_passive env L sub none x h0 hL hsub hx0
  rw [hj] at hd
  rcases hd with ⟨e, -, he⟩ | ⟨B, g, h1, h2, h3⟩
  · obtain ⟨β, hβ, -⟩ := hs fun _ => 0
    exact absurd (hβ.symm.trans (he _)) (by simp)
  · cases ho : sampleOf d E T none with
    | error e =>
      simp only [ho] at h1
      cases h1
    | ok o =>
      simp only [ho, PyM.ok_bind] at h1
      refine ⟨o, B, rfl, h1, h2, fun i => ?_⟩
      obtain ⟨β, hβ, hb⟩ := hs i
      exact ⟨β, by rw [(h3 i).2, Except.ok.inj ((h3 i).1.symm.trans hβ)], hb⟩

/-- A film of four permittivities (last axis) and three thicknesses on a fixed substrate, at one momentum. -/
example (d : Defaults) : ∃ (o : SampleObj) (B : NDArray (FP ℂ)),
    sampleOf d [sc 1, ⟨[4], fun i => FP.num ⟨-2, i 0 + 1⟩⟩, sc 12] [⟨[1, 3], fun i => FP.num (i 1)⟩] none = .ok o ∧
    o.stack.reflCoefQs (.ok (scR 2)) = .ok (.ok B) ∧ B.rshape = [4, 3] ∧
    ∀ i, ∃ β : ℂ, B.get i = FP.num β ∧ 0 ≤ β.im := by
  refine C66_passive d _ _ (scR 2) rfl ((C58_shape _ _).1 (by decide)) (fun i => ⟨2, rfl, by norm_num⟩) fun i =>
    ⟨1, [(⟨-2, canon [4] i 0 + 1⟩, canon [1, 3] i 1)], 12, one_pos, ?_, Or.inr (by norm_num), ?_, rfl⟩
  · intro l hl
    rw [List.mem_singleton.1 hl]
    exact ⟨Or.inl (by positivity), by positivity⟩
  · simp [NDArray.get, NDArray.scalar]

end Snompy.Props
