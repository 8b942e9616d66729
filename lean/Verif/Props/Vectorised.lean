import Verif.Lemmas.Broadcast
import Verif.Lemmas.DenModels

/-!
# C58–C62: vectorisation

`Den`, `DenM` (`Verif/Spec/Elementwise.lean`) say what "elementwise" means, `IsBroadcast` and `Clash`
(`Verif/Spec/Broadcast.lean`) are numpy's broadcasting rule, and `ArrSample`
(`Verif/Spec/ArrSample.lean`) is a validated sample holding arrays.
-/

namespace Snompy.Props

open Snompy

/-! ## C58 Broadcasting is order-independent -/

/-- Combining shapes pairwise from left to right yields numpy's broadcast of all of them. -/
theorem C58_shape (ss : List (List ℕ)) (u : List ℕ) :
    joinAll (ss.map some) = some u ↔ IsBroadcast ss u :=
  joinAll_eq_some_iff ss u

/-- Combining shapes pairwise fails exactly when two of them disagree on an axis. -/
theorem C58_raises (ss : List (List ℕ)) : joinAll (ss.map some) = none ↔ Clash ss :=
  joinAll_eq_none_iff ss

/-- The order of the inputs does not matter. -/
theorem C58_order {ss ss' : List Shape} (h : ss.Perm ss') : joinAll ss = joinAll ss' :=
  joinAll_perm h

/-- The grouping of the inputs does not matter. -/
theorem C58_grouping (l₁ l₂ l₃ : List Shape) :
    joinAll (l₁ ++ [joinAll l₂] ++ l₃) = joinAll (l₁ ++ l₂ ++ l₃) := by
  simp only [joinAll_append, joinAll, Shape.join_unit]

/-- `+` on arrays raises exactly when the shapes clash, and otherwise has the broadcast shape (the
other binary operations are defined in the same way). -/
theorem C58_add (A B : NDArray (FP ℂ)) :
    (Clash [A.rshape, B.rshape] ∧ ((.ok A : CArr) + .ok B = .error .broadcast)) ∨
    ∃ C : NDArray (FP ℂ), (.ok A : CArr) + .ok B = .ok C ∧
      IsBroadcast [A.rshape, B.rshape] C.rshape ∧ ∀ i, C.get i = A.get i + B.get i := by
  have e : (.ok A : CArr) + .ok B = NDArray.zipWith (· + ·) A B := rfl
  have hj : joinAll ([A.rshape, B.rshape].map some) = bshape A.rshape B.rshape := by
    simp [joinAll]
  cases h : bshape A.rshape B.rshape with
  | none =>
    refine Or.inl ⟨(C58_raises _).1 (hj.trans h), ?_⟩
    rw [e, NDArray.zipWith, h]
  | some u =>
    have hd := (Den.leaf A).cadd (Den.leaf B)
    rw [Shape.some_join_some, h] at hd
    obtain ⟨C, h1, h2, h3⟩ := hd
    exact Or.inr ⟨C, h1, by rw [h2]; exact (C58_shape _ _).1 (hj.trans h), h3⟩

/-- A clash and a broadcast of three shapes: `(3,)`, `(2, 1)`, `()` give `(2, 3)`. -/
example : IsBroadcast [[3], [1, 2], []] [3, 2] := (C58_shape _ _).1 (by decide)
example : Clash [[3], [], [2, 3]] := (C58_raises _).1 (by decide)

/-! ## C59 Vectorised demod = scalar demod elementwise -/

/-- `demod` of an elementwise function `f` (with further array arguments of broadcast
shape `sf`) is elementwise: it raises when the shapes clash, has the broadcast shape, and at every index
is the scalar `demod` of the entries at this index. -/
theorem C59_demod (env : Env) (f : RArr → PyM CArr) (fS : (ℕ → ℕ) → FP ℝ → PyM (FP ℂ)) (sf : Shape)
    (hf : ∀ x sx X, Den x sx X → DenM (f x) (sx ⊔ᵇ sf) (fun i => fS i (X i)))
    (x0 amp n : NDArray (FP ℝ)) (nTrapz : Option ℕ) :
    DenM (demod env f (.ok x0) (.ok amp) (.ok n) nTrapz)
      (joinAll [some x0.rshape, some amp.rshape, some n.rshape, sf])
      (fun i => demod env (fS i) (x0.get i) (amp.get i) (n.get i) nTrapz) := by
  refine (demod_den env f fS hf (Den.leaf x0) (Den.leaf amp) (Den.leaf n) nTrapz).congr ?_
    fun _ => rfl
  simp only [joinAll, Shape.join_unit]; shape_ac

/-- An elementwise function with its own array argument: `f(x) = x * c`. -/
example (env : Env) (x0 amp n : NDArray (FP ℝ)) (c : NDArray (FP ℂ)) :
    DenM (demod env (fun x => .ok (ofR x * .ok c)) (.ok x0) (.ok amp) (.ok n) (some 8))
      (joinAll [some x0.rshape, some amp.rshape, some n.rshape, some c.rshape])
      (fun i => demod env (fun x => .ok (ofR x * c.get i)) (x0.get i) (amp.get i) (n.get i)
        (some 8)) :=
  C59_demod env _ (fun i x => .ok (ofR x * c.get i)) _
    (fun _ _ _ h => DenM.ok (h.ofR.cmul (Den.leaf c))) x0 amp n _

/-! ## C60 Vectorised sample methods = scalar methods elementwise -/

section C60
variable (S : ArrSample) (nu : Option RArr)

theorem C60_refl_coef_qs (q : NDArray (FP ℝ)) :
    DenM ((S.stack nu).reflCoefQs (.ok q))
      (joinAll [some q.rshape, some S.epsShape, some S.tShape])
      (fun i => (S.at_ i).reflCoefQs (q.get i)) := by
  refine (S.reflCoefQs_den (Den.leaf q) nu fun _ => none).congr ?_ fun _ => rfl
  simp only [joinAll, Shape.join_unit, ArrSample.shape]

theorem C60_trans_coef_qs (q : NDArray (FP ℝ)) :
    DenM ((S.stack nu).transCoefQs (.ok q))
      (joinAll [some q.rshape, some S.epsShape, some S.tShape])
      (fun i => (S.at_ i).transCoefQs (q.get i)) := by
  refine (S.transCoefQs_den (Den.leaf q) nu fun _ => none).congr ?_ fun _ => rfl
  simp only [joinAll, Shape.join_unit, ArrSample.shape]

theorem C60_above_surf (env : Env) (nLag : Option ℕ) (z : NDArray (FP ℝ)) :
    DenM ((S.stack nu).reflCoefQsAboveSurf env (.ok z) nLag)
      (joinAll [some z.rshape, some S.epsShape, some S.tShape])
      (fun i => (S.at_ i).reflCoefQsAboveSurf env (z.get i) nLag) := by
  refine (S.reflCoefQsAboveSurf_den env nLag (Den.leaf z) nu).congr ?_ fun _ => rfl
  simp only [joinAll, Shape.join_unit, ArrSample.shape]

theorem C60_surf_pot (env : Env) (nLag : Option ℕ) (z : NDArray (FP ℝ)) :
    DenM ((S.stack nu).surfPotAndField env (.ok z) nLag >>= fun p => .ok p.1)
      (joinAll [some z.rshape, some S.epsShape, some S.tShape])
      (fun i => (S.at_ i).surfPotAndField env (z.get i) nLag >>= fun p => .ok p.1) := by
  refine S.surfPotAndField_den env nLag (Den.leaf z) nu
    (s' := joinAll [some z.rshape, some S.epsShape, some S.tShape]) ?_ _ _ fun x y f g hx _ => ?_
  · simp only [joinAll, Shape.join_unit, ArrSample.shape]; exact Shape.le_refl _
  · refine DenM.ok (hx.congr ?_ fun _ => rfl)
    simp only [joinAll, Shape.join_unit, ArrSample.shape]

theorem C60_surf_field (env : Env) (nLag : Option ℕ) (z : NDArray (FP ℝ)) :
    DenM ((S.stack nu).surfPotAndField env (.ok z) nLag >>= fun p => .ok p.2)
      (joinAll [some z.rshape, some S.epsShape, some S.tShape])
      (fun i => (S.at_ i).surfPotAndField env (z.get i) nLag >>= fun p => .ok p.2) := by
  refine S.surfPotAndField_den env nLag (Den.leaf z) nu
    (s' := joinAll [some z.rshape, some S.epsShape, some S.tShape]) ?_ _ _ fun x y f g _ hy => ?_
  · simp only [joinAll, Shape.join_unit, ArrSample.shape]; exact Shape.le_refl _
  · refine DenM.ok (hy.congr ?_ fun _ => rfl)
    simp only [joinAll, Shape.join_unit, ArrSample.shape]

theorem C60_image_depth (env : Env) (nLag : Option ℕ) (z : NDArray (FP ℝ)) :
    DenM ((S.stack nu).imageDepthAndCharge env (.ok z) nLag >>= fun p => .ok p.1)
      (joinAll [some z.rshape, some S.epsShape, some S.tShape])
      (fun i => (S.at_ i).imageDepthAndCharge env (z.get i) nLag >>= fun p => .ok p.1) := by
  refine S.imageDepthAndCharge_den env nLag (Den.leaf z) nu
    (s' := joinAll [some z.rshape, some S.epsShape, some S.tShape]) ?_ _ _ fun x y f g hx _ => ?_
  · simp only [joinAll, Shape.join_unit, ArrSample.shape]; exact Shape.le_refl _
  · refine DenM.ok (hx.congr ?_ fun _ => rfl)
    simp only [joinAll, Shape.join_unit, ArrSample.shape]

theorem C60_image_charge (env : Env) (nLag : Option ℕ) (z : NDArray (FP ℝ)) :
    DenM ((S.stack nu).imageDepthAndCharge env (.ok z) nLag >>= fun p => .ok p.2)
      (joinAll [some z.rshape, some S.epsShape, some S.tShape])
      (fun i => (S.at_ i).imageDepthAndCharge env (z.get i) nLag >>= fun p => .ok p.2) := by
  refine S.imageDepthAndCharge_den env nLag (Den.leaf z) nu
    (s' := joinAll [some z.rshape, some S.epsShape, some S.tShape]) ?_ _ _ fun x y f g _ hy => ?_
  · simp only [joinAll, Shape.join_unit, ArrSample.shape]; exact Shape.le_refl _
  · refine DenM.ok (hy.congr ?_ fun _ => rfl)
    simp only [joinAll, Shape.join_unit, ArrSample.shape]

end C60

section C60far
variable (S : ArrSample)

/-- Shape of the wavenumber used: the argument of the call, else that of the sample. -/
def farNuShape (snu nu : Option (NDArray (FP ℝ))) : Shape := optShape (nu.orElse fun _ => snu)

theorem farNuShape_eq (snu nu : Option (NDArray (FP ℝ))) :
    farNuShape snu nu = (match nu with | some n => some n.rshape | none => optShape snu) := by
  cases nu <;> rfl

theorem C60_refl_coef (snu q th nu : Option (NDArray (FP ℝ))) (pol : String) :
    DenM ((S.stack (snu.map .ok)).reflCoef ⟨q.map .ok, th.map .ok, nu.map .ok, pol⟩)
      (joinAll [farNuShape snu nu, optShape q, optShape th, some S.epsShape, some S.tShape])
      (fun i => (S.at_ i (snu.map (·.get i))).reflCoef
        ⟨q.map (·.get i), th.map (·.get i), nu.map (·.get i), pol⟩) := by
  rw [show joinAll [farNuShape snu nu, optShape q, optShape th, some S.epsShape, some S.tShape] =
    (match nu with | some n => some n.rshape | none => optShape snu) ⊔ᵇ
        (optShape q ⊔ᵇ optShape th) ⊔ᵇ S.shape by
      rw [← farNuShape_eq]; simp only [joinAll, Shape.join_unit, ArrSample.shape]; shape_ac]
  rcases S.transferMatrix_den snu q th nu pol with ⟨e, hx, hf⟩ | ⟨M, m, hx, hf, hM⟩
  · simp only [Stack.reflCoef, hx, hf, PyM.error_bind]
    exact DenM.err e _
  · simp only [Stack.reflCoef, hx, hf, PyM.ok_bind, PyM.pure_eq_ok]
    exact DenM.ok ((hM.h10.cdiv hM.h00).congr (Shape.join_self _) fun i => rfl)

theorem C60_trans_coef (snu q th nu : Option (NDArray (FP ℝ))) (pol : String) :
    DenM ((S.stack (snu.map .ok)).transCoef ⟨q.map .ok, th.map .ok, nu.map .ok, pol⟩)
      (joinAll [farNuShape snu nu, optShape q, optShape th, some S.epsShape, some S.tShape])
      (fun i => (S.at_ i (snu.map (·.get i))).transCoef
        ⟨q.map (·.get i), th.map (·.get i), nu.map (·.get i), pol⟩) := by
  rw [show joinAll [farNuShape snu nu, optShape q, optShape th, some S.epsShape, some S.tShape] =
    (match nu with | some n => some n.rshape | none => optShape snu) ⊔ᵇ
        (optShape q ⊔ᵇ optShape th) ⊔ᵇ S.shape by
      rw [← farNuShape_eq]; simp only [joinAll, Shape.join_unit, ArrSample.shape]; shape_ac]
  rcases S.transferMatrix_den snu q th nu pol with ⟨e, hx, hf⟩ | ⟨M, m, hx, hf, hM⟩
  · simp only [Stack.transCoef, hx, hf, PyM.error_bind]
    exact DenM.err e _
  · simp only [Stack.transCoef, hx, hf, PyM.ok_bind, PyM.pure_eq_ok]
    exact DenM.ok (((Den.clit 1).cdiv hM.h00).congr (Shape.unit_join _) fun i => rfl)

end C60far

/-- A sample of three layers with permittivities of shape `(5,)` and a thickness of shape `ts`
(last axis first). -/
def spectralSample (e0 e1 e2 : (ℕ → ℕ) → FP ℂ) (t1 : (ℕ → ℕ) → FP ℝ) (ts : List ℕ) : ArrSample where
  eps := [⟨[5], e0⟩, ⟨[5], e1⟩, ⟨[5], e2⟩]
  t := [⟨ts, t1⟩]
  epsShape := [5]
  tShape := ts
  eps_shape := by simp
  t_shape := by simp
  t_nil := by simp
  layers := rfl

/-- With thicknesses of shape `(3,)` these permittivities clash: the call raises. -/
example (e0 e1 e2 t1) (q : FP ℝ) :
    ∃ e, ((spectralSample e0 e1 e2 t1 [3]).stack.reflCoefQs (.ok (.scalar q)) >>= fun y => y) =
      .error e :=
  C60_refl_coef_qs (spectralSample e0 e1 e2 t1 [3]) none (.scalar q)

/-- With thicknesses of shape `(3, 1)` the result has shape `(3, 5)`. -/
example (e0 e1 e2 t1) (q : FP ℝ) :
    ∃ A : NDArray (FP ℂ), (spectralSample e0 e1 e2 t1 [1, 3]).stack.reflCoefQs (.ok (.scalar q)) =
      .ok (.ok A) ∧ A.rshape = [5, 3] ∧
      ∀ i, ((spectralSample e0 e1 e2 t1 [1, 3]).at_ i).reflCoefQs q = .ok (A.get i) := by
  rcases C60_refl_coef_qs (spectralSample e0 e1 e2 t1 [1, 3]) none (.scalar q) with
    ⟨e, h, _⟩ | ⟨A, g, h1, h2, h3⟩
  · simp [Stack.reflCoefQs, Stack.transferMatrixQs, spectralSample, ArrSample.stack,
      Stack.multilayer, Stack.nLayers] at h
  · exact ⟨A, h1, h2, fun i => by rw [(h3 i).2]; exact (h3 i).1⟩

/-! ## C61 Vectorised effective polarizability = scalar elementwise -/

/-- `fdm.eff_pol`: each method, each combination of given and omitted arguments. -/
theorem C61_fdm_eff_pol (env : Env) (S : ArrSample) (a : Fdm.Args) (nLag : Option ℕ)
    (method : Option String) (nu : Option RArr) (z : Option (NDArray (FP ℝ))) :
    DenM (Fdm.effPol env (S.stack nu) (z.map .ok) (Fdm.argsArr a) nLag method)
      (joinAll [optShape z, optShape a.rTip, optShape a.lTip, optShape a.gFactor, optShape a.dQ0,
        optShape a.dQ1, if method = some "Q_ave" then optShape a.dQa else some [],
        some S.epsShape, some S.tShape])
      (fun i => Fdm.effPol env (S.at_ i) (z.map (·.get i)) (Fdm.argsAt a i) nLag method) := by
  have h := Fdm.effPol_den env S a nLag method nu _ _ _ (Fdm.getD_lit_den z env.defaults.zTip)
  refine h.congr ?_ fun _ => rfl
  simp only [joinAll, Shape.join_unit, ArrSample.shape, Fdm.effPolShape, Shape.join_assoc]

/-- `fdm.eff_pol_n`. -/
theorem C61_fdm_eff_pol_n (env : Env) (S : ArrSample) (a : Fdm.Args) (nLag : Option ℕ)
    (method : Option String) (nu : Option RArr) (z : Option (NDArray (FP ℝ)))
    (A n : NDArray (FP ℝ)) (nTrapz : Option ℕ) :
    DenM (Fdm.effPolN env (S.stack nu) (.ok A) (.ok n) (z.map .ok) nTrapz (Fdm.argsArr a) nLag
        method)
      (joinAll [optShape z, some A.rshape, some n.rshape, optShape a.rTip, optShape a.lTip,
        optShape a.gFactor, optShape a.dQ0, optShape a.dQ1,
        if method = some "Q_ave" then optShape a.dQa else some [], some S.epsShape, some S.tShape])
      (fun i => Fdm.effPolN env (S.at_ i) (A.get i) (n.get i) (z.map (·.get i)) nTrapz
        (Fdm.argsAt a i) nLag method) := by
  have h := Fdm.effPolN_den env S a nLag method nu nTrapz
    (Fdm.getD_lit_den z env.defaults.zTip) (Den.leaf A) (Den.leaf n)
  refine h.congr ?_ fun _ => rfl
  simp only [joinAll, Shape.join_unit, ArrSample.shape, Fdm.effPolShape, Shape.join_assoc]

/-- `pdm.eff_pol`. -/
theorem C61_pdm_eff_pol (env : Env) (S : ArrSample) (a : Pdm.Args) (nu : Option RArr)
    (z : Option (NDArray (FP ℝ))) :
    DenM (Pdm.effPol env (S.stack nu) (z.map .ok) (Pdm.argsArr a))
      (joinAll [optShape z, optShape a.rTip, optShape a.epsTip, optShape a.alphaTip,
        some S.epsShape, some S.tShape])
      (fun i => Pdm.effPol env (S.at_ i) (z.map (·.get i)) (Pdm.argsAt a i)) := by
  have h := Pdm.effPol_den env S a nu _ _ _ (Fdm.getD_lit_den z env.defaults.zTip)
  refine h.congr ?_ fun _ => rfl
  simp only [joinAll, Shape.join_unit, ArrSample.shape, Pdm.argsShape, Shape.join_assoc]

/-- `pdm.eff_pol_n`. -/
theorem C61_pdm_eff_pol_n (env : Env) (S : ArrSample) (a : Pdm.Args) (nu : Option RArr)
    (z : Option (NDArray (FP ℝ))) (A n : NDArray (FP ℝ)) (nTrapz : Option ℕ) :
    DenM (Pdm.effPolN env (S.stack nu) (.ok A) (.ok n) (z.map .ok) nTrapz (Pdm.argsArr a))
      (joinAll [optShape z, some A.rshape, some n.rshape, optShape a.rTip, optShape a.epsTip,
        optShape a.alphaTip, some S.epsShape, some S.tShape])
      (fun i => Pdm.effPolN env (S.at_ i) (A.get i) (n.get i) (z.map (·.get i)) nTrapz
        (Pdm.argsAt a i)) := by
  have h := Pdm.effPolN_den env S a nu nTrapz
    (Fdm.getD_lit_den z env.defaults.zTip) (Den.leaf A) (Den.leaf n)
  refine h.congr ?_ fun _ => rfl
  simp only [joinAll, Shape.join_unit, ArrSample.shape, Pdm.argsShape, Shape.join_assoc]

/-! ## C62 Vectorised Taylor series = scalar elementwise -/

/-- `fdm.eff_pol_n_taylor`; `d_Qa` is read only by the method `Q_ave`, the default for multilayer
samples. -/
theorem C62_fdm_eff_pol_n_taylor (env : Env) (S : ArrSample) (a : Fdm.Args) (nLag : Option ℕ)
    (method : Option String) (nu : Option RArr) (z : Option (NDArray (FP ℝ)))
    (A n : NDArray (FP ℝ)) (nTrapz nTayl : Option ℕ) :
    DenM (Fdm.effPolNTaylor env (S.stack nu) (.ok A) (.ok n) (z.map .ok) (Fdm.argsArr a) nLag
        method nTrapz nTayl)
      (joinAll [optShape z, some A.rshape, some n.rshape, optShape a.rTip, optShape a.lTip,
        optShape a.gFactor, optShape a.dQ0, optShape a.dQ1,
        if method.getD (if S.t = [] then "bulk" else "Q_ave") = "Q_ave" then optShape a.dQa
          else some [], some S.epsShape, some S.tShape])
      (fun i => Fdm.effPolNTaylor env (S.at_ i) (A.get i) (n.get i) (z.map (·.get i))
        (Fdm.argsAt a i) nLag method nTrapz nTayl) := by
  have h := Fdm.effPolNTaylor_den env S a nLag method nu nTrapz nTayl
    (Fdm.getD_lit_den z env.defaults.zTip) (Den.leaf A) (Den.leaf n)
  refine h.congr ?_ fun _ => rfl
  simp only [joinAll, Shape.join_unit, ArrSample.shape, Fdm.taylorShape, Shape.join_assoc]

/-- `pdm.eff_pol_n_taylor`. -/
theorem C62_pdm_eff_pol_n_taylor (env : Env) (S : ArrSample) (a : Pdm.Args) (nu : Option RArr)
    (z : Option (NDArray (FP ℝ))) (A n : NDArray (FP ℝ)) (nTrapz nTayl : Option ℕ) :
    DenM (Pdm.effPolNTaylor env (S.stack nu) (.ok A) (.ok n) (z.map .ok) (Pdm.argsArr a) nTrapz
        nTayl)
      (joinAll [optShape z, some A.rshape, some n.rshape, optShape a.rTip, optShape a.epsTip,
        optShape a.alphaTip, some S.epsShape, some S.tShape])
      (fun i => Pdm.effPolNTaylor env (S.at_ i) (A.get i) (n.get i) (z.map (·.get i))
        (Pdm.argsAt a i) nTrapz nTayl) := by
  have h := Pdm.effPolNTaylor_den env S a nu nTrapz nTayl
    (Fdm.getD_lit_den z env.defaults.zTip) (Den.leaf A) (Den.leaf n)
  refine h.congr ?_ fun _ => rfl
  simp only [joinAll, Shape.join_unit, ArrSample.shape, Pdm.argsShape, Shape.join_assoc]

end Snompy.Props
