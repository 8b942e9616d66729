import Verif.Model.Stack
import Verif.NDArray

/-!
# `snompy/sample.py`: the class `Sample` (construction, validation, assignment)

Arrays with a leading layer axis (`eps_stack`, `beta_stack`, `t_stack`) are lists of arrays of a common
shape, one per layer; the empty list is numpy's `array([])`.
-/

namespace Snompy

/-- A value assigned to one of the stack properties: something that can be unpacked (`*val`) into arrays, or
something that cannot (`None`, a number, a zero-dimensional array). -/
inductive StackVal (α : Type) where
  | notIterable
  | items (l : List (NDArray α))

/-- `np.broadcast_shapes`; without arguments the shape is `()`. -/
def broadcastShapes : List (List ℕ) → Option (List ℕ)
  | [] => some []
  | s :: l => (broadcastShapes l).bind fun t => bshape s t

/-- `np.broadcast_to`. -/
def NDArray.broadcastTo {α : Type} (s : List ℕ) (A : NDArray α) : NDArray α := ⟨s, A.get⟩

/-- `np.asanyarray(np.broadcast_arrays(*val))` (`sample.py:138`, `149`, `162`). -/
def unpackStack {α : Type} : StackVal α → PyM (List (NDArray α))
  | .notIterable => .error (.typeError "Value after * must be an iterable")
  | .items l =>
    match broadcastShapes (l.map (·.rshape)) with
    | none => .error .broadcast
    | some s => .ok (l.map (NDArray.broadcastTo s))

/-- `a * b` for arrays of the same shape. -/
def NDArray.mulEq (A B : NDArray (FP ℂ)) : NDArray (FP ℂ) := ⟨A.rshape, fun i => A.get i * B.get i⟩

/-- The running products after the first. -/
def cumprodFrom (acc : NDArray (FP ℂ)) : List (NDArray (FP ℂ)) → List (NDArray (FP ℂ))
  | [] => []
  | r :: rs => acc.mulEq r :: cumprodFrom (acc.mulEq r) rs

/-- `np.cumprod(..., axis=0)`. -/
def cumprod : List (NDArray (FP ℂ)) → List (NDArray (FP ℂ))
  | [] => []
  | r :: rs => r :: cumprodFrom r rs

/-- `eps_stack *= eps_env` (`sample.py:165`): in-place, so the array on the right must broadcast into the shape of
`eps_stack`, whose first axis (the last one when counting from the right) is the layer axis. -/
def imulEnv (s : List ℕ) (eps : List (NDArray (FP ℂ))) (epsEnv : NDArray (FP ℂ)) :
    PyM (List (NDArray (FP ℂ))) :=
  if bshape (s ++ [eps.length]) epsEnv.rshape = some (s ++ [eps.length]) then
    .ok (eps.mapIdx fun k e => ⟨s, fun i => e.get i * epsEnv.get (Function.update i s.length k)⟩)
  else .error .broadcast

/-- An instance of `Sample` (`sample.py:102-127`). -/
structure SampleObj where
  /-- `_t_stack` -/
  t : Option (List (NDArray (FP ℝ)))
  /-- `_eps_stack` -/
  eps : Option (List (NDArray (FP ℂ)))
  /-- `_eps_env` -/
  epsEnv0 : NDArray (FP ℂ)
  /-- `nu_vac` -/
  nuVac : Option (NDArray (FP ℝ))

namespace SampleObj

/-- The message of `_check_layers_valid` (`sample.py:461-470`). -/
def layersMsg : String := "Invalid inputs: `eps_stack` must be 2 longer than `t_stack`, or \
`beta_stack` must be 1 longer than `t_stack`, along the first axis."

/-- The message of the exclusivity check (`sample.py:107-114`). -/
def exclusiveMsg : String := "Either `eps_stack` or `beta_stack` must be specified, (but not both)."

/-- `_check_layers_valid` (`sample.py:458-470`). -/
def checkLayersValid (o : SampleObj) : PyM Unit :=
  match o.t, o.eps with
  | some t, some eps =>
    if eps.length ≠ t.length + 2 then .error (.valueError layersMsg) else .ok ()
  | _, _ => .ok ()

/-- Setter of `t_stack` (`sample.py:133-141`; `none` is Python's `None`): the object after the assignment and its
outcome. -/
def setT (o : SampleObj) : Option (StackVal (FP ℝ)) → SampleObj × PyM Unit
  | none => ({ o with t := some [] }, checkLayersValid { o with t := some [] })
  | some v =>
    match unpackStack v with
    | .error e => (o, .error e)
    | .ok t => ({ o with t := some t }, checkLayersValid { o with t := some t })

/-- Setter of `eps_stack` (`sample.py:147-152`). -/
def setEps (o : SampleObj) (v : StackVal (FP ℂ)) : SampleObj × PyM Unit :=
  match unpackStack v with
  | .error e => (o, .error e)
  | .ok eps => ({ o with eps := some eps }, checkLayersValid { o with eps := some eps })

/-- `eps_env` (`sample.py:168-170`). -/
def epsEnv (o : SampleObj) : PyM (NDArray (FP ℂ)) :=
  match o.eps with
  | none => .ok o.epsEnv0
  | some [] => .error .indexError
  | some (e :: _) => .ok e

/-- `np.ones([beta.shape[0] + 1, *beta.shape[1:]])` with `eps_stack[1:] = np.cumprod(permitivitty(beta), axis=0)`
(`sample.py:163-164`), and the shape of one layer. -/
noncomputable def epsFromBeta (beta : List (NDArray (FP ℂ))) : List ℕ × List (NDArray (FP ℂ)) :=
  let s := match beta with
    | [] => []
    | b :: _ => b.rshape
  (s, ⟨s, fun _ => clit 1⟩ :: cumprod (beta.map fun b => b.map fun x => permitivitty x))

/-- Setter of `beta_stack` (`sample.py:159-166`). -/
noncomputable def setBeta (o : SampleObj) (v : StackVal (FP ℂ)) : SampleObj × PyM Unit :=
  match unpackStack v with
  | .error e => (o, .error e)
  | .ok beta =>
    match o.epsEnv with
    | .error e => (o, .error e)
    | .ok env =>
      match imulEnv (epsFromBeta beta).1 (epsFromBeta beta).2 env with
      | .error e => (o, .error e)
      | .ok eps => o.setEps (.items eps)

/-- Getter of `beta_stack` (`sample.py:154-157`). -/
noncomputable def betaStack (o : SampleObj) : PyM (List (NDArray (FP ℂ))) :=
  match o.eps with
  | none => .error (.typeError "'NoneType' object is not subscriptable")
  | some eps =>
    (List.zipWith (fun a b => (reflCoefQsSingle (.ok a) (.ok b) : CArr)) eps.dropLast eps.tail).mapM id

/-- `n_layers` (`sample.py:172-174`). -/
def nLayers (o : SampleObj) : PyM ℕ :=
  match o.eps with
  | none => .error (.typeError "'NoneType' object has no attribute 'shape'")
  | some eps => .ok eps.length

/-- `multilayer` (`sample.py:176-179`). -/
def multilayer (o : SampleObj) : PyM Bool := do pure (decide ((← o.nLayers) > 2))

/-- What the optical methods read. -/
def stack (o : SampleObj) : Stack RArr CArr :=
  ⟨(o.eps.getD []).map .ok, (o.t.getD []).map .ok, o.nuVac.map .ok⟩

/-- The arguments of `Sample(...)`. -/
structure Args where
  eps : Option (StackVal (FP ℂ)) := none
  beta : Option (StackVal (FP ℂ)) := none
  t : Option (StackVal (FP ℝ)) := none
  epsEnv : Option (NDArray (FP ℂ)) := none
  nuVac : Option (NDArray (FP ℝ)) := none

/-- The object, when the assignment did not raise. -/
def raised (r : SampleObj × PyM Unit) : PyM SampleObj := do
  r.2
  pure r.1

/-- `Sample.__init__` (`sample.py:102-127`). -/
noncomputable def init (d : Defaults) (a : Args) : PyM SampleObj :=
  if a.eps.isNone = a.beta.isNone then .error (.valueError exclusiveMsg)
  else do
    let o : SampleObj := ⟨none, none, a.epsEnv.getD (NDArray.scalar (FP.num d.epsEnv)), none⟩
    let o ← raised (o.setT a.t)
    let o ← match a.eps, a.beta with
      | some v, _ => raised (o.setEps v)
      | none, some v => raised (o.setBeta v)
      | none, none => .ok o
    pure { o with nuVac := a.nuVac }

/-- `bulk_sample` (`sample.py:801-828`); the keyword arguments are `t_stack` and `nu_vac`. -/
noncomputable def bulk (d : Defaults) (epsSub beta : Option (NDArray (FP ℂ)))
    (epsEnv : Option (NDArray (FP ℂ)) := none) (t : Option (StackVal (FP ℝ)) := none)
    (nuVac : Option (NDArray (FP ℝ)) := none) : PyM SampleObj :=
  let epsEnv := epsEnv.getD (NDArray.scalar (FP.num d.epsEnv))
  init d
    { eps := epsSub.map fun e => .items [epsEnv, e]
      beta := beta.map fun b => .items [b]
      t := t
      epsEnv := some epsEnv
      nuVac := nuVac }

/-- An assignment to an attribute of a sample. -/
inductive Op where
  | t (v : Option (StackVal (FP ℝ)))
  | eps (v : StackVal (FP ℂ))
  | beta (v : StackVal (FP ℂ))
  | nuVac (v : Option (NDArray (FP ℝ)))

/-- Carry out an assignment: the object afterwards and the outcome. -/
noncomputable def Op.run (o : SampleObj) : Op → SampleObj × PyM Unit
  | .t v => o.setT v
  | .eps v => o.setEps v
  | .beta v => o.setBeta v
  | .nuVac v => ({ o with nuVac := v }, .ok ())

/-- A sequence of assignments, up to the first that raises. -/
noncomputable def runAll (o : SampleObj) : List Op → PyM SampleObj
  | [] => .ok o
  | op :: ops => do (← raised (op.run o)).runAll ops

/-- A sequence of assignments in which exceptions are caught by the user. -/
noncomputable def runCaught (o : SampleObj) : List Op → SampleObj
  | [] => o
  | op :: ops => (op.run o).1.runCaught ops

end SampleObj

end Snompy
