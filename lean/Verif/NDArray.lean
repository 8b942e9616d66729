import Verif.Scalar

/-!
# The array reading of the interface: n-dimensional arrays with numpy broadcasting

Axes are counted from the *right* (the way numpy aligns them), so `rshape` lists the
axis lengths from the last axis to the first, and an index is a function `ℕ → ℕ` from the axis number
(counted from the right) to the position.  An index may have more axes than the array: numpy's
broadcasting ignores surplus leading axes and every axis of length one, see `NDArray.get`.
-/

namespace Snompy

/-- An n-dimensional array. -/
structure NDArray (α : Type) where
  /-- axis lengths, last axis first -/
  rshape : List ℕ
  /-- the entry at each position -/
  data : (ℕ → ℕ) → α

/-- Length of an axis; surplus leading axes have length one. -/
def dimAt (s : List ℕ) (k : ℕ) : ℕ := s.getD k 1

/-- The position in an array of shape `s` that a broadcast index refers to: axes of length one
(and surplus axes) are read at position zero. -/
def canon (s : List ℕ) (i : ℕ → ℕ) : ℕ → ℕ := fun k => if dimAt s k = 1 then 0 else i k

namespace NDArray

variable {α β γ : Type}

/-- The entry a broadcast index refers to. -/
def get (A : NDArray α) (i : ℕ → ℕ) : α := A.data (canon A.rshape i)

/-- `np.ndim`. -/
def ndim (A : NDArray α) : ℕ := A.rshape.length

/-- A zero-dimensional array (also: a Python scalar). -/
def scalar (a : α) : NDArray α := ⟨[], fun _ => a⟩

/-- Elementwise function of one array. -/
def map (f : α → β) (A : NDArray α) : NDArray β := ⟨A.rshape, fun i => f (A.get i)⟩

end NDArray

/-- numpy's rule for one axis: equal lengths, or one of them is one. -/
def bdim (a b : ℕ) : Option ℕ :=
  if a = b then some a else if a = 1 then some b else if b = 1 then some a else none

/-- numpy's broadcasting of two shapes (last axis first). -/
def bshape : List ℕ → List ℕ → Option (List ℕ)
  | [], t => some t
  | s, [] => some s
  | a :: s, b :: t =>
    match bdim a b, bshape s t with
    | some c, some u => some (c :: u)
    | _, _ => none

namespace NDArray

variable {α β γ : Type}

/-- Elementwise function of two arrays with broadcasting. -/
def zipWith (f : α → β → γ) (A : NDArray α) (B : NDArray β) : PyM (NDArray γ) :=
  match bshape A.rshape B.rshape with
  | none => .error .broadcast
  | some s => .ok ⟨s, fun i => f (A.get i) (B.get i)⟩

/-- `_pad_for_broadcasting` (`_utils.py:4-9`): a one-dimensional array in front of `p` axes
of length one. -/
def padFront (xs : List α) (p : ℕ) (dflt : α) : NDArray α :=
  ⟨List.replicate p 1 ++ [xs.length], fun i => xs.getD (i p) dflt⟩

/-- The entries along axis 0 (the leading axis) at a given position of the other axes. -/
def column (A : NDArray α) (i : ℕ → ℕ) : List α :=
  (List.range (dimAt A.rshape (A.ndim - 1))).map fun k =>
    A.get (Function.update i (A.ndim - 1) k)

/-- A reduction along axis 0; numpy raises for a zero-dimensional operand. -/
def reduce0 (f : List α → β) (A : NDArray α) : PyM (NDArray β) :=
  if A.ndim = 0 then .error (.valueError "axis 0 is out of bounds for array of dimension 0")
  else .ok ⟨A.rshape.dropLast, fun i => f (A.column i)⟩

end NDArray

/-- Real arrays, or the exception raised while computing them. -/
abbrev RArr := PyM (NDArray (FP ℝ))
/-- Complex arrays, or the exception raised while computing them. -/
abbrev CArr := PyM (NDArray (FP ℂ))
/-- Integer arrays, or the exception raised while computing them. -/
abbrev JArr := PyM (NDArray ℤ)

namespace Arr

variable {α β γ δ : Type}

/-- Elementwise operations on array expressions; the exception of the left operand comes first. -/
def map1 (f : α → β) (x : PyM (NDArray α)) : PyM (NDArray β) := do
  pure ((← x).map f)

def map2 (f : α → β → γ) (x : PyM (NDArray α)) (y : PyM (NDArray β)) : PyM (NDArray γ) := do
  let A ← x
  let B ← y
  NDArray.zipWith f A B

/-- `np.where(cond(x), y, z)`. -/
def where3 (c : α → Prop) [DecidablePred c] (x : PyM (NDArray α)) (y z : PyM (NDArray β)) :
    PyM (NDArray β) :=
  map2 (fun a (p : β × β) => if c a then p.1 else p.2) x (map2 Prod.mk y z)

/-- `np.max([np.ndim(a) for a in broadcast_with])` (`_utils.py:8`). -/
def maxNdim (l : List (RArr ⊕ CArr)) : PyM ℕ :=
  match l with
  | [] => .ok 0
  | x :: l => do
    let m ← match x with
      | .inl x => do pure (← x).ndim
      | .inr x => do pure (← x).ndim
    pure (max m (← maxNdim l))

end Arr

open Arr

noncomputable instance : RealOps RArr where
  add := map2 (· + ·)
  sub := map2 (· - ·)
  mul := map2 (· * ·)
  div := map2 (· / ·)
  lit x := .ok (NDArray.scalar (lit x))
  log := map1 RealOps.log
  sin := map1 RealOps.sin
  cos := map1 RealOps.cos
  abs := map1 RealOps.abs
  clip lo hi := map1 (RealOps.clip lo hi)
  npow x n := map1 (fun a => RealOps.npow a n) x
  onesLike := map1 RealOps.onesLike

open Classical in
noncomputable instance : CplxOps RArr JArr CArr where
  add := map2 (· + ·)
  sub := map2 (· - ·)
  mul := map2 (· * ·)
  div := map2 (· / ·)
  clit x := .ok (NDArray.scalar (clit x))
  ofR := map1 ofR
  exp := map1 CplxOps.exp
  sqrt := map1 CplxOps.sqrt
  cabs := map1 CplxOps.cabs
  cpow x n := map1 (fun a => CplxOps.cpow a n) x
  jpow := map2 CplxOps.jpow
  jpred := map1 (CplxOps.jpred (FP ℂ))
  whereJ := where3 fun j => j = 0
  whereR := where3 fun n => n = FP.num 0
  quad0 rule likes body := do
    let p ← maxNdim likes
    let x : RArr := .ok (NDArray.padFront (rule.map fun xw => FP.num xw.1) p FP.nan)
    let w : RArr := .ok (NDArray.padFront (rule.map fun xw => FP.num xw.2) p FP.nan)
    let r ← body x w
    pure (do NDArray.reduce0 FP.sum (← r))
  trapz0 grid likes body := do
    let p ← maxNdim likes
    let x : RArr := .ok (NDArray.padFront (grid.map FP.num) p FP.nan)
    let r ← body x
    pure (do NDArray.reduce0 FP.trapz (← r))
  series0 n likes body := do
    let p ← maxNdim likes
    let j : JArr := .ok (NDArray.padFront ((List.range n).map fun k : ℕ => (k : ℤ)) p 0)
    let r ← body j
    pure (do NDArray.reduce0 FP.sum (← r))

end Snompy
