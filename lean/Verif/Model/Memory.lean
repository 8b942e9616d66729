import Verif.Model.SampleObj

/-!
# Memory: which arrays of a sample are shared with the user

The other models treat arrays as values. Here an array is a piece of memory: the user may write into arrays that were
passed to a sample, and into those that a sample hands out (`sample.eps_stack[1] = 3`). A block of memory is
tagged with who allocated it, the user or snompy; nothing in the model looks at the tag when it computes.
Simplification: in numpy the layers of a stack are one block; here every layer has its own.
-/

namespace Snompy

/-- The name of a block of memory. -/
inductive Addr where
  | user (n : ℕ)
  | lib (n : ℕ)
deriving DecidableEq

/-- An array object: a block, the shape, and where in the block each entry is (any strided view). -/
structure Ref where
  addr : Addr
  rshape : List ℕ
  pos : (ℕ → ℕ) → (ℕ → ℕ)

/-- The blocks and how many there are. -/
structure Heap (α : Type) where
  cells : Addr → (ℕ → ℕ) → α
  nUser : ℕ
  nLib : ℕ

namespace Heap

variable {α : Type}

/-- The present entries of an array. -/
def read (h : Heap α) (r : Ref) : NDArray α := ⟨r.rshape, fun i => h.cells r.addr (r.pos i)⟩

open Classical in
/-- `a[i] = x`. -/
noncomputable def write (h : Heap α) (r : Ref) (i : ℕ → ℕ) (x : α) : Heap α :=
  let block := Function.update (h.cells r.addr) (r.pos (canon r.rshape i)) x
  { h with cells := Function.update h.cells r.addr block }

/-- A new array of the user. -/
noncomputable def newUser (h : Heap α) (A : NDArray α) : Heap α :=
  { h with cells := Function.update h.cells (.user h.nUser) A.data, nUser := h.nUser + 1 }

/-- A new array made by snompy (or by numpy on its behalf). -/
noncomputable def new (h : Heap α) (A : NDArray α) : Heap α × Ref :=
  ({ h with cells := Function.update h.cells (.lib h.nLib) A.data, nLib := h.nLib + 1 },
    ⟨.lib h.nLib, A.rshape, id⟩)

/-- New arrays, one for each layer. -/
noncomputable def newAll (h : Heap α) : List (NDArray α) → Heap α × List Ref
  | [] => (h, [])
  | A :: l => (((h.new A).1.newAll l).1, (h.new A).2 :: ((h.new A).1.newAll l).2)

end Heap

/-- Blocks of real and of complex numbers. -/
structure Mem where
  r : Heap (FP ℝ)
  c : Heap (FP ℂ)

/-- A value assigned to one of the stack properties. -/
inductive RefVal where
  | notIterable
  | items (l : List Ref)

/-- Its present entries. -/
def RefVal.read {α : Type} (h : Heap α) : RefVal → StackVal α
  | .notIterable => .notIterable
  | .items l => .items (l.map h.read)

/-- An instance of `Sample`. `_eps_env` is an array or a number from `snompy.defaults`. -/
structure SampleRef where
  t : Option (List Ref)
  eps : Option (List Ref)
  epsEnv0 : Ref ⊕ ℂ
  nuVac : Option Ref

/-- The present value of an environment. -/
noncomputable def readEnv (m : Mem) : Ref ⊕ ℂ → NDArray (FP ℂ)
  | .inl r => m.c.read r
  | .inr x => NDArray.scalar (FP.num x)

namespace SampleRef

/-- What the attributes of the sample presently hold. -/
noncomputable def read (m : Mem) (o : SampleRef) : SampleObj where
  t := o.t.map fun l => l.map m.r.read
  eps := o.eps.map fun l => l.map m.c.read
  epsEnv0 := readEnv m o.epsEnv0
  nuVac := o.nuVac.map m.r.read

/-- Setter of `t_stack` (`sample.py:133-141`). `np.asanyarray` of the list that `np.broadcast_arrays` returns
copies. -/
noncomputable def setT (m : Mem) (o : SampleRef) : Option RefVal → Mem × SampleRef × PyM Unit
  | none => (m, { o with t := some [] }, ({ o with t := some [] } : SampleRef).read m |>.checkLayersValid)
  | some v =>
    match unpackStack (v.read m.r) with
    | .error e => (m, o, .error e)
    | .ok t =>
      let n := m.r.newAll t
      let m' := { m with r := n.1 }
      let o' := { o with t := some n.2 }
      (m', o', (o'.read m').checkLayersValid)

/-- Setter of `eps_stack` (`sample.py:147-152`), for the value the argument presently has. -/
noncomputable def setEpsVal (m : Mem) (o : SampleRef) (v : StackVal (FP ℂ)) : Mem × SampleRef × PyM Unit :=
  match unpackStack v with
  | .error e => (m, o, .error e)
  | .ok eps =>
    let n := m.c.newAll eps
    let m' := { m with c := n.1 }
    let o' := { o with eps := some n.2 }
    (m', o', (o'.read m').checkLayersValid)

/-- Setter of `eps_stack` (`sample.py:147-152`). -/
noncomputable def setEps (m : Mem) (o : SampleRef) (v : RefVal) : Mem × SampleRef × PyM Unit :=
  setEpsVal m o (v.read m.c)

/-- Setter of `beta_stack` (`sample.py:159-166`); the in-place product is with a new array. -/
noncomputable def setBeta (m : Mem) (o : SampleRef) (v : RefVal) : Mem × SampleRef × PyM Unit :=
  match unpackStack (v.read m.c) with
  | .error e => (m, o, .error e)
  | .ok beta =>
    match (o.read m).epsEnv with
    | .error e => (m, o, .error e)
    | .ok env =>
      match imulEnv (SampleObj.epsFromBeta beta).1 (SampleObj.epsFromBeta beta).2 env with
      | .error e => (m, o, .error e)
      | .ok eps => setEpsVal m o (.items eps)

/-- The arguments of `Sample(...)`. -/
structure Args where
  eps : Option RefVal := none
  beta : Option RefVal := none
  t : Option RefVal := none
  epsEnv : Option Ref := none
  nuVac : Option Ref := none

/-- Continue if the assignment did not raise. -/
def andThen (x : Mem × SampleRef × PyM Unit) (f : Mem → SampleRef → Mem × PyM SampleRef) : Mem × PyM SampleRef :=
  match x.2.2 with
  | .error e => (x.1, .error e)
  | .ok () => f x.1 x.2.1

/-- `Sample.__init__` (`sample.py:102-127`): `_eps_env` is the array that was passed, `nu_vac` a copy. -/
noncomputable def init (d : Defaults) (m : Mem) (a : Args) : Mem × PyM SampleRef :=
  if a.eps.isNone = a.beta.isNone then (m, .error (.valueError SampleObj.exclusiveMsg))
  else
    let o : SampleRef := ⟨none, none, (a.epsEnv.map Sum.inl).getD (.inr d.epsEnv), none⟩
    let finish (m : Mem) (o : SampleRef) : Mem × PyM SampleRef :=
      match a.nuVac with
      | none => (m, .ok { o with nuVac := none })
      | some r =>
        let n := m.r.new (m.r.read r)
        ({ m with r := n.1 }, .ok { o with nuVac := some n.2 })
    andThen (setT m o a.t) fun m o =>
      match a.eps, a.beta with
      | some v, _ => andThen (setEps m o v) finish
      | none, some v => andThen (setBeta m o v) finish
      | none, none => finish m o

/-- An assignment to an attribute of a sample. -/
inductive Op where
  | t (v : Option RefVal)
  | eps (v : RefVal)
  | beta (v : RefVal)
  /-- a plain attribute: the array itself is stored -/
  | nuVac (v : Option Ref)

/-- Carry out an assignment. -/
noncomputable def Op.run (m : Mem) (o : SampleRef) : Op → Mem × SampleRef × PyM Unit
  | .t v => setT m o v
  | .eps v => setEps m o v
  | .beta v => setBeta m o v
  | .nuVac v => (m, { o with nuVac := v }, .ok ())

end SampleRef

/-- The memory and the samples constructed so far. -/
structure World where
  mem : Mem
  objs : List SampleRef

/-- What a user's program does. Exceptions are caught. -/
inductive Act where
  /-- a new array with these entries -/
  | newR (A : NDArray (FP ℝ))
  | newC (A : NDArray (FP ℂ))
  /-- `a[i] = x` -/
  | writeR (a : Ref) (i : ℕ → ℕ) (x : FP ℝ)
  | writeC (a : Ref) (i : ℕ → ℕ) (x : FP ℂ)
  /-- `Sample(...)` -/
  | sample (d : Defaults) (a : SampleRef.Args)
  /-- an assignment to an attribute of a sample -/
  | assign (j : ℕ) (op : SampleRef.Op)

/-- The effect of one step. -/
noncomputable def Act.run (w : World) : Act → World
  | .newR A => { w with mem := { w.mem with r := w.mem.r.newUser A } }
  | .newC A => { w with mem := { w.mem with c := w.mem.c.newUser A } }
  | .writeR a i x => { w with mem := { w.mem with r := w.mem.r.write a i x } }
  | .writeC a i x => { w with mem := { w.mem with c := w.mem.c.write a i x } }
  | .sample d a =>
    match SampleRef.init d w.mem a with
    | (m, .error _) => { w with mem := m }
    | (m, .ok o) => ⟨m, w.objs ++ [o]⟩
  | .assign j op =>
    match w.objs[j]? with
    | none => w
    | some o => ⟨(op.run w.mem o).1, w.objs.set j (op.run w.mem o).2.1⟩

/-- A program. -/
noncomputable def World.runAll (w : World) : List Act → World
  | [] => w
  | a :: l => (a.run w).runAll l

/-- At the start there are no samples. -/
noncomputable def World.start (r : Addr → (ℕ → ℕ) → FP ℝ) (c : Addr → (ℕ → ℕ) → FP ℂ) : World :=
  ⟨⟨⟨r, 0, 0⟩, ⟨c, 0, 0⟩⟩, []⟩

end Snompy
