import Verif.Model.Memory

/-!
# Specification: samples as values

The same programs, in a world where a sample holds values: an assignment copies what the arrays hold at that moment, and nothing
but an assignment to it changes a sample.
-/

namespace Snompy

/-- The array belongs to the user. -/
def Ref.IsUser (r : Ref) : Prop := ∃ n, r.addr = .user n

/-- Only the user's arrays are passed. -/
def RefVal.IsUser : RefVal → Prop
  | .notIterable => True
  | .items l => ∀ r ∈ l, r.IsUser

/-- The step involves arrays of the user only, and does not assign to `nu_vac`. -/
def Act.Plain : Act → Prop
  | .newR _ | .newC _ => True
  | .writeR a _ _ | .writeC a _ _ => a.IsUser
  | .sample _ a => (∀ v, a.eps = some v → v.IsUser) ∧ (∀ v, a.beta = some v → v.IsUser) ∧
      (∀ v, a.t = some v → v.IsUser) ∧ (∀ r, a.epsEnv = some r → r.IsUser) ∧ ∀ r, a.nuVac = some r → r.IsUser
  | .assign _ (.t v) => ∀ u, v = some u → u.IsUser
  | .assign _ (.eps v) | .assign _ (.beta v) => v.IsUser
  | .assign _ (.nuVac _) => False

/-- The user's memory, and samples as values. -/
structure ValueWorld where
  mem : Mem
  objs : List SampleObj

/-- What the arguments hold. -/
noncomputable def SampleRef.Args.read (m : Mem) (a : SampleRef.Args) : SampleObj.Args where
  eps := a.eps.map (·.read m.c)
  beta := a.beta.map (·.read m.c)
  t := a.t.map (·.read m.r)
  epsEnv := a.epsEnv.map m.c.read
  nuVac := a.nuVac.map m.r.read

/-- What is assigned. -/
noncomputable def SampleRef.Op.read (m : Mem) : SampleRef.Op → SampleObj.Op
  | .t v => .t (v.map (·.read m.r))
  | .eps v => .eps (v.read m.c)
  | .beta v => .beta (v.read m.c)
  | .nuVac v => .nuVac (v.map m.r.read)

/-- One step in terms of values. -/
noncomputable def Act.runValue (w : ValueWorld) : Act → ValueWorld
  | .newR A => { w with mem := { w.mem with r := w.mem.r.newUser A } }
  | .newC A => { w with mem := { w.mem with c := w.mem.c.newUser A } }
  | .writeR a i x => { w with mem := { w.mem with r := w.mem.r.write a i x } }
  | .writeC a i x => { w with mem := { w.mem with c := w.mem.c.write a i x } }
  | .sample d a =>
    match SampleObj.init d (a.read w.mem) with
    | .error _ => w
    | .ok o => { w with objs := w.objs ++ [o] }
  | .assign j op =>
    match w.objs[j]? with
    | none => w
    | some o => { w with objs := w.objs.set j ((op.read w.mem).run o).1 }

/-- A program in terms of values. -/
noncomputable def ValueWorld.runAll (w : ValueWorld) : List Act → ValueWorld
  | [] => w
  | a :: l => (a.runValue w).runAll l

/-- The attributes of a sample that the user sees. -/
def SampleObj.shown (o : SampleObj) := (o.t, o.eps, o.nuVac)

end Snompy
