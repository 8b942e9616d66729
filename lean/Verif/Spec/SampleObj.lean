import Verif.Model.SampleObj

/-!
# Specification: samples as objects
-/

namespace Snompy

/-- Two arrays with the same shape and the same entries. -/
def SameArr {α : Type} (A B : NDArray α) : Prop := A.rshape = B.rshape ∧ ∀ i, A.get i = B.get i

namespace SampleObj

/-- Two more permittivities than thicknesses. -/
def Valid (o : SampleObj) : Prop :=
  ∃ eps t, o.eps = some eps ∧ o.t = some t ∧ eps.length = t.length + 2

/-- All layers of `l` are arrays of one shape. -/
def Uniform {α : Type} (l : List (NDArray α)) (s : List ℕ) : Prop :=
  (∀ A ∈ l, A.rshape = s) ∧ (l = [] → s = [])

/-- The sample was constructed and then went through assignments, some of which may have raised (and the
exception was caught). -/
def Reachable (o : SampleObj) : Prop := ∃ d a o₀ ops, init d a = .ok o₀ ∧ o = o₀.runCaught ops

/-- All that the public attributes show. -/
noncomputable def Observe (o : SampleObj) :=
  (o.t, o.eps, o.epsEnv, o.betaStack, o.nLayers, o.multilayer, o.nuVac)

end SampleObj

end Snompy
