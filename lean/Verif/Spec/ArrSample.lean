import Verif.Spec.Elementwise
import Verif.Model.Stack

/-!
# Specification: a sample holding arrays, and the scalar sample at an index
-/

namespace Snompy

/-- A validated sample whose layers are arrays: all permittivities have the same shape and all
thicknesses have the same shape (`np.broadcast_arrays` in the setters, `sample.py:138`, `149`), and the
layer count is consistent (`sample.py:458-470`). -/
structure ArrSample where
  eps : List (NDArray (FP ℂ))
  t : List (NDArray (FP ℝ))
  epsShape : List ℕ
  tShape : List ℕ
  eps_shape : ∀ e ∈ eps, e.rshape = epsShape
  t_shape : ∀ d ∈ t, d.rshape = tShape
  t_nil : t = [] → tShape = []
  layers : eps.length = t.length + 2

namespace ArrSample

/-- The sample as the array functions see it. -/
def stack (S : ArrSample) (nuVac : Option RArr := none) : Stack RArr CArr :=
  ⟨S.eps.map .ok, S.t.map .ok, nuVac⟩

/-- The scalar sample at a broadcast index. -/
def at_ (S : ArrSample) (i : ℕ → ℕ) (nuVac : Option (FP ℝ) := none) : Stack (FP ℝ) (FP ℂ) :=
  ⟨S.eps.map (·.get i), S.t.map (·.get i), nuVac⟩

/-- The broadcast of the shapes of the sample's arrays. -/
def shape (S : ArrSample) : Shape := some S.epsShape ⊔ᵇ some S.tShape

end ArrSample

/-- Shape of an optional array argument. -/
def optShape {α : Type} (o : Option (NDArray α)) : Shape := some (o.elim [] (·.rshape))

namespace Fdm

/-- The tip arguments as arrays. -/
abbrev Args := FdmArgs (NDArray (FP ℝ)) (NDArray (FP ℂ))

/-- The arguments as the array functions see them. -/
def argsArr (a : Args) : FdmArgs RArr CArr :=
  ⟨a.rTip.map .ok, a.lTip.map .ok, a.gFactor.map .ok, a.dQ0.map .ok, a.dQ1.map .ok, a.dQa.map .ok⟩

/-- The scalar arguments at an index. -/
def argsAt (a : Args) (i : ℕ → ℕ) : FdmArgs (FP ℝ) (FP ℂ) :=
  ⟨a.rTip.map (·.get i), a.lTip.map (·.get i), a.gFactor.map (·.get i), a.dQ0.map (·.get i),
    a.dQ1.map (·.get i), a.dQa.map (·.get i)⟩

end Fdm

namespace Pdm

/-- The tip arguments as arrays. -/
abbrev Args := PdmArgs (NDArray (FP ℝ)) (NDArray (FP ℂ))

/-- The arguments as the array functions see them. -/
def argsArr (a : Args) : PdmArgs RArr CArr :=
  ⟨a.rTip.map .ok, a.epsTip.map .ok, a.alphaTip.map .ok⟩

/-- The scalar arguments at an index. -/
def argsAt (a : Args) (i : ℕ → ℕ) : PdmArgs (FP ℝ) (FP ℂ) :=
  ⟨a.rTip.map (·.get i), a.epsTip.map (·.get i), a.alphaTip.map (·.get i)⟩

end Pdm

end Snompy
