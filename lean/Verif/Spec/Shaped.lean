import Verif.Spec.Broadcast
import Verif.Spec.ArrSample

/-!
# Shapes of the results of calls
-/

namespace Snompy

/-- A call on arrays of shapes `ss`: if two shapes disagree it raises. Otherwise it raises what the call on the entries raises at
every index, or returns an array that has numpy's broadcast of all shapes. -/
def Shaped {α : Type} (x : PyM (PyM (NDArray α))) (ss : List (List ℕ)) (f : (ℕ → ℕ) → PyM α) : Prop :=
  (Clash ss → ∃ e, (x >>= fun y => y) = .error e) ∧
  (¬ Clash ss → (∃ e, x = .error e ∧ ∀ i, f i = .error e) ∨ ∃ A : NDArray α, x = .ok (.ok A) ∧ IsBroadcast ss A.rshape)

/-- Dimensions of an optional argument; one that is left out counts as a scalar. -/
def dims {α : Type} (o : Option (NDArray α)) : List ℕ := o.elim [] (·.rshape)

end Snompy
