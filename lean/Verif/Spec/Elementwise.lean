import Verif.NDArray

/-!
# Specification: what "vectorised" means

An array call is correct when (1) it raises if the shapes of the inputs do not broadcast; (2) otherwise
its shape is the broadcast of the shapes of the inputs; and (3) its entry at every broadcast
index is the scalar call on the entries at this index.
-/

namespace Snompy

/-- A shape, or `none` when an operation failed to broadcast. -/
abbrev Shape := Option (List ℕ)

/-- Broadcasting of shapes, with failure absorbing. -/
def Shape.join (s t : Shape) : Shape := s.bind fun a => t.bind fun b => bshape a b

infixl:65 " ⊔ᵇ " => Shape.join

/-- Broadcast of a list of shapes. -/
def joinAll : List Shape → Shape
  | [] => some []
  | s :: l => s ⊔ᵇ joinAll l

/-- Array expression `x` denotes the entries `f` with shape `s`. -/
def Den {α : Type} (x : PyM (NDArray α)) (s : Shape) (f : (ℕ → ℕ) → α) : Prop :=
  match s with
  | none => ∃ e, x = .error e
  | some s => ∃ A, x = .ok A ∧ A.rshape = s ∧ ∀ i, A.get i = f i

/-- The same for a computation that may raise before it produces an array expression: for
broadcastable shapes the array computation raises exactly when every scalar computation raises
the same exception. -/
def DenM {α : Type} (x : PyM (PyM (NDArray α))) (s : Shape) (f : (ℕ → ℕ) → PyM α) : Prop :=
  match s with
  | none => ∃ e, (x >>= fun y => y) = .error e
  | some s => (∃ e, x = .error e ∧ ∀ i, f i = .error e) ∨
      ∃ (A : NDArray α) (g : (ℕ → ℕ) → α), x = .ok (.ok A) ∧ A.rshape = s ∧ ∀ i, f i = .ok (g i) ∧ A.get i = g i

end Snompy
