import Verif.NDArray

/-!
# Specification: numpy's broadcasting rule for any number of shapes

Axes are counted from the right; a shape has length one on every axis it does not have.
-/

namespace Snompy

/-- `u` is the broadcast of the shapes `ss`: it has as many axes as the longest of them, and on every
axis each shape has either the length of `u` or length one, where `u` has a length other than
one only if one of the shapes has it. -/
def IsBroadcast (ss : List (List ℕ)) (u : List ℕ) : Prop :=
  u.length = (ss.map List.length).foldr max 0 ∧
  ∀ k, (∀ s ∈ ss, dimAt s k = 1 ∨ dimAt s k = dimAt u k) ∧
    (dimAt u k = 1 ∨ ∃ s ∈ ss, dimAt s k = dimAt u k)

/-- Two of the shapes disagree on some axis. -/
def Clash (ss : List (List ℕ)) : Prop :=
  ∃ s ∈ ss, ∃ t ∈ ss, ∃ k, dimAt s k ≠ 1 ∧ dimAt t k ≠ 1 ∧ dimAt s k ≠ dimAt t k

end Snompy
