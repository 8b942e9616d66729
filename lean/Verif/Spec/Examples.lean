import Verif.Scalar

/-!
# Specification: positions of an array in the order of C
-/

namespace Snompy.Examples

/-- The index is a position of an array of shape `s` (last axis first); it is zero on axes the array does not have. -/
def Inside (s : List ℕ) (i : ℕ → ℕ) : Prop := (∀ k < s.length, i k < s.getD k 0) ∧ ∀ k ≥ s.length, i k = 0

/-- How many positions come before: rows one after the other. -/
def flat : List ℕ → (ℕ → ℕ) → ℕ
  | [], _ => 0
  | d :: s, i => flat s (fun m => i (m + 1)) * d + i 0

/-- The permittivity with the given real part and the size of the given imaginary part. -/
def passive (a b : ℝ) : ℂ := ⟨a, |b|⟩

/-- The reflection coefficient of a substrate `ε` under the environment `e`. -/
noncomputable def reflOf (e ε : ℂ) : ℂ := (ε - e) / (ε + e)

end Snompy.Examples
