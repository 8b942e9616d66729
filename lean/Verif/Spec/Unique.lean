import Verif.Spec.Layered

/-!
# Specification: layers that can be told apart
-/

namespace Snompy

/-- Below `e` lie layers that can be seen: they have a thickness, they differ from the medium below them, and no two neighbours
have opposite permittivities. -/
def Visible (e : ℂ) : List (ℂ × ℝ) → ℂ → Prop
  | [], sub => sub ≠ 0 ∧ sub + e ≠ 0
  | (a, t) :: L, sub => a ≠ 0 ∧ a + e ≠ 0 ∧ 0 < t ∧ (L.map Prod.fst ++ [sub]).head? ≠ some a ∧ Visible a L sub

end Snompy
