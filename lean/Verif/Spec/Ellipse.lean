import Mathlib.Analysis.SpecialFunctions.Trigonometric.Basic

/-!
# Ellipses around the range of an oscillation
-/

namespace Snompy

/-- The inside of the ellipse in the complex plane whose foci are the turning points `x₀ - A` and `x₀ + A` of the
oscillation and whose half-axes are `A cosh s` and `A sinh s`. -/
def ellipse (x0 amp s : ℝ) : Set ℂ :=
  {u | ‖u - ((x0 - amp : ℝ) : ℂ)‖ + ‖u - ((x0 + amp : ℝ) : ℂ)‖ < 2 * amp * Real.cosh s}

end Snompy
