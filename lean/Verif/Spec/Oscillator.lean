import Mathlib.Analysis.Calculus.Deriv.Basic
import Mathlib.Analysis.SpecialFunctions.Trigonometric.Basic

/-!
# Specification: a damped oscillator
-/

namespace Snompy

/-- The position `x` and the velocity `v` of an oscillator with the frequency `nuJ` and the damping `gamma` that is driven
by the force `F`. -/
structure Oscillates (nuJ gamma : ℝ) (F x v : ℝ → ℝ) : Prop where
  pos : ∀ t, HasDerivAt x (v t) t
  vel : ∀ t, HasDerivAt v (F t - gamma * v t - nuJ ^ 2 * x t) t

/-- The velocity `v` of a free carrier with the damping `gamma` that is driven by the force `F`. -/
def Drifts (gamma : ℝ) (F v : ℝ → ℝ) : Prop := ∀ t, HasDerivAt v (F t - gamma * v t) t

end Snompy
