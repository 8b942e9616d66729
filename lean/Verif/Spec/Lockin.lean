import Verif.Model.Demod
import Mathlib.MeasureTheory.Integral.IntervalIntegral.Basic

/-!
# Vocabulary for the demodulation properties
-/

namespace Snompy

/-- The scalar function `x ↦ g(x)` as an argument of `demod`: it never raises. -/
def onFinite (g : ℝ → ℂ) : FP ℝ → PyM (FP ℂ) := fun x => .ok (x.map g)

/-- The output of an ideal lock-in amplifier at harmonic `n`:
`(1/2π) ∫ g(x₀ + A cos θ) exp(-i n θ) dθ` over one period. -/
noncomputable def lockin (g : ℝ → ℂ) (x0 amp n : ℝ) : ℂ :=
  1 / (2 * Real.pi) * ∫ θ in -Real.pi..Real.pi,
    g (x0 + amp * Real.cos θ) * Complex.exp (-Complex.I * n * θ)

/-- The phases sampled by `n` trapezia. -/
noncomputable def phase (N k : ℕ) : ℝ := -Real.pi + 2 * Real.pi * k / N

end Snompy
