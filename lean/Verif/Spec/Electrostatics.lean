import Mathlib.Analysis.Calculus.Deriv.Basic
import Mathlib.Analysis.SpecialFunctions.Sqrt
import Mathlib.Analysis.SpecialFunctions.Trigonometric.Basic

/-!
# Specification: electrostatics of charges, dipoles and spheres

Potentials are functions of `x`, `y` and the height `z`.
-/

namespace Snompy

/-- Laplace's equation at a point. -/
def HarmonicAt3 (φ : ℝ → ℝ → ℝ → ℂ) (x y z : ℝ) : Prop :=
  ∃ (fx fy fz : ℝ → ℂ) (a b c : ℂ),
    (∀ᶠ s in nhds x, HasDerivAt (fun s => φ s y z) (fx s) s) ∧ HasDerivAt fx a x ∧
    (∀ᶠ s in nhds y, HasDerivAt (fun s => φ x s z) (fy s) s) ∧ HasDerivAt fy b y ∧
    (∀ᶠ s in nhds z, HasDerivAt (fun s => φ x y s) (fz s) s) ∧ HasDerivAt fz c z ∧ a + b + c = 0

/-- Distance from the origin. -/
noncomputable def dist3 (x y z : ℝ) : ℝ := √(x ^ 2 + y ^ 2 + z ^ 2)

/-- Potential of a charge `Q` at the height `h` on the axis, in a medium of permittivity 1. -/
noncomputable def chargePot (Q : ℂ) (h : ℝ) (x y z : ℝ) : ℂ := Q / (4 * Real.pi * dist3 x y (z - h))

/-- Two half-spaces, of permittivities `e` above and `s` below.  The displacement has no jump, and `up`, `down` are the potentials. -/
structure Interface (e s : ℂ) (up down : ℝ → ℝ → ℝ → ℂ) : Prop where
  pot : ∀ x y, up x y 0 = down x y 0
  disp : ∀ x y, ∃ u d : ℂ, HasDerivAt (fun z => up x y z) u 0 ∧ HasDerivAt (fun z => down x y z) d 0 ∧ e * u = s * d

/-- A sphere of radius `r` and permittivity `s` in a medium of permittivity `e`.  Radial derivatives are taken along rays. -/
structure OnSphere (r : ℝ) (e s : ℂ) (out inn : ℝ → ℝ → ℝ → ℂ) : Prop where
  pot : ∀ x y z, dist3 x y z = r → out x y z = inn x y z
  disp : ∀ x y z, dist3 x y z = r → ∃ u d : ℂ, HasDerivAt (fun k => out (k * x) (k * y) (k * z)) u 1 ∧
    HasDerivAt (fun k => inn (k * x) (k * y) (k * z)) d 1 ∧ e * u = s * d

/-- A homogeneous field `E` along the axis. -/
def fieldPot (E : ℂ) (_x _y z : ℝ) : ℂ := -(E * z)

/-- A dipole `p` along the axis at the origin, in a medium of permittivity 1. -/
noncomputable def dipolePot (p : ℂ) (x y z : ℝ) : ℂ := p * z / (4 * Real.pi * dist3 x y z ^ 3)

end Snompy
