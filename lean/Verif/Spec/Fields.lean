import Mathlib.Analysis.Calculus.Deriv.Basic
import Mathlib.Analysis.Complex.Basic

/-!
# Specification: the field equations in a layered medium

Nothing here mentions reflection, matrices or the code.  `y` is the depth below the surface: the environment is at `y < 0`,
followed by the layers and by the substrate.  All fields have the factor `exp(i q x)` along the surface.
-/

namespace Snompy

/-- `P eps S` holds for every layer of permittivity `eps` that fills the depths `S`, the first one beginning at depth `y`. -/
def LayersFill (P : ℂ → Set ℝ → Prop) (y : ℝ) : List (ℂ × ℝ) → ℂ → Prop
  | [], sub => P sub (Set.Ioi y)
  | (eps, t) :: L, sub => P eps (Set.Ioo y (y + t)) ∧ LayersFill P (y + t) L sub

/-- `P eps S` holds for every medium of permittivity `eps` that fills the depths `S`. -/
def MediaFill (P : ℂ → Set ℝ → Prop) (env : ℂ) (L : List (ℂ × ℝ)) (sub : ℂ) : Prop :=
  P env (Set.Iio 0) ∧ LayersFill P 0 L sub

/-- Depth of the substrate. -/
def thickness (L : List (ℂ × ℝ)) : ℝ := (L.map fun l => l.2).sum

/-- Electrostatics without charges, `div (eps grad φ) = 0`: the displacement `D = eps ∂φ/∂y` has `∂D/∂y = eps q² φ`. -/
def Laplace (q : ℝ) (φ D : ℝ → ℂ) (eps : ℂ) (S : Set ℝ) : Prop :=
  ∀ y ∈ S, HasDerivAt φ (D y / eps) y ∧ HasDerivAt D (eps * q ^ 2 * φ y) y

/-- An electrostatic potential of the sample: the potential and the displacement do not jump. -/
structure IsPotential (q : ℝ) (env : ℂ) (L : List (ℂ × ℝ)) (sub : ℂ) (φ D : ℝ → ℂ) : Prop where
  cont : Continuous φ
  contD : Continuous D
  eqn : MediaFill (Laplace q φ D) env L sub

/-- Maxwell's equations at the frequency `nu` (factor `exp(-i nu t)`, speed of light 1) with the electric field in the plane of
incidence: `curl H = -i nu eps E` and `curl E = i nu H`. -/
def MaxwellP (nu q : ℝ) (Ex Ey Hz : ℝ → ℂ) (eps : ℂ) (S : Set ℝ) : Prop :=
  ∀ y ∈ S, HasDerivAt Hz (Complex.I * nu * eps * Ex y) y ∧ Complex.I * q * Hz y = -(Complex.I * nu * eps * Ey y) ∧
    HasDerivAt Ex (Complex.I * nu * Hz y + Complex.I * q * Ey y) y

/-- Maxwell's equations with the magnetic field in the plane of incidence. -/
def MaxwellS (nu q : ℝ) (Ez Hx Hy : ℝ → ℂ) (eps : ℂ) (S : Set ℝ) : Prop :=
  ∀ y ∈ S, HasDerivAt Ez (-(Complex.I * nu * Hx y)) y ∧ Complex.I * q * Ez y = Complex.I * nu * Hy y ∧
    HasDerivAt Hx (Complex.I * q * Hy y - Complex.I * nu * eps * Ez y) y

/-- Light in the sample: the components along the interfaces do not jump. -/
structure IsLightP (nu q : ℝ) (env : ℂ) (L : List (ℂ × ℝ)) (sub : ℂ) (Ex Ey Hz : ℝ → ℂ) : Prop where
  contE : Continuous Ex
  contH : Continuous Hz
  eqn : MediaFill (MaxwellP nu q Ex Ey Hz) env L sub

structure IsLightS (nu q : ℝ) (env : ℂ) (L : List (ℂ × ℝ)) (sub : ℂ) (Ez Hx Hy : ℝ → ℂ) : Prop where
  contE : Continuous Ez
  contH : Continuous Hx
  eqn : MediaFill (MaxwellS nu q Ez Hx Hy) env L sub

end Snompy
