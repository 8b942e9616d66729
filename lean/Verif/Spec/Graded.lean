import Verif.Spec.Fields

/-!
# Specification: finely layered samples, and the graded anisotropic film that they approach

`P` lists what a thin slice at depth `y` consists of: media of permittivity `eps y` that take the fraction `f` of its thickness.
One entry with `f = 1` is a graded film, and constant permittivities make a superlattice.
-/

namespace Snompy

/-- The layers of a film of thickness `T` cut into `N` slices. -/
noncomputable def fine (P : List ((ℝ → ℂ) × ℝ)) (T : ℝ) (N : ℕ) : List (ℂ × ℝ) :=
  (List.range N).flatMap fun j => P.map fun p => (p.1 (T * j / N), p.2 * (T / N))

/-- Permittivity along the layers: the mean. -/
noncomputable def epsAlong (P : List ((ℝ → ℂ) × ℝ)) (y : ℝ) : ℂ := (P.map fun p => (p.2 : ℂ) * p.1 y).sum

/-- Inverse of the permittivity across the layers: the mean of the inverse. -/
noncomputable def invAcross (P : List ((ℝ → ℂ) × ℝ)) (y : ℝ) : ℂ := (P.map fun p => (p.2 : ℂ) * (p.1 y)⁻¹).sum

/-- Electrostatics of the film: `D_x = eps_along E_x` and `E_y = D_y / eps_across`. -/
structure IsGradedPotential (q : ℝ) (env : ℂ) (P : List ((ℝ → ℂ) × ℝ)) (T : ℝ) (sub : ℂ) (φ D : ℝ → ℂ) : Prop where
  cont : Continuous φ
  contD : Continuous D
  above : Laplace q φ D env (Set.Iio 0)
  inside : ∀ y ∈ Set.Ioo 0 T, HasDerivAt φ (invAcross P y * D y) y ∧ HasDerivAt D (epsAlong P y * q ^ 2 * φ y) y
  below : Laplace q φ D sub (Set.Ioi T)

/-- Light in the film, electric field in the plane of incidence: `curl H = -i nu D` and `curl E = i nu H`. -/
structure IsGradedLightP (nu q : ℝ) (env : ℂ) (P : List ((ℝ → ℂ) × ℝ)) (T : ℝ) (sub : ℂ) (Ex Ey Hz : ℝ → ℂ) : Prop where
  contE : Continuous Ex
  contH : Continuous Hz
  above : MaxwellP nu q Ex Ey Hz env (Set.Iio 0)
  inside : ∀ y ∈ Set.Ioo 0 T, HasDerivAt Hz (Complex.I * nu * (epsAlong P y * Ex y)) y ∧
    (∃ Dy : ℂ, Ey y = invAcross P y * Dy ∧ Complex.I * q * Hz y = -(Complex.I * nu * Dy)) ∧
    HasDerivAt Ex (Complex.I * nu * Hz y + Complex.I * q * Ey y) y
  below : MaxwellP nu q Ex Ey Hz sub (Set.Ioi T)

/-- Light in the film, magnetic field in the plane of incidence. -/
structure IsGradedLightS (nu q : ℝ) (env : ℂ) (P : List ((ℝ → ℂ) × ℝ)) (T : ℝ) (sub : ℂ) (Ez Hx Hy : ℝ → ℂ) : Prop where
  contE : Continuous Ez
  contH : Continuous Hx
  above : MaxwellS nu q Ez Hx Hy env (Set.Iio 0)
  inside : ∀ y ∈ Set.Ioo 0 T, MaxwellS nu q Ez Hx Hy (epsAlong P y) {y}
  below : MaxwellS nu q Ez Hx Hy sub (Set.Ioi T)

end Snompy
