import Verif.Spec.Layered
import Mathlib.Data.Matrix.Basic
import Mathlib.LinearAlgebra.Matrix.Notation

/-!
# Specification: plane waves in layered media
-/

namespace Snompy

/-- Arguments of the far-field methods: momentum, vacuum wavenumber and polarization. -/
def atQ (q nu : ℝ) (pol : String) : Stack.FarArgs (FP ℝ) :=
  { q := some (FP.num q), nuVac := some (FP.num nu), polarization := pol }

/-- Arguments of the far-field methods: angle, vacuum wavenumber and polarization. -/
def atAngle (theta nu : ℝ) (pol : String) : Stack.FarArgs (FP ℝ) :=
  { thetaIn := some (FP.num theta), nuVac := some (FP.num nu), polarization := pol }

/-- A medium with permittivity `eps` in which the perpendicular wavevector is `k`. -/
structure Medium where
  eps : ℂ
  k : ℂ

/-- Ratio of the wave admittances on the two sides of an interface. -/
noncomputable def Medium.ratio (pol : String) (a b : Medium) : ℂ :=
  if pol = "p" then a.eps / a.k / (b.eps / b.k) else b.k / a.k

/-- Boundary conditions at an interface. -/
noncomputable def Medium.interfaceMatrix (pol : String) (a b : Medium) : Matrix (Fin 2) (Fin 2) ℂ :=
  !![(1 + a.ratio pol b) / 2, (1 - a.ratio pol b) / 2; (1 - a.ratio pol b) / 2, (1 + a.ratio pol b) / 2]

/-- Phase of the down- and upward waves across a layer. -/
noncomputable def Medium.phaseMatrix (a : Medium) (t : ℝ) : Matrix (Fin 2) (Fin 2) ℂ :=
  !![Complex.exp (-Complex.I * (a.k * t)), 0; 0, Complex.exp (Complex.I * (a.k * t))]

/-- Textbook transfer matrix of a stack. -/
noncomputable def Medium.stackMatrix (pol : String) (top : Medium) :
    List (Medium × ℝ) → Medium → Matrix (Fin 2) (Fin 2) ℂ
  | [], bottom => top.interfaceMatrix pol bottom
  | (m, t) :: L, bottom =>
    top.interfaceMatrix pol m * m.phaseMatrix t * m.stackMatrix pol L bottom

end Snompy
