import Verif.Ints
import Verif.Model.Fdm
import Verif.Model.Pdm

/-!
# Specification: integer arguments

The same call with the integers replaced by floating point numbers of the same value, and the size of integers.
-/

namespace Snompy

variable {w : ℕ}

/-- An integer operand is at most `b` in absolute value. -/
def IntN.AtMost (b : ℕ) (x : IntN w) : Prop := ∀ k : ℤ, x = .int k → |k| ≤ b

/-- The sample with floating point numbers. -/
def Stack.floats (s : Stack (IntN w) (IntC w)) : Stack (FP ℝ) (FP ℂ) := ⟨s.eps.map IntC.val, s.t.map IntN.val, s.nuVac.map IntN.val⟩

/-- The directions with floating point numbers. -/
def Stack.FarArgs.floats (a : Stack.FarArgs (IntN w)) : Stack.FarArgs (FP ℝ) :=
  ⟨a.q.map IntN.val, a.thetaIn.map IntN.val, a.nuVac.map IntN.val, a.polarization⟩

/-- The tip of the finite dipole model with floating point numbers. -/
def FdmArgs.floats (a : FdmArgs (IntN w) (IntC w)) : FdmArgs (FP ℝ) (FP ℂ) :=
  ⟨a.rTip.map IntN.val, a.lTip.map IntN.val, a.gFactor.map IntC.val, a.dQ0.map IntN.val, a.dQ1.map IntN.val, a.dQa.map IntN.val⟩

/-- The tip of the point dipole model with floating point numbers. -/
def PdmArgs.floats (a : PdmArgs (IntN w) (IntC w)) : PdmArgs (FP ℝ) (FP ℂ) :=
  ⟨a.rTip.map IntN.val, a.epsTip.map IntC.val, a.alphaTip.map IntC.val⟩

/-- A result, as the number it stands for. -/
def value (x : PyM (IntC w)) : PyM (FP ℂ) := x.map IntC.val

/-- The integers in the tip of the finite dipole model are at most `b` (lengths) and `D` (ratios) in absolute value. -/
def FdmArgs.AtMost (b D : ℕ) (a : FdmArgs (IntN w) (IntC w)) : Prop :=
  (∀ x, (a.rTip = some x ∨ a.lTip = some x) → x.AtMost b) ∧ ∀ x, (a.dQ0 = some x ∨ a.dQ1 = some x ∨ a.dQa = some x) → x.AtMost D

/-- The wavenumber, momentum and angle of a call are at most `b` in absolute value. -/
def Stack.FarArgs.AtMost (b : ℕ) (s : Stack (IntN w) (IntC w)) (a : Stack.FarArgs (IntN w)) : Prop :=
  ∀ x, (s.nuVac = some x ∨ a.nuVac = some x ∨ a.q = some x ∨ a.thetaIn = some x) → x.AtMost b

/-- Bounds `b` of the lengths of the tip, `D` of its ratios, `c` of its height and `T` of the thicknesses that keep all
intermediate integers of the finite dipole model in the range of `w` bits. -/
structure FdmFits (w b D c T : ℕ) : Prop where
  tip : 16 ≤ b
  ratio : 16 ≤ D
  height : 16 ≤ c
  geom : 5 * b + 4 * c + 2 * D * (b + 1) < 2 ^ (w - 1)
  field : 4 * (c + b * D) ^ 2 < 2 ^ (w - 1)
  depth : (c + b * D) * T < 2 ^ (w - 1)

end Snompy
