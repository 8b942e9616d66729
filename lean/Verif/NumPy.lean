import Verif.Py

/-!
# The numerical interface snompy is written against

A Python function such as `fdm.geom_func` works on scalars and on arrays alike.  We write each of
them once, against the two classes below: `R` is the type of real-valued inputs (lengths, momenta,
harmonics), `C` that of complex values, `J` that of integer exponents.  There are two instances:
scalars (`Verif.Scalar`) and n-dimensional arrays (`Verif.NDArray`).
-/

namespace Snompy

/-- numpy operations on real-valued operands used by snompy. -/
class RealOps (R : Type) extends Add R, Sub R, Mul R, Div R where
  /-- a Python or numpy real literal -/
  lit : ℝ → R
  /-- `np.log` -/
  log : R → R
  /-- `np.sin` -/
  sin : R → R
  /-- `np.cos` -/
  cos : R → R
  /-- `np.abs` -/
  abs : R → R
  /-- `np.clip(x, lo, hi)` -/
  clip : ℝ → ℝ → R → R
  /-- `x ** n` for a literal natural number `n` -/
  npow : R → ℕ → R
  /-- `np.ones_like` -/
  onesLike : R → R

/-- numpy operations on complex-valued operands used by snompy, including the three ways in which it
introduces a new leading axis with `_pad_for_broadcasting` and reduces along it. -/
class CplxOps (R : outParam Type) (J : outParam Type) (C : Type) [RealOps R]
    extends Add C, Sub C, Mul C, Div C where
  /-- a Python or numpy complex literal -/
  clit : ℂ → C
  /-- real to complex promotion -/
  ofR : R → C
  /-- `np.exp` -/
  exp : C → C
  /-- `np.sqrt` of a complex operand (principal branch) -/
  sqrt : C → C
  /-- `np.abs` -/
  cabs : C → R
  /-- `x ** n` for a literal natural number `n` -/
  cpow : C → ℕ → C
  /-- `x ** j` for an integer operand `j` -/
  jpow : C → J → C
  /-- `j - 1` -/
  jpred : J → J
  /-- `np.where(j == 0, x, y)` -/
  whereJ : J → C → C → C
  /-- `np.where(n == 0, x, y)` -/
  whereR : R → C → C → C
  /-- Pad the nodes and weights of a quadrature rule in front of all axes of the operands in the
  second argument, evaluate the body once on the padded nodes and weights and
  return `np.sum(..., axis=0)`. -/
  quad0 : List (ℝ × ℝ) → List (R ⊕ C) → (R → R → PyM C) → PyM C
  /-- Pad a grid in front of all axes of the operands in the second argument, evaluate the body once on
  the padded grid and return `trapezoid(..., axis=0)`. -/
  trapz0 : List ℝ → List (R ⊕ C) → (R → PyM C) → PyM C
  /-- Pad `np.arange(n)` in front of all axes of the operands in the second argument, evaluate the
  body once on the padded indices and return `np.sum(..., axis=0)`. -/
  series0 : ℕ → List (R ⊕ C) → (J → PyM C) → PyM C

export RealOps (lit)
export CplxOps (clit ofR)

/-- A 2×2 matrix: the two trailing axes of numpy's transfer-matrix arrays. -/
structure Mat2 (C : Type) where
  m00 : C
  m01 : C
  m10 : C
  m11 : C

/-- `A @ B` on the two trailing axes. -/
def Mat2.matmul {C : Type} [Add C] [Mul C] (A B : Mat2 C) : Mat2 C where
  m00 := A.m00 * B.m00 + A.m01 * B.m10
  m01 := A.m00 * B.m01 + A.m01 * B.m11
  m10 := A.m10 * B.m00 + A.m11 * B.m10
  m11 := A.m10 * B.m01 + A.m11 * B.m11

end Snompy
