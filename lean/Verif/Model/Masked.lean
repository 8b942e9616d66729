import Verif.Model.Inversion

/-!
# Masked arrays: `permitivitty` of the result of an inversion

`refl_coef_qs_from_eff_pol_n` returns a masked array; the tests and `docs/examples/scripts/inversion.py` pass it on to
`snompy.sample.permitivitty`, whose operators are then those of `numpy.ma`.  Simplifications: results have at least one axis
(the axis of the solutions), so the special cases of `numpy.ma` for scalars are left out; no overflow.
-/

namespace Snompy

/-- An entry and whether it is masked. -/
abbrev MElem := FP ℂ × Bool

/-- `numpy.finfo(float).tiny`. -/
noncomputable def maTiny : ℝ := 2 ^ (-1022 : ℤ)

/-- `numpy.ma.core._MaskedBinaryOperation`: masked if one of the operands is; masked entries keep the data of the left operand. -/
def maBin (f : FP ℂ → FP ℂ → FP ℂ) (x y : MElem) : MElem :=
  if x.2 || y.2 then (x.1, true) else (f x.1 y.1, false)

open Classical in
/-- `numpy.ma.core._DomainSafeDivide`: `abs(a) * tiny >= abs(b)`. -/
noncomputable def unsafeDivide : FP ℂ → FP ℂ → Bool
  | .num a, .num b => decide (‖b‖ ≤ ‖a‖ * maTiny)
  | _, _ => false

/-- `numpy.ma.true_divide` (`_DomainedOperation`): also masked where the result is not finite or the division is unsafe. -/
noncomputable def maDiv (x y : MElem) : MElem :=
  match x.1 / y.1 with
  | .nan => (x.1, true)
  | .num q => if unsafeDivide x.1 y.1 || x.2 || y.2 then (x.1, true) else (.num q, false)

/-- Entries with their masks. -/
def Masked.elems (M : Masked) : NDArray MElem := ⟨M.data.rshape, fun i => (M.data.get i, M.mask.get i)⟩

/-- An ordinary array as an operand: nothing is masked. -/
def unmaskedElems (A : NDArray (FP ℂ)) : NDArray MElem := A.map fun x => (x, false)

/-- `permitivitty(beta, eps_i)` for a masked `beta` (`sample.py:883-911`). -/
noncomputable def permMasked (beta : Masked) (epsI : NDArray (FP ℂ)) : PyM Masked := do
  let one := unmaskedElems (NDArray.scalar (FP.num 1))
  let a ← NDArray.zipWith (maBin (· + ·)) one beta.elems
  let num ← NDArray.zipWith (maBin (· * ·)) (unmaskedElems epsI) a
  let den ← NDArray.zipWith (maBin (· - ·)) one beta.elems
  let q ← NDArray.zipWith maDiv num den
  pure ⟨q.map Prod.fst, q.map Prod.snd⟩

end Snompy
