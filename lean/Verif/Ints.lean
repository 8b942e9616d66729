import Verif.Scalar

/-!
# The integer reading of the interface

The elements of numpy's arrays of signed integers of `w` bits, next to floating point numbers.  Sums, differences, products and powers
of integers are integers and wrap around; everything else turns them into floating point numbers.  Floating point numbers are read as
in `Verif.Scalar`, without rounding.  A Python `int` outside of an array does not wrap, and is covered by `Verif.Scalar`.
-/

namespace Snompy

/-- An integer of `w` bits, or a floating point number. -/
inductive IntN (w : ℕ) where
  | int (k : ℤ)
  | flt (x : FP ℝ)

/-- A complex number in an expression with such operands. -/
structure IntC (w : ℕ) where
  val : FP ℂ

namespace IntN

variable {w : ℕ}

/-- The number an operand stands for. -/
def val : IntN w → FP ℝ
  | int k => .num k
  | flt x => x

/-- The result of an integer operation: the remainder between `-2 ** (w - 1)` and `2 ** (w - 1) - 1`. -/
def wrap (w : ℕ) (k : ℤ) : IntN w := int (Int.bmod k (2 ^ w))

/-- An operation for which numpy has an integer loop. -/
def op (f : ℤ → ℤ → ℤ) (g : FP ℝ → FP ℝ → FP ℝ) : IntN w → IntN w → IntN w
  | int a, int b => wrap w (f a b)
  | x, y => flt (g x.val y.val)

end IntN

open Classical in
/-- Literals: the integers in the source (`0`, `1`, `2`, `4` and `16`) do not change the type of the other operand. -/
noncomputable instance (w : ℕ) : RealOps (IntN w) where
  add := IntN.op (· + ·) (· + ·)
  sub := IntN.op (· - ·) (· - ·)
  mul := IntN.op (· * ·) (· * ·)
  div x y := .flt (x.val / y.val)
  lit x := if x ∈ ({0, 1, 2, 4, 16} : Set ℝ) then .int ⌊x⌋ else .flt (.num x)
  log x := .flt (RealOps.log x.val)
  sin x := .flt (RealOps.sin x.val)
  cos x := .flt (RealOps.cos x.val)
  abs
    | .int k => .wrap w |k|
    | .flt x => .flt (RealOps.abs x)
  clip lo hi x := .flt (RealOps.clip lo hi x.val)
  npow
    | .int k, n => .wrap w (k ^ n)
    | .flt x, n => .flt (RealOps.npow x n)
  onesLike
    | .int _ => .int 1
    | .flt x => .flt (RealOps.onesLike x)

noncomputable instance (w : ℕ) : CplxOps (IntN w) ℤ (IntC w) where
  add x y := ⟨x.val + y.val⟩
  sub x y := ⟨x.val - y.val⟩
  mul x y := ⟨x.val * y.val⟩
  div x y := ⟨x.val / y.val⟩
  clit z := ⟨clit z⟩
  ofR x := ⟨ofR x.val⟩
  exp x := ⟨CplxOps.exp x.val⟩
  sqrt x := ⟨CplxOps.sqrt x.val⟩
  cabs x := .flt (CplxOps.cabs x.val)
  cpow x n := ⟨CplxOps.cpow x.val n⟩
  jpow x j := ⟨CplxOps.jpow x.val j⟩
  jpred j := j - 1
  whereJ j x y := ⟨CplxOps.whereJ j x.val y.val⟩
  whereR n x y := ⟨CplxOps.whereR n.val x.val y.val⟩
  quad0 rule _ body := do
    let vals ← rule.mapM fun xw => body (.flt (.num xw.1)) (.flt (.num xw.2))
    pure ⟨FP.sum (vals.map IntC.val)⟩
  trapz0 grid _ body := do
    let vals ← grid.mapM fun x => body (.flt (.num x))
    pure ⟨FP.trapz (vals.map IntC.val)⟩
  series0 n _ body := do
    let vals ← (List.range n).mapM fun j : ℕ => body (j : ℤ)
    pure ⟨FP.sum (vals.map IntC.val)⟩

end Snompy
