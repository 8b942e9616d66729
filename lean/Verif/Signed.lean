import Verif.Scalar

/-!
# The reading of the interface with signed zeros

The numbers of `Verif.Scalar`, without rounding, and with the sign bit that IEEE 754 gives to a zero.  The bit decides which root
`np.sqrt` takes of a negative real number, and nothing else that snompy calculates.

The rules for sums, products and quotients of complex numbers are those of numpy's loops (`CDOUBLE_multiply`, `CDOUBLE_divide`), which
work with the real and imaginary parts, and promote a real operand `x` to `x + 0i`.  Exponentials, absolute values, powers of complex
numbers and the sums over a grid never reach a square root; the bits of their zeros are not modelled, and set to plus.
-/

namespace Snompy

/-- A real number with the sign bit of a zero. -/
structure SgR where
  val : FP ℝ
  neg : Bool

namespace SgR

open Classical in
/-- `np.signbit`.  The field `neg` only counts if the number is zero. -/
noncomputable def bit (x : SgR) : Bool :=
  match x.val with
  | .num a => if a = 0 then x.neg else decide (a < 0)
  | .nan => false

/-- A zero that is the sum of two numbers is negative if both are: opposite numbers add up to plus zero. -/
noncomputable instance : Add SgR := ⟨fun x y => ⟨x.val + y.val, x.bit && y.bit⟩⟩
noncomputable instance : Sub SgR := ⟨fun x y => ⟨x.val - y.val, x.bit && !y.bit⟩⟩
noncomputable instance : Mul SgR := ⟨fun x y => ⟨x.val * y.val, x.bit ^^ y.bit⟩⟩
noncomputable instance : Div SgR := ⟨fun x y => ⟨x.val / y.val, x.bit ^^ y.bit⟩⟩

end SgR

noncomputable instance : RealOps SgR where
  lit x := ⟨.num x, false⟩
  log x := ⟨RealOps.log x.val, false⟩
  sin x := ⟨RealOps.sin x.val, x.bit⟩
  cos x := ⟨RealOps.cos x.val, false⟩
  abs x := ⟨RealOps.abs x.val, false⟩
  clip lo hi x := ⟨RealOps.clip lo hi x.val, x.bit⟩
  npow x n := ⟨RealOps.npow x.val n, x.bit && decide (n % 2 = 1)⟩
  onesLike x := ⟨RealOps.onesLike x.val, false⟩

/-- A complex number with the sign bits of its real and imaginary parts, in case these are zero. -/
structure SgC where
  val : FP ℂ
  reNeg : Bool
  imNeg : Bool

namespace SgC

/-- `z.real` -/
def re (x : SgC) : SgR := ⟨x.val.map Complex.re, x.reNeg⟩

/-- `z.imag` -/
def im (x : SgC) : SgR := ⟨x.val.map Complex.im, x.imNeg⟩

noncomputable instance : Add SgC := ⟨fun x y => ⟨x.val + y.val, (x.re + y.re).bit, (x.im + y.im).bit⟩⟩
noncomputable instance : Sub SgC := ⟨fun x y => ⟨x.val - y.val, (x.re - y.re).bit, (x.im - y.im).bit⟩⟩

/-- `CDOUBLE_multiply` -/
noncomputable instance : Mul SgC :=
  ⟨fun x y => ⟨x.val * y.val, (x.re * y.re - x.im * y.im).bit, (x.re * y.im + x.im * y.re).bit⟩⟩

open Classical in
/-- The signs of the parts of a quotient: `CDOUBLE_divide`, after R. L. Smith (Commun. ACM 5, 435). -/
noncomputable def divBits (x y : SgC) : Bool × Bool :=
  if ∃ a : ℂ, y.val = .num a ∧ |a.im| ≤ |a.re| then
    let rat := y.im / y.re
    let scl := lit 1 / (y.re + y.im * rat)
    (((x.re + x.im * rat) * scl).bit, ((x.im - x.re * rat) * scl).bit)
  else
    let rat := y.re / y.im
    let scl := lit 1 / (y.im + y.re * rat)
    (((x.re * rat + x.im) * scl).bit, ((x.im * rat - x.re) * scl).bit)

noncomputable instance : Div SgC := ⟨fun x y => ⟨x.val / y.val, (divBits x y).1, (divBits x y).2⟩⟩

/-- Python's unary minus, which changes the sign of both parts. -/
noncomputable instance : Neg SgC := ⟨fun x => ⟨x.val.map fun z => -z, !x.re.bit, !x.im.bit⟩⟩

end SgC

open Classical in
/-- `np.sqrt`, as C99 has it: below the branch cut, that is for a negative real part and an imaginary part `-0`, the root has a negative
imaginary part. -/
noncomputable def SgC.root (x : SgC) : SgC :=
  if ∃ a : ℂ, x.val = .num a ∧ a.re < 0 ∧ a.im = 0 ∧ x.imNeg then ⟨x.val.map fun z => -Complex.sqrt z, false, true⟩
  else ⟨x.val.map Complex.sqrt, false, x.im.bit⟩

noncomputable instance : CplxOps SgR ℤ SgC where
  clit z := ⟨.num z, false, false⟩
  ofR x := ⟨ofR x.val, x.bit, false⟩
  exp x := ⟨CplxOps.exp x.val, false, x.im.bit⟩
  sqrt := SgC.root
  cabs x := ⟨CplxOps.cabs x.val, false⟩
  cpow x n := ⟨CplxOps.cpow x.val n, false, false⟩
  jpow x j := ⟨CplxOps.jpow x.val j, false, false⟩
  jpred j := j - 1
  whereJ j x y := if j = 0 then x else y
  whereR n x y := open Classical in if n.val = .num 0 then x else y
  quad0 rule _ body := do
    let vals ← rule.mapM fun xw => body ⟨.num xw.1, false⟩ ⟨.num xw.2, false⟩
    pure ⟨FP.sum (vals.map SgC.val), false, false⟩
  trapz0 grid _ body := do
    let vals ← grid.mapM fun x => body ⟨.num x, false⟩
    pure ⟨FP.trapz (vals.map SgC.val), false, false⟩
  series0 n _ body := do
    let vals ← (List.range n).mapM fun j : ℕ => body (j : ℤ)
    pure ⟨FP.sum (vals.map SgC.val), false, false⟩

end Snompy
