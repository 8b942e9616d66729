import Verif.NumPy
import Mathlib.Analysis.SpecialFunctions.Trigonometric.Basic
import Mathlib.Data.Int.Log
import Mathlib.Algebra.Order.Round

/-!
# The double-precision reading of the interface

IEEE 754 binary64 numbers with rounding to nearest (ties to even), overflow to infinity, gradual underflow and
NaN.  Two instances of the numerical interface are given: real arrays (`float64`) and complex arrays
(`complex128`), both for scalars.

Simplifications: zeros have no sign (a non-zero number divided by zero gives the infinity with the sign of
the numerator); sums are taken from the first to the last term; `x ** n` is rounded once; the elementary
functions are those of a library (`Libm`) whose results are within one unit in the last place, rounded.
-/

namespace Snompy

/-- The largest finite double. -/
noncomputable def maxDouble : ℝ := (2 - (1 / 2) ^ 52) * 2 ^ 1023

/-- A mathematical library: the exact functions up to a relative error of `2⁻⁵²`. -/
structure Libm where
  exp : ℝ → ℝ
  log : ℝ → ℝ
  sin : ℝ → ℝ
  cos : ℝ → ℝ
  exp_err : ∀ x, |exp x - Real.exp x| ≤ (1 / 2) ^ 52 * Real.exp x
  log_err : ∀ x, 0 < x → |log x - Real.log x| ≤ (1 / 2) ^ 52 * |Real.log x|
  sin_err : ∀ x, |sin x - Real.sin x| ≤ (1 / 2) ^ 52 * |Real.sin x|
  cos_err : ∀ x, |cos x - Real.cos x| ≤ (1 / 2) ^ 52 * |Real.cos x|

/-- Exact elementary functions. -/
noncomputable def Libm.exact : Libm where
  exp := Real.exp
  log := Real.log
  sin := Real.sin
  cos := Real.cos
  exp_err x := by rw [sub_self, abs_zero]; positivity
  log_err x _ := by rw [sub_self, abs_zero]; positivity
  sin_err x := by rw [sub_self, abs_zero]; positivity
  cos_err x := by rw [sub_self, abs_zero]; positivity

/-- The nearest integer, ties to even. -/
noncomputable def roundEven (y : ℝ) : ℤ := if Int.fract y = 1 / 2 then 2 * round (y / 2) else round y

/-- Exponent of the unit in the last place of `x`: 53 significant bits, but nothing below `2⁻¹⁰⁷⁴`. -/
noncomputable def ulpExp (x : ℝ) : ℤ := max (Int.log 2 |x| - 52) (-1074)

/-- Rounding to nearest with unbounded range. -/
noncomputable def rnd (x : ℝ) : ℝ := roundEven (x / 2 ^ ulpExp x) * 2 ^ ulpExp x

/-- Double-precision numbers computed with the library `L`. -/
inductive F64 (L : Libm) where
  | fin (x : ℝ)
  | pinf
  | ninf
  | nan

namespace F64

variable {L : Libm}

/-- Infinity with the sign of `x`; NaN for `x = 0`. -/
noncomputable def infOf (x : ℝ) : F64 L := if 0 < x then pinf else if x < 0 then ninf else nan

/-- Rounding of an exact result. -/
noncomputable def ofReal (x : ℝ) : F64 L := if |rnd x| ≤ maxDouble then fin (rnd x) else infOf x

def neg : F64 L → F64 L
  | fin x => fin (-x)
  | pinf => ninf
  | ninf => pinf
  | nan => nan

noncomputable def add : F64 L → F64 L → F64 L
  | fin x, fin y => ofReal (x + y)
  | fin _, pinf | pinf, fin _ | pinf, pinf => pinf
  | fin _, ninf | ninf, fin _ | ninf, ninf => ninf
  | pinf, ninf | ninf, pinf => nan
  | nan, _ | _, nan => nan

noncomputable def sub (a b : F64 L) : F64 L := add a (neg b)

noncomputable def mul : F64 L → F64 L → F64 L
  | fin x, fin y => ofReal (x * y)
  | fin x, pinf | pinf, fin x => infOf x
  | fin x, ninf | ninf, fin x => infOf (-x)
  | pinf, pinf | ninf, ninf => pinf
  | pinf, ninf | ninf, pinf => ninf
  | nan, _ | _, nan => nan

open Classical in
noncomputable def div : F64 L → F64 L → F64 L
  | fin x, fin y => if y = 0 then infOf x else ofReal (x / y)
  | fin _, pinf | fin _, ninf => fin 0
  | pinf, fin y => if y < 0 then ninf else pinf
  | ninf, fin y => if y < 0 then pinf else ninf
  | pinf, pinf | pinf, ninf | ninf, pinf | ninf, ninf => nan
  | nan, _ | _, nan => nan

noncomputable instance : Add (F64 L) := ⟨add⟩
noncomputable instance : Sub (F64 L) := ⟨sub⟩
noncomputable instance : Mul (F64 L) := ⟨mul⟩
noncomputable instance : Div (F64 L) := ⟨div⟩

/-- Special values of IEEE 754. -/
example : (pinf - pinf : F64 L) = nan ∧ (pinf + ninf : F64 L) = nan ∧ (pinf / pinf : F64 L) = nan ∧
    (pinf * ninf : F64 L) = ninf ∧ (fin 3 / ninf : F64 L) = fin 0 := ⟨rfl, rfl, rfl, rfl, rfl⟩

example : (pinf * fin 0 : F64 L) = nan ∧ (fin 0 / fin 0 : F64 L) = nan ∧ (fin (-1) / fin 0 : F64 L) = ninf := by
  refine ⟨?_, ?_, ?_⟩
  · show infOf 0 = _
    simp [infOf]
  · show (if (0 : ℝ) = 0 then infOf 0 else _) = _
    simp [infOf]
  · show (if (0 : ℝ) = 0 then infOf (-1) else _) = _
    simp [infOf]

/-- `np.exp` -/
noncomputable def exp : F64 L → F64 L
  | fin x => ofReal (L.exp x)
  | pinf => pinf
  | ninf => fin 0
  | nan => nan

/-- `np.log` -/
noncomputable def log : F64 L → F64 L
  | fin x => if 0 < x then ofReal (L.log x) else if x < 0 then nan else ninf
  | pinf => pinf
  | _ => nan

/-- `np.sin`, `np.cos` with the function of the library. -/
noncomputable def trig (f : ℝ → ℝ) : F64 L → F64 L
  | fin x => ofReal (f x)
  | _ => nan

/-- `np.abs` -/
noncomputable def abs : F64 L → F64 L
  | fin x => fin |x|
  | nan => nan
  | _ => pinf

/-- `np.sqrt` of a real operand -/
noncomputable def sqrt : F64 L → F64 L
  | fin x => if x < 0 then nan else ofReal (Real.sqrt x)
  | pinf => pinf
  | _ => nan

/-- `np.clip` -/
noncomputable def clip (lo hi : ℝ) : F64 L → F64 L
  | fin x => fin (min (max x lo) hi)
  | pinf => fin hi
  | ninf => fin lo
  | nan => nan

/-- `x ** n` with a natural exponent. -/
noncomputable def npow : F64 L → ℕ → F64 L
  | _, 0 => fin 1
  | fin x, n => ofReal (x ^ n)
  | pinf, _ => pinf
  | ninf, n => if n % 2 = 0 then pinf else ninf
  | nan, _ => nan

open Classical in
/-- `x ** j` with an integer exponent. -/
noncomputable def zpow : F64 L → ℤ → F64 L
  | _, 0 => fin 1
  | fin x, j => if x = 0 ∧ j < 0 then pinf else ofReal (x ^ j)
  | pinf, j => if j < 0 then fin 0 else pinf
  | ninf, j => if j < 0 then fin 0 else if j % 2 = 0 then pinf else ninf
  | nan, _ => nan

/-- `sum` of a list of values. -/
noncomputable def sum (l : List (F64 L)) : F64 L := l.foldl (· + ·) (fin 0)

/-- `np.trapezoid` with unit spacing. -/
noncomputable def trapz (l : List (F64 L)) : F64 L :=
  sum (List.zipWith (fun a b => (a + b) / fin 2) l.tail l.dropLast)

end F64

noncomputable instance {L : Libm} : RealOps (F64 L) where
  lit := F64.ofReal
  log := F64.log
  sin := F64.trig L.sin
  cos := F64.trig L.cos
  abs := F64.abs
  clip lo hi := F64.clip (rnd lo) (rnd hi)
  npow := F64.npow
  onesLike _ := F64.fin 1

open Classical in
/-- Real arrays: where the code allows complex values, the values are real (`float64`). -/
noncomputable instance {L : Libm} : CplxOps (F64 L) ℤ (F64 L) where
  clit z := F64.ofReal z.re
  ofR x := x
  exp := F64.exp
  sqrt := F64.sqrt
  cabs := F64.abs
  cpow := F64.npow
  jpow := F64.zpow
  jpred j := j - 1
  whereJ j x y := if j = 0 then x else y
  whereR n x y := if n = F64.fin 0 then x else y
  quad0 rule _ body := do
    let vals ← rule.mapM fun xw => body (F64.ofReal xw.1) (F64.ofReal xw.2)
    pure (F64.sum vals)
  trapz0 grid _ body := do
    let vals ← grid.mapM fun x => body (F64.ofReal x)
    pure (F64.trapz vals)
  series0 n _ body := do
    let vals ← (List.range n).mapM fun j : ℕ => body (j : ℤ)
    pure (F64.sum vals)

/-- Double-precision complex numbers. -/
structure C128 (L : Libm) where
  re : F64 L
  im : F64 L

namespace C128

variable {L : Libm}

noncomputable def add (a b : C128 L) : C128 L := ⟨a.re + b.re, a.im + b.im⟩
noncomputable def sub (a b : C128 L) : C128 L := ⟨a.re - b.re, a.im - b.im⟩
noncomputable def mul (a b : C128 L) : C128 L :=
  ⟨a.re * b.re - a.im * b.im, a.re * b.im + a.im * b.re⟩

/-- `|a| >= |b|` as a comparison of doubles. -/
noncomputable def absGe : F64 L → F64 L → Bool
  | .nan, _ | _, .nan => false
  | .fin x, .fin y => decide (|y| ≤ |x|)
  | .fin _, _ => false
  | _, _ => true

open Classical in
/-- Complex division in numpy (`loops.c.src`): Smith's algorithm. -/
noncomputable def div (a b : C128 L) : C128 L :=
  if absGe b.re b.im then
    if b.re = .fin 0 ∧ b.im = .fin 0 then ⟨a.re / F64.abs b.re, a.im / F64.abs b.re⟩
    else
      let rat := b.im / b.re
      let scl := F64.fin 1 / (b.re + b.im * rat)
      ⟨(a.re + a.im * rat) * scl, (a.im - a.re * rat) * scl⟩
  else
    let rat := b.re / b.im
    let scl := F64.fin 1 / (b.im + b.re * rat)
    ⟨(a.re * rat + a.im) * scl, (a.im * rat - a.re) * scl⟩

noncomputable instance : Add (C128 L) := ⟨add⟩
noncomputable instance : Sub (C128 L) := ⟨sub⟩
noncomputable instance : Mul (C128 L) := ⟨mul⟩
noncomputable instance : Div (C128 L) := ⟨div⟩

/-- A complex constant, rounded. -/
noncomputable def ofComplex (z : ℂ) : C128 L := ⟨F64.ofReal z.re, F64.ofReal z.im⟩

/-- A real operand in a complex operation. -/
def ofReal (x : F64 L) : C128 L := ⟨x, .fin 0⟩

/-- `np.exp` -/
noncomputable def exp (z : C128 L) : C128 L :=
  ⟨z.re.exp * z.im.trig L.cos, z.re.exp * z.im.trig L.sin⟩

/-- `np.abs` -/
noncomputable def abs (z : C128 L) : F64 L :=
  match z.re, z.im with
  | .pinf, _ | .ninf, _ | _, .pinf | _, .ninf => .pinf
  | .nan, _ | _, .nan => .nan
  | .fin x, .fin y => F64.ofReal (Real.sqrt (x ^ 2 + y ^ 2))

/-- A function of finite complex numbers, rounded; NaN otherwise. -/
noncomputable def lift (f : ℂ → ℂ) (z : C128 L) : C128 L :=
  match z.re, z.im with
  | .fin x, .fin y => ofComplex (f ⟨x, y⟩)
  | _, _ => ⟨.nan, .nan⟩

open Classical in
/-- `x ** j` with an integer exponent. -/
noncomputable def zpow (z : C128 L) (j : ℤ) : C128 L :=
  if j = 0 then ofReal (.fin 1)
  else if z = ofReal (.fin 0) ∧ j < 0 then ⟨.nan, .nan⟩
  else lift (· ^ j) z

/-- `sum` of a list of values. -/
noncomputable def sum (l : List (C128 L)) : C128 L := l.foldl (· + ·) (ofReal (.fin 0))

/-- `np.trapezoid` with unit spacing. -/
noncomputable def trapz (l : List (C128 L)) : C128 L :=
  sum (List.zipWith (fun a b => (a + b) / ofReal (.fin 2)) l.tail l.dropLast)

end C128

open Classical in
/-- Complex arrays (`complex128`). -/
noncomputable instance {L : Libm} : CplxOps (F64 L) ℤ (C128 L) where
  clit := C128.ofComplex
  ofR := C128.ofReal
  exp := C128.exp
  sqrt := C128.lift Complex.sqrt
  cabs := C128.abs
  cpow z n := if n = 0 then C128.ofReal (.fin 1) else C128.lift (· ^ n) z
  jpow := C128.zpow
  jpred j := j - 1
  whereJ j x y := if j = 0 then x else y
  whereR n x y := if n = F64.fin 0 then x else y
  quad0 rule _ body := do
    let vals ← rule.mapM fun xw => body (F64.ofReal xw.1) (F64.ofReal xw.2)
    pure (C128.sum vals)
  trapz0 grid _ body := do
    let vals ← grid.mapM fun x => body (F64.ofReal x)
    pure (C128.trapz vals)
  series0 n _ body := do
    let vals ← (List.range n).mapM fun j : ℕ => body (j : ℤ)
    pure (C128.sum vals)

end Snompy
