import Verif.NumPy
import Mathlib.Analysis.SpecialFunctions.Trigonometric.Basic

/-!
# The scalar reading of the interface
-/

namespace Snompy

namespace FP

/-- `np.log` of a real number: not finite unless the argument is positive. -/
noncomputable def rlog (x : FP ℝ) : FP ℝ :=
  x.bind fun a => if 0 < a then num (Real.log a) else nan

/-- `x ** j` with an integer exponent: not finite for a negative power of zero. -/
noncomputable def zpow (x : FP ℂ) (j : ℤ) : FP ℂ :=
  x.bind fun a => if a = 0 ∧ j < 0 then nan else num (a ^ j)

/-- `np.trapezoid` with unit spacing: `((y[1:] + y[:-1]) / 2.0).sum()`. -/
noncomputable def trapz (l : List (FP ℂ)) : FP ℂ :=
  sum (List.zipWith (fun a b => (a + b) / num 2) l.tail l.dropLast)

end FP

noncomputable instance : RealOps (FP ℝ) where
  lit := FP.num
  log := FP.rlog
  sin := FP.map Real.sin
  cos := FP.map Real.cos
  abs := FP.map fun x => |x|
  clip lo hi := FP.map fun x => min (max x lo) hi
  npow x n := x.map (· ^ n)
  onesLike _ := FP.num 1

open Classical in
noncomputable instance : CplxOps (FP ℝ) ℤ (FP ℂ) where
  clit := FP.num
  ofR := FP.map fun x => (x : ℂ)
  exp := FP.map Complex.exp
  sqrt := FP.map Complex.sqrt
  cabs := FP.map fun z => ‖z‖
  cpow x n := x.map (· ^ n)
  jpow := FP.zpow
  jpred j := j - 1
  whereJ j x y := if j = 0 then x else y
  whereR n x y := if n = FP.num 0 then x else y
  quad0 rule _ body := do
    let vals ← rule.mapM fun xw => body (FP.num xw.1) (FP.num xw.2)
    pure (FP.sum vals)
  trapz0 grid _ body := do
    let vals ← grid.mapM fun x => body (FP.num x)
    pure (FP.trapz vals)
  series0 n _ body := do
    let vals ← (List.range n).mapM fun j : ℕ => body (j : ℤ)
    pure (FP.sum vals)

end Snompy
