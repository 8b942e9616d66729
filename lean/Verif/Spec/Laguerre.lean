import Verif.Model.Stack
import Mathlib.Data.Nat.Factorial.Basic
import Mathlib.MeasureTheory.Integral.Bochner.Set
import Mathlib.MeasureTheory.Measure.Lebesgue.Basic

/-!
# What is assumed of `np.polynomial.laguerre.laggauss`
-/

namespace Snompy

/-- The Gauss-Laguerre rule of order `n` as a list of (node, weight): `n` positive nodes with positive
weights that integrate `x^k exp(-x)` over `[0, ∞)` exactly (to `k!`) for `k < 2n`. -/
structure GaussLaguerre (n : ℕ) (rule : List (ℝ × ℝ)) : Prop where
  length : rule.length = n
  node_pos : ∀ xw ∈ rule, 0 < xw.1
  weight_pos : ∀ xw ∈ rule, 0 < xw.2
  exact : ∀ k < 2 * n, (rule.map fun xw => xw.2 * xw.1 ^ k).sum = k.factorial

/-- A call with this `n_lag` gets a correct rule of positive order. -/
def Env.RuleOk (env : Env) (nLag : Option ℕ) : Prop :=
  nLag.getD env.defaults.nLag ≠ 0 ∧
    GaussLaguerre (nLag.getD env.defaults.nLag) (env.laggauss (nLag.getD env.defaults.nLag))

/-- Every order gets a correct rule. -/
def Env.Rules (env : Env) : Prop := ∀ n, n ≠ 0 → GaussLaguerre n (env.laggauss n)

/-- What a point charge at height `z` feels at the surface after reflection with coefficient `b(q)`:
`∫ q^j b(q) exp(-2 z q) dq`, the potential for `j = 0` and the field for `j = 1`. -/
noncomputable def reflected (j : ℕ) (b : ℝ → ℂ) (z : ℝ) : ℂ :=
  ∫ q in Set.Ioi (0 : ℝ), ((q ^ j * Real.exp (-(2 * z * q)) : ℝ) : ℂ) * b q

end Snompy
