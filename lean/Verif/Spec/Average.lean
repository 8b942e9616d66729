import Verif.Spec.Laguerre

/-!
# Specification: rules and heights for which the charge average neither overflows nor underflows
-/

namespace Snompy

/-- A height that is neither tiny nor huge. -/
def HeightOk (z : ℝ) : Prop := (1 / 2) ^ 99 ≤ z ∧ z ≤ 2 ^ 99

/-- A correct rule with at most a million nodes.  (The default rule has 32.) -/
structure AverageOk (env : Env) (nLag : Option ℕ) : Prop where
  rule : env.RuleOk nLag
  few : nLag.getD env.defaults.nLag ≤ 10 ^ 6

end Snompy
