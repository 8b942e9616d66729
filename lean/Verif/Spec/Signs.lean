import Verif.Double

/-!
# Specification: signs of double-precision numbers
-/

namespace Snompy

/-- Not a negative number: a number that is zero or positive, `+∞` or NaN. -/
def F64.NotNeg {L : Libm} : F64 L → Prop
  | .fin x => 0 ≤ x
  | .ninf => False
  | _ => True

end Snompy
