import Mathlib.Analysis.SpecialFunctions.Log.Basic
import Mathlib.Analysis.Complex.Basic
import Mathlib.Analysis.SpecialFunctions.Trigonometric.Basic

/-!
# The geometry functions of the two tip models, as real formulas
-/

namespace Snompy

/-- FDM: `(g - (r + 2z + d r)/(2L)) ln(4L/(r + 4z + 2 d r)) / ln(4L/r)`. -/
noncomputable def Fdm.geom (z d r l : ℝ) (g : ℂ) : ℂ :=
  (g - ((r + 2 * z + d * r) / (2 * l) : ℝ)) * (Real.log (4 * l / (r + 4 * z + 2 * d * r)) : ℝ) /
    (Real.log (4 * l / r) : ℝ)

/-- Where the FDM geometry function is finite. -/
structure Fdm.GeomOk (z d r l : ℝ) : Prop where
  r_pos : 0 < r
  l_pos : 0 < l
  ne : r ≠ 4 * l
  den : 0 < r + 4 * z + 2 * d * r

/-- PDM: `α / (16 π (r + z)³)`. -/
noncomputable def Pdm.geom (z r : ℝ) (α : ℂ) : ℂ := α / (16 * Real.pi * (r + z) ^ 3)

end Snompy
