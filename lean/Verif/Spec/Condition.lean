import Verif.Spec.Geometry

/-!
# Specification: condition of the dipole models
-/

namespace Snompy

/-- How much the denominator `1 - f β` of the point dipole model amplifies errors: 1 for a tip far from the sample,
and infinite at a resonance `f β = 1`. -/
noncomputable def Pdm.condition (x r : ℝ) (α β : ℂ) : ℝ :=
  (1 + ‖Pdm.geom x r α‖ * (1 + ‖β‖) ^ 2) / ‖1 - Pdm.geom x r α * β‖

/-- Heights and tips for which no intermediate result of the finite dipole model overflows or loses its leading digits. -/
structure Fdm.Range (z d r l : ℝ) (g : ℂ) : Prop where
  z_nonneg : 0 ≤ z
  d_nonneg : 0 ≤ d
  r_ge : (1 / 2) ^ 100 ≤ r
  l_ge : (1 / 2) ^ 100 ≤ l
  l_le : l ≤ 2 ^ 100
  len : r + 4 * z + 2 * d * r ≤ 2 ^ 100
  g_le : ‖g‖ ≤ 2 ^ 100
  log_ge : 1 / 10 ^ 9 ≤ |Real.log (4 * l / r)|

/-- Bound for the geometry function of the finite dipole model, and unit of its rounding errors: the product of the bounds
of its factors, times the condition of the division by `ln(4L/r)`. -/
noncomputable def Fdm.size (z d r l : ℝ) (g : ℂ) : ℝ :=
  (‖g‖ + (r + 2 * z + d * r) / (2 * l)) * (1 + |Real.log (4 * l / (r + 4 * z + 2 * d * r))|) *
    ((1 + |Real.log (4 * l / r)|) / Real.log (4 * l / r) ^ 2)

/-- How much the denominator `1 - β f₁` of the finite dipole model amplifies errors. -/
noncomputable def Fdm.condition (z d0 d1 r l : ℝ) (g β : ℂ) : ℝ :=
  (1 + ‖β‖) ^ 2 * (1 + Fdm.size z d0 r l g + Fdm.size z d1 r l g) / ‖1 - β * Fdm.geom z d1 r l g‖

/-- The effective polarisability of the finite dipole model: `1 + β f₀ / (2 (1 - β f₁))`. -/
noncomputable def Fdm.pol (z d0 d1 r l : ℝ) (g β : ℂ) : ℂ :=
  1 + β * Fdm.geom z d0 r l g / (2 * (1 - β * Fdm.geom z d1 r l g))

end Snompy
