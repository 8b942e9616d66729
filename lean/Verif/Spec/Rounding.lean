import Verif.Double
import Verif.Spec.Layered

/-!
# Specification: samples in double precision
-/

namespace Snompy

/-- The scalar sample with real permittivities, stored as `float64`. -/
def layeredF64 (L : Libm) (env : ℝ) (layers : List (ℝ × ℝ)) (sub : ℝ) : Stack (F64 L) (F64 L) where
  eps := .fin env :: (layers.map (fun l => .fin l.1) ++ [.fin sub])
  t := layers.map fun l => .fin l.2
  nuVac := none

/-- The scalar sample with complex permittivities, stored as `complex128`. -/
def layeredC128 (L : Libm) (env : ℂ) (layers : List (ℂ × ℝ)) (sub : ℂ) : Stack (F64 L) (C128 L) where
  eps := ⟨.fin env.re, .fin env.im⟩ :: (layers.map (fun l => ⟨.fin l.1.re, .fin l.1.im⟩) ++ [⟨.fin sub.re, .fin sub.im⟩])
  t := layers.map fun l => .fin l.2
  nuVac := none

/-- Largest absolute row sum of an interface matrix with the ratio `a` of the permittivities. -/
noncomputable def rowNorm (a : ℂ) : ℝ := (‖1 + a‖ + ‖1 - a‖) / 2

/-- Product of the row sums of all interface matrices and of the largest entries of the propagation matrices: a bound
for all intermediate results. -/
noncomputable def growth (q : ℝ) (env : ℂ) : List (ℂ × ℝ) → ℂ → ℝ
  | [], sub => rowNorm (env / sub)
  | (e, t) :: layers, sub => rowNorm (env / e) * (Real.exp |clipped (q * t)| * growth q e layers sub)

/-- Permittivities that are neither tiny nor huge (`3 · 10⁻¹⁵¹ … 3 · 10¹⁵⁰`). -/
def Moderate (e : ℂ) : Prop := (1 / 2) ^ 500 ≤ ‖e‖ ∧ ‖e‖ ≤ 2 ^ 500

/-- Relative rounding error of a product over the layers, with `k` roundings for each interface. -/
noncomputable def roundoff (k q : ℝ) (layers : List (ℂ × ℝ)) : ℝ :=
  Real.exp ((k * (layers.length + 1) + 2 * (layers.map fun l => |clipped (q * l.2)|).sum) * (1 / 2) ^ 53) - 1

end Snompy
