import Mathlib.Analysis.SpecialFunctions.Exp
import Mathlib.Analysis.Complex.Basic
import Mathlib.Topology.Algebra.InfiniteSum.Basic

/-!
# Specification: the image charges of a film

A unit charge at height `z` above a film of thickness `t`, whose upper face reflects `r` and whose lower face `ρ`: one image
at depth `z` and, for each passage through the film, one at depth `z + 2 (k + 1) t`.
-/

namespace Snompy

/-- The charge of the image after `k` reflections inside the film. -/
noncomputable def imageCharge (r ρ : ℂ) (k : ℕ) : ℂ := (1 - r ^ 2) * ρ * (-(r * ρ)) ^ k

/-- The potential of the images at the height of the charge. -/
noncomputable def imagePot (r ρ : ℂ) (t z : ℝ) : ℂ :=
  r / (2 * z) + ∑' k : ℕ, imageCharge r ρ k / (2 * z + 2 * (k + 1) * t)

/-- The field of the images at the height of the charge. -/
noncomputable def imageField (r ρ : ℂ) (t z : ℝ) : ℂ :=
  r / (2 * z) ^ 2 + ∑' k : ℕ, imageCharge r ρ k / (2 * z + 2 * (k + 1) * t) ^ 2

end Snompy
