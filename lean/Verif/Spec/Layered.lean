import Verif.Scalar
import Verif.Model.Stack

/-!
# Specification: scalar samples with finite entries
-/

namespace Snompy

/-- The scalar sample with environment `env`, finite layers `layers` (permittivity and
thickness, from the top down) and substrate `sub`. -/
def layered (env : ℂ) (layers : List (ℂ × ℝ)) (sub : ℂ) (nuVac : Option ℝ := none) :
    Stack (FP ℝ) (FP ℂ) where
  eps := FP.num env :: (layers.map (fun l => FP.num l.1) ++ [FP.num sub])
  t := layers.map fun l => FP.num l.2
  nuVac := nuVac.map FP.num

/-- The bulk sample `sub` in the environment `env`. -/
def bulk (env sub : ℂ) (nuVac : Option ℝ := none) : Stack (FP ℝ) (FP ℂ) := layered env [] sub nuVac

/-- The value of `q * t` after `np.clip(..., -_MAX_EXP_ARG, _MAX_EXP_ARG)`. -/
noncomputable def clipped (x : ℝ) : ℝ := min (max x (-maxExpArg)) maxExpArg

open Classical in
/-- Textbook recursion for the quasistatic reflection and transmission coefficients of a stack, from
the substrate upward: with `r` the reflection of the top interface, `(ρ, τ)` the coefficients of
what lies below it and `u = exp(-q t)`,
`((r + ρ u²) / (1 + r ρ u²), (1 + r) τ u / (1 + r ρ u²))`.  `none` if a division by zero occurs. -/
noncomputable def stackCoefs (q : ℝ) (env : ℂ) : List (ℂ × ℝ) → ℂ → Option (ℂ × ℂ)
  | [], sub =>
    if sub + env = 0 then none
    else some ((sub - env) / (sub + env), 1 + (sub - env) / (sub + env))
  | (eps, t) :: layers, sub =>
    match stackCoefs q eps layers sub with
    | none => none
    | some (ρ, τ) =>
      let r := (eps - env) / (eps + env)
      let u : ℂ := Real.exp (-clipped (q * t))
      if eps + env = 0 ∨ 1 + r * ρ * u ^ 2 = 0 then none
      else some ((r + ρ * u ^ 2) / (1 + r * ρ * u ^ 2), (1 + r) * τ * u / (1 + r * ρ * u ^ 2))

/-- Permittivity of a passive medium: absorbing, or lossless with positive permittivity. -/
def Passive (eps : ℂ) : Prop := 0 < eps.im ∨ eps.im = 0 ∧ 0 < eps.re

end Snompy
