import Verif.Spec.FarField
import Mathlib.Analysis.SpecialFunctions.Complex.Log

/-!
# Specification: reflection of plane waves as repeated reflection

Independent of transfer matrices: Fresnel's formulas at each interface, and what lies below a layer is
seen through the layer twice.
-/

namespace Snompy

/-- The medium of permittivity `eps` for light of vacuum wavenumber `nu` and in-plane momentum `q`. -/
noncomputable def Medium.at (nu q : ℝ) (eps : ℂ) : Medium :=
  ⟨eps, Complex.sqrt (eps * (nu : ℂ) ^ 2 - (q : ℂ) ^ 2)⟩

/-- Numerator of Fresnel's reflection coefficient from `a` to `b`. -/
noncomputable def Medium.fresnelNum (pol : String) (a b : Medium) : ℂ :=
  if pol = "p" then b.eps * a.k - a.eps * b.k else a.k - b.k

/-- Denominator of Fresnel's reflection coefficient from `a` to `b`. -/
noncomputable def Medium.fresnelDen (pol : String) (a b : Medium) : ℂ :=
  if pol = "p" then b.eps * a.k + a.eps * b.k else a.k + b.k

/-- Fresnel's reflection coefficient from `a` to `b`. -/
noncomputable def Medium.fresnel (pol : String) (a b : Medium) : ℂ :=
  a.fresnelNum pol b / a.fresnelDen pol b

open Classical in
/-- Reflection and transmission of a stack, from the substrate upward: with `r` the reflection of the
top interface, `(ρ, τ)` the coefficients of what lies below it and `u = exp(i k t)`,
`((r + ρ u²) / (1 + r ρ u²), (1 + r) τ u / (1 + r ρ u²))`.  `none` if a division by zero occurs. -/
noncomputable def Medium.stackCoefs (pol : String) (top : Medium) :
    List (Medium × ℝ) → Medium → Option (ℂ × ℂ)
  | [], bottom =>
    if top.fresnelDen pol bottom = 0 then none
    else some (top.fresnel pol bottom, 1 + top.fresnel pol bottom)
  | (m, t) :: L, bottom =>
    match m.stackCoefs pol L bottom with
    | none => none
    | some (ρ, τ) =>
      let r := top.fresnel pol m
      let u := Complex.exp (Complex.I * (m.k * t))
      if top.fresnelDen pol m = 0 ∨ 1 + r * ρ * u ^ 2 = 0 then none
      else some ((r + ρ * u ^ 2) / (1 + r * ρ * u ^ 2), (1 + r) * τ * u / (1 + r * ρ * u ^ 2))

end Snompy
