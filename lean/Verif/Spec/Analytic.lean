import Verif.Spec.Layered
import Mathlib.Analysis.Analytic.Basic
import Mathlib.Analysis.Complex.Basic

/-!
# Specification: analytic dependence

The arguments of a family of calls are functions of parameters `a : E`.  With `𝕜 = ℂ` "analytic" means holomorphic, and then arguments
that are real numbers have to be constant; with `𝕜 = ℝ` it means that the function is the sum of its Taylor series in real parameters.
-/

namespace Snompy

open Filter Topology

/-- Real and complex numbers as complex numbers. -/
class ToC (β : Type) where
  toC : β → ℂ

instance : ToC ℝ := ⟨fun x => x⟩

instance : ToC ℂ := ⟨fun x => x⟩

variable (𝕜 : Type) [NontriviallyNormedField 𝕜] [NormedAlgebra 𝕜 ℂ] {E : Type} [NormedAddCommGroup E] [NormedSpace 𝕜 E]

/-- The calls near `w` return numbers that depend analytically on the parameters. -/
def IsAnalytic (w : E) (x : E → PyM (FP ℂ)) : Prop :=
  ∃ v : E → ℂ, (∀ᶠ a in 𝓝 w, x a = .ok (.num (v a))) ∧ AnalyticAt 𝕜 v w

/-- An optional argument of a family of calls: the same in all of them, or a number that depends analytically on the parameters. -/
inductive ArgAnalytic {β : Type} [ToC β] (w : E) : (E → Option (FP β)) → Prop
  | fixed (x : Option (FP β)) : ArgAnalytic w fun _ => x
  | given {v : E → β} (h : AnalyticAt 𝕜 (fun a => ToC.toC (v a)) w) : ArgAnalytic w fun a => some (.num (v a))

/-- The tip arguments of the finite dipole model depend analytically on the parameters. -/
structure FdmArgsAnalytic (w : E) (p : E → FdmArgs (FP ℝ) (FP ℂ)) : Prop where
  rTip : ArgAnalytic 𝕜 w fun a => (p a).rTip
  lTip : ArgAnalytic 𝕜 w fun a => (p a).lTip
  gFactor : ArgAnalytic 𝕜 w fun a => (p a).gFactor
  dQ0 : ArgAnalytic 𝕜 w fun a => (p a).dQ0
  dQ1 : ArgAnalytic 𝕜 w fun a => (p a).dQ1
  dQa : ArgAnalytic 𝕜 w fun a => (p a).dQa

/-- The tip arguments of the point dipole model depend analytically on the parameters. -/
structure PdmArgsAnalytic (w : E) (p : E → PdmArgs (FP ℝ) (FP ℂ)) : Prop where
  rTip : ArgAnalytic 𝕜 w fun a => (p a).rTip
  epsTip : ArgAnalytic 𝕜 w fun a => (p a).epsTip
  alphaTip : ArgAnalytic 𝕜 w fun a => (p a).alphaTip

end Snompy
