import Verif.Spec.Layered
import Mathlib.Topology.List
import Mathlib.Analysis.Complex.Basic

/-!
# Specification: inputs and results that converge

`F` is a filter on the indices of a family of calls: a sequence, or the neighbourhood of a point.
-/

namespace Snompy

open Filter Topology

variable {α β : Type}

/-- An optional argument of a family of calls: left out of all of them, or a number that converges. -/
inductive ArgTends [TopologicalSpace β] (F : Filter α) : (α → Option (FP β)) → Option (FP β) → Prop
  | omitted : ArgTends F (fun _ => none) none
  | given {v : α → β} {v0 : β} (h : Tendsto v F (𝓝 v0)) : ArgTends F (fun a => some (.num (v a))) (some (.num v0))

/-- The tip arguments of the finite dipole model converge. -/
structure FdmArgsTend (F : Filter α) (p : α → FdmArgs (FP ℝ) (FP ℂ)) (p0 : FdmArgs (FP ℝ) (FP ℂ)) : Prop where
  rTip : ArgTends F (fun a => (p a).rTip) p0.rTip
  lTip : ArgTends F (fun a => (p a).lTip) p0.lTip
  gFactor : ArgTends F (fun a => (p a).gFactor) p0.gFactor
  dQ0 : ArgTends F (fun a => (p a).dQ0) p0.dQ0
  dQ1 : ArgTends F (fun a => (p a).dQ1) p0.dQ1
  dQa : ArgTends F (fun a => (p a).dQa) p0.dQa

/-- The tip arguments of the point dipole model converge. -/
structure PdmArgsTend (F : Filter α) (p : α → PdmArgs (FP ℝ) (FP ℂ)) (p0 : PdmArgs (FP ℝ) (FP ℂ)) : Prop where
  rTip : ArgTends F (fun a => (p a).rTip) p0.rTip
  epsTip : ArgTends F (fun a => (p a).epsTip) p0.epsTip
  alphaTip : ArgTends F (fun a => (p a).alphaTip) p0.alphaTip

/-- The calls return numbers, from some point on, and these tend to `v0`. -/
def Converges [TopologicalSpace β] (F : Filter α) (x : α → PyM (FP β)) (v0 : β) : Prop :=
  ∃ v : α → β, (∀ᶠ a in F, x a = .ok (.num (v a))) ∧ Tendsto v F (𝓝 v0)

end Snompy
