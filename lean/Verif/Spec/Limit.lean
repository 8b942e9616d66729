import Verif.Py
import Mathlib.Topology.Algebra.Field
import Mathlib.Analysis.Complex.Basic

/-!
# Limits of results
-/

namespace Snompy

open Filter Topology

/-- The results of `F` are eventually finite and tend to `v`. -/
def EvalTendsto {ι : Type} (F : ι → PyM (FP ℂ)) (l : Filter ι) (v : ℂ) : Prop :=
  ∃ f : ι → ℂ, (∀ᶠ x in l, F x = .ok (FP.num (f x))) ∧ Tendsto f l (𝓝 v)

end Snompy
