import Verif.Spec.Lockin

/-!
# Vocabulary for the synthesis of signals
-/

namespace Snompy

/-- A mean value and `K` harmonics of an even signal: `c₀ + 2 ∑ cₙ cos(nθ)`. -/
noncomputable def cosines (c : ℕ → ℂ) (K : ℕ) (θ : ℝ) : ℂ :=
  c 0 + 2 * ∑ n ∈ Finset.range K, c (n + 1) * (Real.cos ((n + 1) * θ) : ℂ)

end Snompy
