import Verif.Model.Defaults

/-!
# `snompy/demodulate.py`
-/

namespace Snompy

/-- `np.linspace(-np.pi, np.pi, n + 1)` (`demodulate.py:106`). -/
noncomputable def thetaGrid (n : ℕ) : List ℝ :=
  (List.range (n + 1)).map fun k : ℕ => -Real.pi + k * (2 * Real.pi / n)

variable {R J C : Type} [RealOps R] [CplxOps R J C]

/-- `demod` (`demodulate.py:29-112`).  `f` stands for `lambda x: f_x(x, *f_args, **kwargs)`.
Simplification: `n_trapz` is a natural number. -/
noncomputable def demod (env : Env) (f : R → PyM C) (x0 amp n : R) (nTrapz : Option ℕ) : PyM C := do
  let nTrapz := nTrapz.getD env.defaults.nTrapz
  let probe ← f (x0 + lit 0 * amp)
  let total ← CplxOps.trapz0 (thetaGrid nTrapz) [.inr probe, .inl n] fun theta => do
    let fx ← f (x0 + RealOps.cos theta * amp)
    pure (fx * CplxOps.exp (clit (-Complex.I) * ofR n * ofR theta))
  pure (total / clit nTrapz)

end Snompy
