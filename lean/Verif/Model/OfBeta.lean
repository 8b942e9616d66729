import Verif.Model.Stack

/-!
# `snompy/sample.py`: samples of single numbers built from `beta_stack`

`Verif.Model.SampleObj` has the setter of `beta_stack` for arrays; this is the same calculation with numbers of any kind.
-/

namespace Snompy

variable {R J C : Type} [RealOps R] [CplxOps R J C]

/-- The running products after the first. -/
def runningProducts (acc : C) : List C → List C
  | [] => []
  | r :: rs => acc * r :: runningProducts (acc * r) rs

/-- Setter of `beta_stack` (`sample.py:159-166`) in `Sample.__init__`: `1` and `np.cumprod(permitivitty(beta))`, times `eps_env`. -/
def Stack.ofBeta (betas : List C) (epsEnv : C) (t : List R) (nu : Option R) : Stack R C :=
  ⟨(clit 1 :: match betas.map fun b => permitivitty b with
      | [] => []
      | r :: rs => r :: runningProducts r rs).map (· * epsEnv), t, nu⟩

end Snompy
