import Verif.NumPy
import Mathlib.Analysis.SpecialFunctions.Trigonometric.Basic

/-!
# `snompy/_defaults.py`
-/

namespace Snompy

/-- The mutable object `snompy.defaults` (`_defaults.py:77-112`, `141`).  Simplification: every field
holds a scalar (Python lets the user store arrays too). -/
structure Defaults where
  epsEnv : ℂ
  zTip : ℝ
  rTip : ℝ
  lTip : ℝ
  gFactor : ℂ
  dQ1 : ℝ
  dQa : ℝ
  nTrapz : ℕ
  nLag : ℕ
  nTayl : ℕ
  betaThreshold : ℝ

/-- The values at import (`_defaults.py:79-89`). -/
noncomputable def Defaults.initial : Defaults where
  epsEnv := 1
  zTip := 0
  rTip := 20e-9
  lTip := 300e-9
  gFactor := 0.7 * Complex.exp (0.06 * Complex.I)
  dQ1 := 0.5
  dQa := 1.4
  nTrapz := 32
  nLag := 32
  nTayl := 16
  betaThreshold := 1.01

/-- Everything a call reads besides its arguments: the current `snompy.defaults` and numpy's
Gauss-Laguerre rule (`np.polynomial.laguerre.laggauss`, an oracle returning the nodes paired with
the weights). -/
structure Env where
  defaults : Defaults
  laggauss : ℕ → List (ℝ × ℝ)

/-- `laggauss(n)` (`sample.py:41`): numpy raises for a non-positive degree.  The cache is modelled
separately in `Verif.Model.Cache`. -/
def Env.lagRule (env : Env) (n : ℕ) : PyM (List (ℝ × ℝ)) :=
  if n = 0 then .error (.valueError "deg must be a positive integer") else .ok (env.laggauss n)

section
variable {R J C : Type} [RealOps R] [CplxOps R J C]

/-- The optional tip arguments of the FDM functions; `none` is Python's `None`. -/
structure FdmArgs (R C : Type) where
  rTip : Option R := none
  lTip : Option R := none
  gFactor : Option C := none
  dQ0 : Option R := none
  dQ1 : Option R := none
  dQa : Option R := none

/-- The same, after defaults were filled in. -/
structure FdmTip (R C : Type) where
  rTip : R
  lTip : R
  gFactor : C
  dQ0 : R
  dQ1 : R
  dQa : R

/-- `Defaults._fdm_defaults` (`_defaults.py:114-122`). -/
def Defaults.fdm (d : Defaults) (a : FdmArgs R C) : FdmTip R C :=
  let rTip := a.rTip.getD (lit d.rTip)
  let lTip := a.lTip.getD (lit d.lTip)
  let gFactor := a.gFactor.getD (clit d.gFactor)
  let dQ0 := a.dQ0.getD (lit 1.31 * lTip / (lTip + lit 2 * rTip))
  let dQ1 := a.dQ1.getD (lit d.dQ1)
  let dQa := a.dQa.getD (lit d.dQa)
  ⟨rTip, lTip, gFactor, dQ0, dQ1, dQa⟩

/-- The optional tip arguments of the PDM functions. -/
structure PdmArgs (R C : Type) where
  rTip : Option R := none
  epsTip : Option C := none
  alphaTip : Option C := none

/-- `Defaults._pdm_defaults` (`_defaults.py:124-138`): `(r_tip, alpha_tip)`. -/
noncomputable def Defaults.pdm (d : Defaults) (a : PdmArgs R C) : PyM (R × C) :=
  let rTip := a.rTip.getD (lit d.rTip)
  match a.epsTip, a.alphaTip with
  | none, none => .ok (rTip, ofR (lit 4 * lit Real.pi * RealOps.npow rTip 3))
  | none, some alpha => .ok (rTip, alpha)
  | some eps, none =>
    .ok (rTip, ofR (lit 4 * lit Real.pi * RealOps.npow rTip 3) * (eps - clit 1) / (eps + clit 2))
  | some _, some _ => .error (.valueError "Either `alpha_tip` or `eps_tip` must be None.")

end

end Snompy
