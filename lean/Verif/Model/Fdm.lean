import Verif.Model.Stack
import Verif.Model.Demod

/-!
# `snompy/fdm.py` (forward models and closed-form inversion)
-/

namespace Snompy.Fdm

open Snompy

variable {R J C : Type} [RealOps R] [CplxOps R J C]

/-- `geom_func` (`fdm.py:266-325`). -/
noncomputable def geomFunc (zTip dQ rTip lTip : R) (g : C) : C :=
  (g - ofR ((rTip + lit 2 * zTip + dQ * rTip) / (lit 2 * lTip)))
    * ofR (RealOps.log (lit 4 * lTip / (rTip + lit 4 * zTip + lit 2 * dQ * rTip)))
    / ofR (RealOps.log (lit 4 * lTip / rTip))

/-- `geom_func_multi` (`fdm.py:328-389`). -/
noncomputable def geomFuncMulti (zTip dImage rTip lTip : R) (g : C) : C :=
  (g - ofR ((rTip + zTip + dImage) / (lit 2 * lTip)))
    * ofR (RealOps.log (lit 4 * lTip / (rTip + lit 2 * zTip + lit 2 * dImage)))
    / ofR (RealOps.log (lit 4 * lTip / rTip))

/-- The last line of `eff_pol` (`fdm.py:261`). -/
noncomputable def effPolFormula (beta0 f0 beta1 f1 : C) : C :=
  clit 1 + (beta0 * f0) / (clit 2 * (clit 1 - beta1 * f1))

/-- `eff_pol` (`fdm.py:115-263`). -/
noncomputable def effPol (env : Env) (s : Stack R C) (zTip : Option R) (a : FdmArgs R C)
    (nLag : Option ℕ) (method : Option String) : PyM C := do
  let zTip := zTip.getD (lit env.defaults.zTip)
  let p := env.defaults.fdm a
  let method := method.getD (if s.multilayer then "multi" else "bulk")
  if method = "bulk" then
    if s.multilayer then
      throw (.valueError "`method`='bulk' cannot be used for multilayer samples.")
    let beta ← s.reflCoefQs
    let f0 := geomFunc zTip p.dQ0 p.rTip p.lTip p.gFactor
    let f1 := geomFunc zTip p.dQ1 p.rTip p.lTip p.gFactor
    pure (effPolFormula beta f0 beta f1)
  else if method = "multi" then
    let zQ0 := zTip + p.rTip * p.dQ0
    let zQ1 := zTip + p.rTip * p.dQ1
    let (zIm0, beta0) ← s.imageDepthAndCharge env zQ0 nLag
    let (zIm1, beta1) ← s.imageDepthAndCharge env zQ1 nLag
    let f0 := geomFuncMulti zTip zIm0 p.rTip p.lTip p.gFactor
    let f1 := geomFuncMulti zTip zIm1 p.rTip p.lTip p.gFactor
    pure (effPolFormula beta0 f0 beta1 f1)
  else if method = "Q_ave" then
    let zQa := zTip + p.rTip * p.dQa
    let beta ← s.reflCoefQsAboveSurf env zQa nLag
    let f0 := geomFunc zTip p.dQ0 p.rTip p.lTip p.gFactor
    let f1 := geomFunc zTip p.dQ1 p.rTip p.lTip p.gFactor
    pure (effPolFormula beta f0 beta f1)
  else
    throw (.valueError "`method` must be one of `bulk`, `multi`, or `Q_ave`.")

/-- `eff_pol_n` (`fdm.py:62-112`). -/
noncomputable def effPolN (env : Env) (s : Stack R C) (aTip n : R) (zTip : Option R)
    (nTrapz : Option ℕ) (a : FdmArgs R C) (nLag : Option ℕ) (method : Option String) : PyM C :=
  let zTip := zTip.getD (lit env.defaults.zTip)
  let z0 := zTip + aTip
  demod env (fun x => effPol env s (some x) a nLag method) z0 aTip n nTrapz

/-- `geom_func_taylor` (`fdm.py:392-449`). -/
noncomputable def geomFuncTaylor (zTip : R) (j : J) (rTip lTip : R) (g : C) (dQ0 dQ1 : R) : C :=
  let f0 := geomFunc zTip dQ0 rTip lTip g
  let f1 := geomFunc zTip dQ1 rTip lTip g
  f0 * CplxOps.jpow f1 (CplxOps.jpred C j)

/-- `taylor_coef` (`fdm.py:452-532`). -/
noncomputable def taylorCoef (env : Env) (zTip : R) (j : J) (aTip n rTip lTip : R) (g : C)
    (dQ0 dQ1 : R) (nTrapz : Option ℕ) : PyM C := do
  let z0 := zTip + aTip
  let d ← demod env (fun x => pure (geomFuncTaylor x j rTip lTip g dQ0 dQ1)) z0 aTip n nTrapz
  let nonZeroTerms := d / clit 2
  pure (CplxOps.whereJ j (CplxOps.whereR n (clit 1) (clit 0)) nonZeroTerms)

/-- The reflection coefficient `eff_pol_n_taylor` expands in (`fdm.py:637-649`). -/
noncomputable def taylorBeta (env : Env) (s : Stack R C) (zTip : R) (p : FdmTip R C)
    (nLag : Option ℕ) (method : Option String) : PyM C := do
  let method := method.getD (if s.multilayer then "Q_ave" else "bulk")
  if method = "bulk" then
    if s.multilayer then
      throw (.valueError "`method`='bulk' cannot be used for multilayer samples.")
    s.reflCoefQs
  else if method = "Q_ave" then
    let zQa := zTip + p.rTip * p.dQa
    s.reflCoefQsAboveSurf env zQa nLag
  else
    throw (.valueError "`method` must be one of `bulk`, or `Q_ave`.")

/-- `eff_pol_n_taylor` (`fdm.py:535-659`). -/
noncomputable def effPolNTaylor (env : Env) (s : Stack R C) (aTip n : R) (zTip : Option R)
    (a : FdmArgs R C) (nLag : Option ℕ) (method : Option String) (nTrapz nTayl : Option ℕ) :
    PyM C := do
  let zTip := zTip.getD (lit env.defaults.zTip)
  let p := env.defaults.fdm a
  let nTayl := nTayl.getD env.defaults.nTayl
  let beta ← taylorBeta env s zTip p nLag method
  CplxOps.series0 nTayl
    [.inl zTip, .inl aTip, .inl n, .inr beta, .inl p.rTip, .inl p.lTip, .inr p.gFactor,
      .inl p.dQ0, .inl p.dQ1]
    fun j => do
      let coefs ← taylorCoef env zTip j aTip n p.rTip p.lTip p.gFactor p.dQ0 p.dQ1 nTrapz
      pure (coefs * CplxOps.jpow beta j)

/-- `refl_coef_qs_from_eff_pol` (`fdm.py:814-889`). -/
noncomputable def reflCoefQsFromEffPol (env : Env) (alphaEff : C) (zTip : Option R)
    (a : FdmArgs R C) : C :=
  let zTip := zTip.getD (lit env.defaults.zTip)
  let p := env.defaults.fdm a
  let f0 := geomFunc zTip p.dQ0 p.rTip p.lTip p.gFactor
  let f1 := geomFunc zTip p.dQ1 p.rTip p.lTip p.gFactor
  clit 2 * (alphaEff - clit 1) / (f0 + clit 2 * f1 * (alphaEff - clit 1))

end Snompy.Fdm
