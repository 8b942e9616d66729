import Verif.Model.Stack
import Verif.Model.Demod

/-!
# `snompy/pdm.py` (forward models and closed-form inversion)
-/

namespace Snompy.Pdm

open Snompy

variable {R J C : Type} [RealOps R] [CplxOps R J C]

/-- `geom_func` (`pdm.py:215-254`). -/
noncomputable def geomFunc (zTip rTip : R) (alphaTip : C) : C :=
  alphaTip / ofR (lit 16 * lit Real.pi * RealOps.npow (rTip + zTip) 3)

/-- `eff_pol` (`pdm.py:149-212`). -/
noncomputable def effPol (env : Env) (s : Stack R C) (zTip : Option R) (a : PdmArgs R C) :
    PyM C := do
  let zTip := zTip.getD (lit env.defaults.zTip)
  let (rTip, alphaTip) ← env.defaults.pdm a
  let beta ← s.reflCoefQs
  let fGeom := geomFunc zTip rTip alphaTip
  pure (alphaTip / (clit 1 - fGeom * beta))

/-- `eff_pol_n` (`pdm.py:60-146`). -/
noncomputable def effPolN (env : Env) (s : Stack R C) (aTip n : R) (zTip : Option R)
    (nTrapz : Option ℕ) (a : PdmArgs R C) : PyM C :=
  let zTip := zTip.getD (lit env.defaults.zTip)
  let z0 := zTip + aTip
  demod env (fun x => effPol env s (some x) a) z0 aTip n nTrapz

/-- `taylor_coef` (`pdm.py:257-318`). -/
noncomputable def taylorCoef (env : Env) (zTip : R) (j : J) (aTip n rTip : R) (alphaTip : C)
    (nTrapz : Option ℕ) : PyM C :=
  let z0 := zTip + aTip
  demod env (fun z => pure (CplxOps.jpow (geomFunc z rTip alphaTip) j)) z0 aTip n nTrapz

/-- `eff_pol_n_taylor` (`pdm.py:321-407`). -/
noncomputable def effPolNTaylor (env : Env) (s : Stack R C) (aTip n : R) (zTip : Option R)
    (a : PdmArgs R C) (nTrapz nTayl : Option ℕ) : PyM C := do
  let zTip := zTip.getD (lit env.defaults.zTip)
  let (rTip, alphaTip) ← env.defaults.pdm a
  let nTayl := nTayl.getD env.defaults.nTayl
  let beta ← s.reflCoefQs
  CplxOps.series0 nTayl
    [.inl zTip, .inl aTip, .inl n, .inr beta, .inl rTip, .inr alphaTip]
    fun j => do
      let coefs ← taylorCoef env zTip j aTip n rTip alphaTip nTrapz
      pure (coefs * CplxOps.jpow beta j)

/-- `refl_coef_qs_from_eff_pol` (`pdm.py:555-616`). -/
noncomputable def reflCoefQsFromEffPol (env : Env) (alphaEff : C) (zTip : Option R)
    (a : PdmArgs R C) : PyM C := do
  let zTip := zTip.getD (lit env.defaults.zTip)
  let (rTip, alphaTip) ← env.defaults.pdm a
  let fGeom := geomFunc zTip rTip alphaTip
  pure ((alphaEff - alphaTip) / (fGeom * alphaEff))

end Snompy.Pdm
