import Verif.Model.Inversion
import Verif.Model.SampleObj

/-!
# Programs that use snompy: assignments to `snompy.defaults` and calls
-/

namespace Snompy

/-- An assignment `snompy.defaults.x = v` (`_defaults.py:91-112`; plain attributes). -/
inductive Assign where
  | epsEnv (v : ℂ)
  | zTip (v : ℝ)
  | rTip (v : ℝ)
  | lTip (v : ℝ)
  | gFactor (v : ℂ)
  | dQ1 (v : ℝ)
  | dQa (v : ℝ)
  | nTrapz (v : ℕ)
  | nLag (v : ℕ)
  | nTayl (v : ℕ)
  | betaThreshold (v : ℝ)

/-- The object after the assignment. -/
def Assign.run (d : Defaults) : Assign → Defaults
  | epsEnv v => { d with epsEnv := v }
  | zTip v => { d with zTip := v }
  | rTip v => { d with rTip := v }
  | lTip v => { d with lTip := v }
  | gFactor v => { d with gFactor := v }
  | dQ1 v => { d with dQ1 := v }
  | dQa v => { d with dQa := v }
  | nTrapz v => { d with nTrapz := v }
  | nLag v => { d with nLag := v }
  | nTayl v => { d with nTayl := v }
  | betaThreshold v => { d with betaThreshold := v }

/-- A call of one of the functions that read `snompy.defaults`, with its arguments (`None` is `none`). -/
inductive Call where
  /-- `snompy.demodulate.demod` of a function that does not itself read the defaults -/
  | demod (f : RArr → PyM CArr) (x0 amp n : RArr) (nTrapz : Option ℕ)
  /-- `snompy.Sample` -/
  | sample (a : SampleObj.Args)
  /-- `snompy.bulk_sample` -/
  | bulkSample (epsSub beta epsEnv : Option (NDArray (FP ℂ))) (t : Option (StackVal (FP ℝ)))
      (nuVac : Option (NDArray (FP ℝ)))
  /-- `Sample.refl_coef_qs_above_surf` -/
  | aboveSurf (s : Stack RArr CArr) (zQ : RArr) (nLag : Option ℕ)
  /-- `Sample.surf_pot_and_field` -/
  | surf (s : Stack RArr CArr) (zQ : RArr) (nLag : Option ℕ)
  /-- `Sample.image_depth_and_charge` -/
  | image (s : Stack RArr CArr) (zQ : RArr) (nLag : Option ℕ)
  /-- `snompy.fdm.eff_pol` -/
  | fdmEffPol (s : Stack RArr CArr) (zTip : Option RArr) (a : FdmArgs RArr CArr) (nLag : Option ℕ)
      (method : Option String)
  /-- `snompy.fdm.eff_pol_n` -/
  | fdmEffPolN (s : Stack RArr CArr) (aTip n : RArr) (zTip : Option RArr) (nTrapz : Option ℕ)
      (a : FdmArgs RArr CArr) (nLag : Option ℕ) (method : Option String)
  /-- `snompy.fdm.taylor_coef` -/
  | fdmTaylorCoef (zTip : RArr) (j : JArr) (aTip n rTip lTip : RArr) (g : CArr) (dQ0 dQ1 : RArr)
      (nTrapz : Option ℕ)
  /-- `snompy.fdm.eff_pol_n_taylor` -/
  | fdmTaylor (s : Stack RArr CArr) (aTip n : RArr) (zTip : Option RArr) (a : FdmArgs RArr CArr)
      (nLag : Option ℕ) (method : Option String) (nTrapz nTayl : Option ℕ)
  /-- `snompy.fdm.refl_coef_qs_from_eff_pol` -/
  | fdmInvert (alpha : CArr) (zTip : Option RArr) (a : FdmArgs RArr CArr)
  /-- `snompy.fdm.refl_coef_qs_from_eff_pol_n` -/
  | fdmInvertN (alpha : CArr) (aTip n : RArr) (zTip : Option RArr) (a : FdmArgs RArr CArr)
      (nTrapz nTayl : Option ℕ) (v : InvArgs)
  /-- `snompy.pdm.eff_pol` -/
  | pdmEffPol (s : Stack RArr CArr) (zTip : Option RArr) (a : PdmArgs RArr CArr)
  /-- `snompy.pdm.eff_pol_n` -/
  | pdmEffPolN (s : Stack RArr CArr) (aTip n : RArr) (zTip : Option RArr) (nTrapz : Option ℕ)
      (a : PdmArgs RArr CArr)
  /-- `snompy.pdm.taylor_coef` -/
  | pdmTaylorCoef (zTip : RArr) (j : JArr) (aTip n rTip : RArr) (alphaTip : CArr) (nTrapz : Option ℕ)
  /-- `snompy.pdm.eff_pol_n_taylor` -/
  | pdmTaylor (s : Stack RArr CArr) (aTip n : RArr) (zTip : Option RArr) (a : PdmArgs RArr CArr)
      (nTrapz nTayl : Option ℕ)
  /-- `snompy.pdm.refl_coef_qs_from_eff_pol` -/
  | pdmInvert (alpha : CArr) (zTip : Option RArr) (a : PdmArgs RArr CArr)
  /-- `snompy.pdm.refl_coef_qs_from_eff_pol_n` -/
  | pdmInvertN (alpha : CArr) (aTip n : RArr) (zTip : Option RArr) (a : PdmArgs RArr CArr)
      (nTrapz nTayl : Option ℕ) (v : InvArgs)

/-- What a call returns. -/
inductive Val where
  | arr (x : CArr)
  | pair (x y : CArr)
  | depthCharge (x : RArr) (y : CArr)
  | obj (o : SampleObj)
  | masked (m : Masked)

/-- Carry out a call. -/
noncomputable def Call.run (env : Env) (sv : Solver) : Call → PyM Val
  | .demod f x0 amp n nTrapz => do pure (.arr (← Snompy.demod env f x0 amp n nTrapz))
  | .sample a => do pure (.obj (← SampleObj.init env.defaults a))
  | .bulkSample epsSub beta epsEnv t nuVac => do
    pure (.obj (← SampleObj.bulk env.defaults epsSub beta epsEnv t nuVac))
  | .aboveSurf s zQ nLag => do pure (.arr (← s.reflCoefQsAboveSurf env zQ nLag))
  | .surf s zQ nLag => do
    let (x, y) ← s.surfPotAndField env zQ nLag
    pure (.pair x y)
  | .image s zQ nLag => do
    let (x, y) ← s.imageDepthAndCharge env zQ nLag
    pure (.depthCharge x y)
  | .fdmEffPol s zTip a nLag method => do pure (.arr (← Fdm.effPol env s zTip a nLag method))
  | .fdmEffPolN s aTip n zTip nTrapz a nLag method => do
    pure (.arr (← Fdm.effPolN env s aTip n zTip nTrapz a nLag method))
  | .fdmTaylorCoef zTip j aTip n rTip lTip g dQ0 dQ1 nTrapz => do
    pure (.arr (← Fdm.taylorCoef env zTip j aTip n rTip lTip g dQ0 dQ1 nTrapz))
  | .fdmTaylor s aTip n zTip a nLag method nTrapz nTayl => do
    pure (.arr (← Fdm.effPolNTaylor env s aTip n zTip a nLag method nTrapz nTayl))
  | .fdmInvert alpha zTip a => .ok (.arr (Fdm.reflCoefQsFromEffPol env alpha zTip a))
  | .fdmInvertN alpha aTip n zTip a nTrapz nTayl v => do
    pure (.masked (← Fdm.reflCoefQsFromEffPolN env sv alpha aTip n zTip a nTrapz nTayl v))
  | .pdmEffPol s zTip a => do pure (.arr (← Pdm.effPol env s zTip a))
  | .pdmEffPolN s aTip n zTip nTrapz a => do pure (.arr (← Pdm.effPolN env s aTip n zTip nTrapz a))
  | .pdmTaylorCoef zTip j aTip n rTip alphaTip nTrapz => do
    pure (.arr (← Pdm.taylorCoef env zTip j aTip n rTip alphaTip nTrapz))
  | .pdmTaylor s aTip n zTip a nTrapz nTayl => do
    pure (.arr (← Pdm.effPolNTaylor env s aTip n zTip a nTrapz nTayl))
  | .pdmInvert alpha zTip a => do pure (.arr (← Pdm.reflCoefQsFromEffPol env alpha zTip a))
  | .pdmInvertN alpha aTip n zTip a nTrapz nTayl v => do
    pure (.masked (← Pdm.reflCoefQsFromEffPolN env sv alpha aTip n zTip a nTrapz nTayl v))

/-- One step of a user's program. -/
inductive Event where
  | assign (a : Assign)
  | call (c : Call)

/-- The outcomes of the calls of a program (exceptions are caught). -/
noncomputable def session (laggauss : ℕ → List (ℝ × ℝ)) (sv : Solver) : Defaults → List Event → List (PyM Val)
  | _, [] => []
  | d, .assign a :: es => session laggauss sv (a.run d) es
  | d, .call c :: es => c.run ⟨d, laggauss⟩ sv :: session laggauss sv d es

end Snompy
