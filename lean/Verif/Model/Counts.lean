import Verif.Model.Inversion
import Verif.Model.Cache

/-!
# Count arguments that are not natural numbers

The definitions in `Model/Demod.lean`, `Model/Fdm.lean`, `Model/Pdm.lean` and `Model/Inversion.lean` take `n_trapz`
and `n_tayl` as natural numbers.  Nothing in the package checks them, so here is the same code for
everything Python code can pass: integers of either sign, booleans and floats.
Simplification: floats are finite, and the integers of numpy do not overflow.
-/

namespace Snompy

/-- The number of points `np.linspace(-np.pi, np.pi, n_trapz + 1)` makes (`demodulate.py:106`): `operator.index`
refuses floats, and a negative number raises. -/
def Order.linspaceNum (o : Order) : PyM ℕ :=
  match o with
  | .float _ => .error (.typeError "'float' object cannot be interpreted as an integer")
  | o => if ⌊o.val⌋ + 1 < 0 then .error (.valueError "Number of samples must be non-negative.")
      else .ok (⌊o.val⌋ + 1).toNat

/-- `np.linspace(-np.pi, np.pi, num)`; a single point is the start. -/
noncomputable def linspacePi (num : ℕ) : List ℝ :=
  (List.range num).map fun k : ℕ => -Real.pi + k * (2 * Real.pi / ((num : ℝ) - 1))

/-- The length of `np.arange(n_tayl)`: negative numbers make it empty, floats are rounded up. -/
def Order.arangeLen (o : Order) : ℕ := ⌈o.val⌉.toNat

section
variable {R J C : Type} [RealOps R] [CplxOps R J C]

/-- `demod` (`demodulate.py:29-112`).  The grid is built before the function is called the first
time. -/
noncomputable def demodO (env : Env) (f : R → PyM C) (x0 amp n : R) (nTrapz : Option Order) : PyM C := do
  let nTrapz := nTrapz.getD (.int env.defaults.nTrapz)
  let num ← nTrapz.linspaceNum
  let probe ← f (x0 + lit 0 * amp)
  let total ← CplxOps.trapz0 (linspacePi num) [.inr probe, .inl n] fun theta => do
    let fx ← f (x0 + RealOps.cos theta * amp)
    pure (fx * CplxOps.exp (clit (-Complex.I) * ofR n * ofR theta))
  pure (total / clit (nTrapz.val : ℂ))

/-- `fdm.eff_pol_n` (`fdm.py:62-112`). -/
noncomputable def Fdm.effPolNO (env : Env) (s : Stack R C) (aTip n : R) (zTip : Option R)
    (nTrapz : Option Order) (a : FdmArgs R C) (nLag : Option ℕ) (method : Option String) : PyM C :=
  let zTip := zTip.getD (lit env.defaults.zTip)
  let z0 := zTip + aTip
  demodO env (fun x => Fdm.effPol env s (some x) a nLag method) z0 aTip n nTrapz

/-- `fdm.taylor_coef` (`fdm.py:452-532`). -/
noncomputable def Fdm.taylorCoefO (env : Env) (zTip : R) (j : J) (aTip n rTip lTip : R) (g : C)
    (dQ0 dQ1 : R) (nTrapz : Option Order) : PyM C := do
  let z0 := zTip + aTip
  let d ← demodO env (fun x => pure (Fdm.geomFuncTaylor x j rTip lTip g dQ0 dQ1)) z0 aTip n nTrapz
  let nonZeroTerms := d / clit 2
  pure (CplxOps.whereJ j (CplxOps.whereR n (clit 1) (clit 0)) nonZeroTerms)

/-- `fdm.eff_pol_n_taylor` (`fdm.py:535-659`).  Simplification: `np.arange` of a float makes floats, whose
powers are the powers with the integers they are equal to. -/
noncomputable def Fdm.effPolNTaylorO (env : Env) (s : Stack R C) (aTip n : R) (zTip : Option R)
    (a : FdmArgs R C) (nLag : Option ℕ) (method : Option String) (nTrapz nTayl : Option Order) :
    PyM C := do
  let zTip := zTip.getD (lit env.defaults.zTip)
  let p := env.defaults.fdm a
  let nTayl := nTayl.getD (.int env.defaults.nTayl)
  let beta ← Fdm.taylorBeta env s zTip p nLag method
  CplxOps.series0 nTayl.arangeLen
    [.inl zTip, .inl aTip, .inl n, .inr beta, .inl p.rTip, .inl p.lTip, .inr p.gFactor,
      .inl p.dQ0, .inl p.dQ1]
    fun j => do
      let coefs ← Fdm.taylorCoefO env zTip j aTip n p.rTip p.lTip p.gFactor p.dQ0 p.dQ1 nTrapz
      pure (coefs * CplxOps.jpow beta j)

/-- `pdm.eff_pol_n` (`pdm.py:60-146`). -/
noncomputable def Pdm.effPolNO (env : Env) (s : Stack R C) (aTip n : R) (zTip : Option R)
    (nTrapz : Option Order) (a : PdmArgs R C) : PyM C :=
  let zTip := zTip.getD (lit env.defaults.zTip)
  let z0 := zTip + aTip
  demodO env (fun x => Pdm.effPol env s (some x) a) z0 aTip n nTrapz

/-- `pdm.taylor_coef` (`pdm.py:257-318`). -/
noncomputable def Pdm.taylorCoefO (env : Env) (zTip : R) (j : J) (aTip n rTip : R) (alphaTip : C)
    (nTrapz : Option Order) : PyM C :=
  let z0 := zTip + aTip
  demodO env (fun z => pure (CplxOps.jpow (Pdm.geomFunc z rTip alphaTip) j)) z0 aTip n nTrapz

/-- `pdm.eff_pol_n_taylor` (`pdm.py:321-407`). -/
noncomputable def Pdm.effPolNTaylorO (env : Env) (s : Stack R C) (aTip n : R) (zTip : Option R)
    (a : PdmArgs R C) (nTrapz nTayl : Option Order) : PyM C := do
  let zTip := zTip.getD (lit env.defaults.zTip)
  let (rTip, alphaTip) ← env.defaults.pdm a
  let nTayl := nTayl.getD (.int env.defaults.nTayl)
  let beta ← s.reflCoefQs
  CplxOps.series0 nTayl.arangeLen
    [.inl zTip, .inl aTip, .inl n, .inr beta, .inl rTip, .inr alphaTip]
    fun j => do
      let coefs ← Pdm.taylorCoefO env zTip j aTip n rTip alphaTip nTrapz
      pure (coefs * CplxOps.jpow beta j)

end

/-- `fdm.refl_coef_qs_from_eff_pol_n` (`fdm.py:662-811`). -/
noncomputable def Fdm.reflCoefQsFromEffPolNO (env : Env) (sv : Solver) (alpha : CArr) (aTip n : RArr)
    (zTip : Option RArr) (a : FdmArgs RArr CArr) (nTrapz nTayl : Option Order) (v : InvArgs) :
    PyM Masked := do
  let zTip := zTip.getD (lit env.defaults.zTip)
  let p := env.defaults.fdm { a with dQa := none }
  let nTayl := nTayl.getD (.int env.defaults.nTayl)
  let thr := v.betaThreshold.getD env.defaults.betaThreshold
  let epsEnv := v.epsEnv.getD (NDArray.scalar (FP.num env.defaults.epsEnv))
  let pad ← Arr.maxNdim [.inl zTip, .inl aTip, .inl n, .inr alpha, .inl p.rTip, .inl p.lTip,
    .inr p.gFactor, .inl p.dQ0, .inl p.dQ1]
  let j := jTaylor nTayl.arangeLen pad
  let coefs ← Fdm.taylorCoefO env zTip j aTip n p.rTip p.lTip p.gFactor p.dQ0 p.dQ1 nTrapz
  solveColumns sv j coefs alpha thr v.rejectNegativeEpsImag v.rejectSubvacuumEpsAbs epsEnv

/-- `pdm.refl_coef_qs_from_eff_pol_n` (`pdm.py:410-552`). -/
noncomputable def Pdm.reflCoefQsFromEffPolNO (env : Env) (sv : Solver) (alpha : CArr) (aTip n : RArr)
    (zTip : Option RArr) (a : PdmArgs RArr CArr) (nTrapz nTayl : Option Order) (v : InvArgs) :
    PyM Masked := do
  let zTip := zTip.getD (lit env.defaults.zTip)
  let (rTip, alphaTip) ← env.defaults.pdm a
  let nTayl := nTayl.getD (.int env.defaults.nTayl)
  let thr := v.betaThreshold.getD env.defaults.betaThreshold
  let epsEnv := v.epsEnv.getD (NDArray.scalar (FP.num env.defaults.epsEnv))
  let pad ← Arr.maxNdim [.inl zTip, .inl aTip, .inl n, .inr alpha, .inl rTip, .inr alphaTip]
  let j := jTaylor nTayl.arangeLen pad
  let coefs ← Pdm.taylorCoefO env zTip j aTip n rTip alphaTip nTrapz
  solveColumns sv j coefs alpha thr v.rejectNegativeEpsImag v.rejectSubvacuumEpsAbs epsEnv

end Snompy
