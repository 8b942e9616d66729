import Verif.Model.Session

/-!
# Vocabulary of property C56: explicit calls, calls with every omitted argument spelt out
-/

namespace Snompy

/-- All optional tip arguments are given. -/
def FdmArgs.Given (a : FdmArgs RArr CArr) : Prop :=
  a.rTip.isSome ∧ a.lTip.isSome ∧ a.gFactor.isSome ∧ a.dQ0.isSome ∧ a.dQ1.isSome ∧ a.dQa.isSome

/-- The optional arguments of the inversion that fall back on the defaults are given. -/
def InvArgs.Given (v : InvArgs) : Prop := v.betaThreshold.isSome ∧ v.epsEnv.isSome

/-- All the optional arguments of a call that fall back on `snompy.defaults` are given.  (The tip of the point dipole
model needs only its radius: `eps_tip` and `alpha_tip` have no default.  The inversion of the finite dipole model has
no argument `d_Qa`.) -/
def Call.Explicit : Call → Prop
  | .demod _ _ _ _ nTrapz => nTrapz.isSome
  | .sample a => a.epsEnv.isSome
  | .bulkSample _ _ epsEnv _ _ => epsEnv.isSome
  | .aboveSurf _ _ nLag => nLag.isSome
  | .surf _ _ nLag => nLag.isSome
  | .image _ _ nLag => nLag.isSome
  | .fdmEffPol _ zTip a nLag _ => zTip.isSome ∧ a.Given ∧ nLag.isSome
  | .fdmEffPolN _ _ _ zTip nTrapz a nLag _ => zTip.isSome ∧ nTrapz.isSome ∧ a.Given ∧ nLag.isSome
  | .fdmTaylorCoef _ _ _ _ _ _ _ _ _ nTrapz => nTrapz.isSome
  | .fdmTaylor _ _ _ zTip a nLag _ nTrapz nTayl =>
    zTip.isSome ∧ a.Given ∧ nLag.isSome ∧ nTrapz.isSome ∧ nTayl.isSome
  | .fdmInvert _ zTip a => zTip.isSome ∧ a.Given
  | .fdmInvertN _ _ _ zTip a nTrapz nTayl v =>
    zTip.isSome ∧ { a with dQa := some (lit 0) }.Given ∧ nTrapz.isSome ∧ nTayl.isSome ∧ v.Given
  | .pdmEffPol _ zTip a => zTip.isSome ∧ a.rTip.isSome
  | .pdmEffPolN _ _ _ zTip nTrapz a => zTip.isSome ∧ nTrapz.isSome ∧ a.rTip.isSome
  | .pdmTaylorCoef _ _ _ _ _ _ nTrapz => nTrapz.isSome
  | .pdmTaylor _ _ _ zTip a nTrapz nTayl => zTip.isSome ∧ a.rTip.isSome ∧ nTrapz.isSome ∧ nTayl.isSome
  | .pdmInvert _ zTip a => zTip.isSome ∧ a.rTip.isSome
  | .pdmInvertN _ _ _ zTip a nTrapz nTayl v =>
    zTip.isSome ∧ a.rTip.isSome ∧ nTrapz.isSome ∧ nTayl.isSome ∧ v.Given

/-- `x`, or the number `v` where `x` was omitted. -/
def orReal (x : Option RArr) (v : ℝ) : Option RArr :=
  match x with
  | some x => some x
  | none => some (.ok (NDArray.scalar (FP.num v)))

/-- The same for complex numbers. -/
def orCplx (x : Option CArr) (v : ℂ) : Option CArr :=
  match x with
  | some x => some x
  | none => some (.ok (NDArray.scalar (FP.num v)))

/-- The tip arguments with the omitted ones spelt out.  `d_Q0` has no default of its own: it follows the radius `r` and
the length `L` that the call uses. -/
noncomputable def FdmArgs.spellOut (d : Defaults) (a : FdmArgs RArr CArr) : FdmArgs RArr CArr :=
  let r := orReal a.rTip d.rTip
  let L := orReal a.lTip d.lTip
  { rTip := r
    lTip := L
    gFactor := orCplx a.gFactor d.gFactor
    dQ0 := a.dQ0.or (match r, L with
      | some r, some L => some (lit 1.31 * L / (L + lit 2 * r))
      | _, _ => none)
    dQ1 := orReal a.dQ1 d.dQ1
    dQa := orReal a.dQa d.dQa }

/-- The same for the inversion. -/
noncomputable def InvArgs.spellOut (d : Defaults) (v : InvArgs) : InvArgs :=
  { v with
    betaThreshold := v.betaThreshold.or (some d.betaThreshold)
    epsEnv := v.epsEnv.or (some (NDArray.scalar (FP.num d.epsEnv))) }

/-- The call with every omitted argument replaced by the value that `d` holds for it. -/
noncomputable def Call.spellOut (d : Defaults) : Call → Call
  | .demod f x0 amp n nTrapz => .demod f x0 amp n (nTrapz.or (some d.nTrapz))
  | .sample a => .sample { a with epsEnv := a.epsEnv.or (some (NDArray.scalar (FP.num d.epsEnv))) }
  | .bulkSample epsSub beta epsEnv t nuVac =>
    .bulkSample epsSub beta (epsEnv.or (some (NDArray.scalar (FP.num d.epsEnv)))) t nuVac
  | .aboveSurf s zQ nLag => .aboveSurf s zQ (nLag.or (some d.nLag))
  | .surf s zQ nLag => .surf s zQ (nLag.or (some d.nLag))
  | .image s zQ nLag => .image s zQ (nLag.or (some d.nLag))
  | .fdmEffPol s zTip a nLag method =>
    .fdmEffPol s (orReal zTip d.zTip) (a.spellOut d) (nLag.or (some d.nLag)) method
  | .fdmEffPolN s aTip n zTip nTrapz a nLag method =>
    .fdmEffPolN s aTip n (orReal zTip d.zTip) (nTrapz.or (some d.nTrapz)) (a.spellOut d)
      (nLag.or (some d.nLag)) method
  | .fdmTaylorCoef zTip j aTip n rTip lTip g dQ0 dQ1 nTrapz =>
    .fdmTaylorCoef zTip j aTip n rTip lTip g dQ0 dQ1 (nTrapz.or (some d.nTrapz))
  | .fdmTaylor s aTip n zTip a nLag method nTrapz nTayl =>
    .fdmTaylor s aTip n (orReal zTip d.zTip) (a.spellOut d) (nLag.or (some d.nLag)) method
      (nTrapz.or (some d.nTrapz)) (nTayl.or (some d.nTayl))
  | .fdmInvert alpha zTip a => .fdmInvert alpha (orReal zTip d.zTip) (a.spellOut d)
  | .fdmInvertN alpha aTip n zTip a nTrapz nTayl v =>
    .fdmInvertN alpha aTip n (orReal zTip d.zTip) (a.spellOut d) (nTrapz.or (some d.nTrapz))
      (nTayl.or (some d.nTayl)) (v.spellOut d)
  | .pdmEffPol s zTip a => .pdmEffPol s (orReal zTip d.zTip) { a with rTip := orReal a.rTip d.rTip }
  | .pdmEffPolN s aTip n zTip nTrapz a =>
    .pdmEffPolN s aTip n (orReal zTip d.zTip) (nTrapz.or (some d.nTrapz)) { a with rTip := orReal a.rTip d.rTip }
  | .pdmTaylorCoef zTip j aTip n rTip alphaTip nTrapz =>
    .pdmTaylorCoef zTip j aTip n rTip alphaTip (nTrapz.or (some d.nTrapz))
  | .pdmTaylor s aTip n zTip a nTrapz nTayl =>
    .pdmTaylor s aTip n (orReal zTip d.zTip) { a with rTip := orReal a.rTip d.rTip } (nTrapz.or (some d.nTrapz))
      (nTayl.or (some d.nTayl))
  | .pdmInvert alpha zTip a => .pdmInvert alpha (orReal zTip d.zTip) { a with rTip := orReal a.rTip d.rTip }
  | .pdmInvertN alpha aTip n zTip a nTrapz nTayl v =>
    .pdmInvertN alpha aTip n (orReal zTip d.zTip) { a with rTip := orReal a.rTip d.rTip } (nTrapz.or (some d.nTrapz))
      (nTayl.or (some d.nTayl)) (v.spellOut d)

/-- The calls of a program. -/
def calls : List Event → List Call
  | [] => []
  | .assign _ :: es => calls es
  | .call c :: es => c :: calls es

/-- The last of the values that the assignments of a program give to the field read by `f`, if there is any. -/
def lastAssigned {α : Type} (f : Assign → Option α) : List Event → Option α
  | [] => none
  | .assign a :: es => (lastAssigned f es).or (f a)
  | .call _ :: es => lastAssigned f es

/-- `d` holds for every field the last value assigned in `es`, or else the one in `d₀`. -/
def Holds (d₀ : Defaults) (es : List Event) (d : Defaults) : Prop :=
  d.epsEnv = (lastAssigned (fun | .epsEnv v => some v | _ => none) es).getD d₀.epsEnv ∧
  d.zTip = (lastAssigned (fun | .zTip v => some v | _ => none) es).getD d₀.zTip ∧
  d.rTip = (lastAssigned (fun | .rTip v => some v | _ => none) es).getD d₀.rTip ∧
  d.lTip = (lastAssigned (fun | .lTip v => some v | _ => none) es).getD d₀.lTip ∧
  d.gFactor = (lastAssigned (fun | .gFactor v => some v | _ => none) es).getD d₀.gFactor ∧
  d.dQ1 = (lastAssigned (fun | .dQ1 v => some v | _ => none) es).getD d₀.dQ1 ∧
  d.dQa = (lastAssigned (fun | .dQa v => some v | _ => none) es).getD d₀.dQa ∧
  d.nTrapz = (lastAssigned (fun | .nTrapz v => some v | _ => none) es).getD d₀.nTrapz ∧
  d.nLag = (lastAssigned (fun | .nLag v => some v | _ => none) es).getD d₀.nLag ∧
  d.nTayl = (lastAssigned (fun | .nTayl v => some v | _ => none) es).getD d₀.nTayl ∧
  d.betaThreshold = (lastAssigned (fun | .betaThreshold v => some v | _ => none) es).getD d₀.betaThreshold

end Snompy
