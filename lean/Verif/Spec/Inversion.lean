import Verif.Model.Inversion
import Verif.Spec.ArrSample
import Mathlib.Algebra.Polynomial.Roots

/-!
# Specification: solving the truncated Taylor equation column by column
-/

namespace Snompy

open Polynomial

/-- The polynomial with the given coefficients in ascending order. -/
noncomputable def polyOf (c : List ℂ) : ℂ[X] :=
  ∑ j ∈ Finset.range c.length, monomial j (c.getD j 0)

/-- Order of booleans: false before true. -/
def boolLe (a b : Bool) : Prop := a = true → b = true

/-- Order of floats: `nan` last. -/
def fpLe : FP ℝ → FP ℝ → Prop
  | _, .nan => True
  | .num a, .num b => a ≤ b
  | .nan, .num _ => False

/-- `f` is an `argsort`: it returns the positions in an order that sorts the entries.  Nothing is
said about ties. -/
def IsArgsort {α : Type} (le : α → α → Prop) (f : List α → List ℕ) : Prop :=
  ∀ l : List α, (f l).Perm (List.range l.length) ∧
    ((f l).filterMap fun k => l[k]?).Pairwise le

/-- A correct root finder and correct sorting routines. -/
structure Solver.Correct (sv : Solver) : Prop where
  roots : ∀ (c : List ℂ) (last : ℂ), 2 ≤ c.length → last ≠ 0 →
    ((sv.eigvals (c ++ [last]) : List ℂ) : Multiset ℂ) = (polyOf (c ++ [last])).roots
  bool : IsArgsort boolLe sv.argsortBool
  real : IsArgsort fpLe sv.argsortReal

/-- The index is inside an array of shape `s` (axes of length one are broadcast). -/
def InBounds (s : List ℕ) (i : ℕ → ℕ) : Prop := ∀ k, dimAt s k ≠ 1 → i k < dimAt s k

/-- The unmasked entries of the column at `i`, from the first row to the last. -/
def Masked.unmasked (M : Masked) (i : ℕ → ℕ) : List (FP ℂ) :=
  ((M.data.column i).zip (M.mask.column i)).filterMap fun e => if e.2 then none else some e.1

/-- Permittivity of a bulk sample with reflection coefficient `β ≠ 1` in the environment `e`. -/
noncomputable def epsOf (e β : ℂ) : ℂ := e * (1 + β) / (1 - β)

/-- The sample is not amplifying.  For `β = 1` the permittivity is infinite in the direction of `e`. -/
def ImagOk (e β : ℂ) : Prop := (β ≠ 1 ∧ 0 ≤ (epsOf e β).im) ∨ (β = 1 ∧ 0 < e.im)

/-- The modulus of the permittivity is at least that of vacuum. -/
def AbsOk (e β : ℂ) : Prop := (β ≠ 1 ∧ 1 ≤ ‖epsOf e β‖) ∨ (β = 1 ∧ e ≠ 0)

/-- `β` passes the threshold and the criteria that are switched on. -/
def Accepted (thr : ℝ) (rejectIm rejectAbs : Bool) (e : FP ℂ) (β : ℂ) : Prop :=
  ‖β‖ ≤ thr ∧ (rejectIm = true → ∃ e', e = FP.num e' ∧ ImagOk e' β) ∧
    (rejectAbs = true → ∃ e', e = FP.num e' ∧ AbsOk e' β)

/-- `p` is the truncated series with the given coefficients. -/
def IsSeries (coef : ℕ → PyM (FP ℂ)) (J : ℕ) (p : ℂ[X]) : Prop :=
  p.degree < J ∧ ∀ j < J, coef j = .ok (FP.num (p.coeff j))

/-- The threshold in force. -/
noncomputable def InvArgs.thr (v : InvArgs) (env : Env) : ℝ :=
  v.betaThreshold.getD env.defaults.betaThreshold

/-- The permittivity of the environment in force. -/
noncomputable def InvArgs.envEps (v : InvArgs) (env : Env) : NDArray (FP ℂ) :=
  v.epsEnv.getD (NDArray.scalar (FP.num env.defaults.epsEnv))

/-- `β` passes the threshold and the criteria, with the permittivity of the environment at an index. -/
def InvArgs.Accepts (v : InvArgs) (env : Env) (i : ℕ → ℕ) (β : ℂ) : Prop :=
  Accepted (v.thr env) v.rejectNegativeEpsImag v.rejectSubvacuumEpsAbs ((v.envEps env).get i) β

namespace Fdm

/-- The inversion with array arguments. -/
noncomputable abbrev invert (env : Env) (sv : Solver) (α : NDArray (FP ℂ)) (aTip n : NDArray (FP ℝ))
    (z : Option (NDArray (FP ℝ))) (a : Args) (nTrapz nTayl : Option ℕ) (v : InvArgs) : PyM Masked :=
  reflCoefQsFromEffPolN env sv (.ok α) (.ok aTip) (.ok n) (z.map .ok) (argsArr a) nTrapz nTayl v

/-- The scalar Taylor coefficients at an index. -/
noncomputable def coefAt (env : Env) (aTip n : NDArray (FP ℝ)) (z : Option (NDArray (FP ℝ))) (a : Args)
    (nTrapz : Option ℕ) (i : ℕ → ℕ) (j : ℕ) : PyM (FP ℂ) :=
  let p := env.defaults.fdm (argsAt a i)
  taylorCoef env ((z.map (·.get i)).getD (lit env.defaults.zTip)) (j : ℤ) (aTip.get i) (n.get i) p.rTip
    p.lTip p.gFactor p.dQ0 p.dQ1 nTrapz

/-- Broadcast of the shapes of all the array arguments of the inversion. -/
def invShape (α : NDArray (FP ℂ)) (aTip n : NDArray (FP ℝ)) (z : Option (NDArray (FP ℝ))) (a : Args) :
    Shape :=
  joinAll [optShape z, some aTip.rshape, some n.rshape, some α.rshape, optShape a.rTip, optShape a.lTip,
    optShape a.gFactor, optShape a.dQ0, optShape a.dQ1]

end Fdm

namespace Pdm

/-- The inversion with array arguments. -/
noncomputable abbrev invert (env : Env) (sv : Solver) (α : NDArray (FP ℂ)) (aTip n : NDArray (FP ℝ))
    (z : Option (NDArray (FP ℝ))) (a : Args) (nTrapz nTayl : Option ℕ) (v : InvArgs) : PyM Masked :=
  reflCoefQsFromEffPolN env sv (.ok α) (.ok aTip) (.ok n) (z.map .ok) (argsArr a) nTrapz nTayl v

/-- The scalar Taylor coefficients at an index. -/
noncomputable def coefAt (env : Env) (aTip n : NDArray (FP ℝ)) (z : Option (NDArray (FP ℝ))) (a : Args)
    (nTrapz : Option ℕ) (i : ℕ → ℕ) (j : ℕ) : PyM (FP ℂ) := do
  let p ← env.defaults.pdm (argsAt a i)
  taylorCoef env ((z.map (·.get i)).getD (lit env.defaults.zTip)) (j : ℤ) (aTip.get i) (n.get i) p.1
    p.2 nTrapz

/-- Broadcast of the shapes of all the array arguments of the inversion. -/
def invShape (α : NDArray (FP ℂ)) (aTip n : NDArray (FP ℝ)) (z : Option (NDArray (FP ℝ))) (a : Args) :
    Shape :=
  joinAll [optShape z, some aTip.rshape, some n.rshape, some α.rshape, optShape a.rTip,
    optShape a.epsTip, optShape a.alphaTip]

end Pdm

end Snompy
