import Verif.Model.Fdm
import Verif.Model.Pdm
import Verif.Model.SampleObj

/-!
# The numerical part of the example scripts of the documentation

`docs/examples/scripts/inversion.py` defines two functions that users copy: the search for the permittivity of a signal with
`scipy.optimize.minimize`.  The search itself is a parameter.

`docs/examples/scripts/si_approach.py` computes normalised approach curves.

Simplifications: the parameters in `fdm_params` are scalars; the arrays are complex (for a real `alpha_eff_n` the result could
not hold the permittivities); `linspace` is exact; an array that is divided in place by a part of itself is divided by the part as
it was before (numpy makes a copy when operands overlap).
-/

namespace Snompy.Examples

/-- `fdm_params`: what the scripts pass to `fdm.eff_pol_n` besides the sample (`inversion.py:81`). -/
structure FdmParams where
  aTip : FP ℝ
  n : FP ℝ
  zTip : Option (FP ℝ) := none
  nTrapz : Option ℕ := none
  args : FdmArgs (FP ℝ) (FP ℂ) := {}
  nLag : Option ℕ := none
  method : Option String := none

/-- `x[0] + 1j * np.abs(x[1])` (`inversion.py:36`, `inversion.py:76`). -/
noncomputable def epsOfPair (x : FP ℝ × FP ℝ) : FP ℂ := ofR x.1 + clit Complex.I * ofR (RealOps.abs x.2)

/-- `snompy.bulk_sample(eps)` for a scalar: the default environment above the substrate (`sample.py:801-828`). -/
noncomputable def bulkOf (env : Env) (eps : FP ℂ) : Stack (FP ℝ) (FP ℂ) := ⟨[FP.num env.defaults.epsEnv, eps], [], none⟩

/-- `minimization_function` (`inversion.py:9-38`). -/
noncomputable def minimizationFunction (env : Env) (x : FP ℝ × FP ℝ) (alpha : FP ℂ) (p : FdmParams) : PyM (FP ℝ) := do
  let eps := epsOfPair x
  let test ← Fdm.effPolN env (bulkOf env eps) p.aTip p.n p.zTip p.nTrapz p.args p.nLag p.method
  pure (CplxOps.cabs (alpha - test))

/-- `np.ndindex(shape)`: all index tuples, the last axis fastest (the shape has its last axis first). -/
def ndindex : List ℕ → List (ℕ → ℕ)
  | [] => [fun _ => 0]
  | d :: s => (ndindex s).flatMap fun i => (List.range d).map fun k => fun
    | 0 => k
    | m + 1 => i m

/-- `A[inds]` where `inds` has `rank` entries, as a scalar.  With fewer indices than axes numpy gives an array; `minimize` then
raises, since its initial guess must have one axis. -/
def item {α : Type} (A : NDArray α) (rank : ℕ) (i : ℕ → ℕ) : PyM α :=
  if A.rshape.length < rank then .error .indexError
  else if (List.range rank).any (fun k => A.rshape.getD k 0 ≤ i k) then .error .indexError
  else if rank < A.rshape.length then .error (.valueError "'x0' must only have one dimension.")
  else .ok (A.data i)

open Classical in
/-- `A[inds] = x`. -/
noncomputable def setItem {α : Type} (A : NDArray α) (i : ℕ → ℕ) (x : α) : NDArray α := ⟨A.rshape, Function.update A.data i x⟩

/-- `z.real` and `z.imag`. -/
def reIm (z : FP ℂ) : FP ℝ × FP ℝ := (z.map Complex.re, z.map Complex.im)

/-- `scipy.optimize.minimize(f, x0).x`: calls `f` at points of its choice and returns a point or raises. -/
abbrev Minimizer := (FP ℝ × FP ℝ → PyM (FP ℝ)) → FP ℝ × FP ℝ → PyM (FP ℝ × FP ℝ)

/-- One pass of the loop (`inversion.py:71-76`). -/
noncomputable def searchAt (env : Env) (minimize : Minimizer) (alpha guess : NDArray (FP ℂ)) (p : FdmParams) (i : ℕ → ℕ) :
    PyM (FP ℂ) := do
  let g ← item guess alpha.ndim i
  let a ← item alpha alpha.ndim i
  let x ← minimize (fun x => minimizationFunction env x a p) (reIm g)
  pure (epsOfPair x)

/-- `invert_by_minimization` (`inversion.py:41-77`). -/
noncomputable def invertByMinimization (env : Env) (minimize : Minimizer) (alpha guess : NDArray (FP ℂ)) (p : FdmParams) :
    PyM (NDArray (FP ℂ)) :=
  (ndindex alpha.rshape).foldlM (fun eps i => do pure (setItem eps i (← searchAt env minimize alpha guess p i)))
    (alpha.map fun _ => FP.num 0)

/-! ## `si_approach.py` -/

/-- `np.linspace(start, stop, num)` for `num ≥ 2`. -/
noncomputable def linspace (start stop : ℝ) (num : ℕ) : List ℝ :=
  (List.range num).map fun k : ℕ => start + k * ((stop - start) / (num - 1 : ℕ))

/-- `A[0]`: the first entry along the leading axis. -/
def first {α : Type} (A : NDArray α) : PyM (NDArray α) :=
  if A.ndim = 0 ∨ dimAt A.rshape (A.ndim - 1) = 0 then .error .indexError
  else .ok ⟨A.rshape.dropLast, fun i => A.get (Function.update i (A.ndim - 1) 0)⟩

/-- `A /= A[0]` (`si_approach.py:28-29`): the result must fit into `A`. -/
noncomputable def normalise (A : NDArray (FP ℂ)) : PyM (NDArray (FP ℂ)) := do
  let Q ← NDArray.zipWith (· / ·) A (← first A)
  if Q.rshape = A.rshape then pure Q else .error .broadcast

/-- The point dipole curves of the script (`si_approach.py:6-11`, `20-25`, `29`): `z_tip[:, np.newaxis]` against the harmonics. -/
noncomputable def approachPdm (env : Env) (z : List ℝ) (aTip : ℝ) (n : List ℝ) (eps : ℂ) : PyM (NDArray (FP ℂ)) := do
  let o ← SampleObj.bulk env.defaults (some (NDArray.scalar (FP.num eps))) none
  let zTip := NDArray.padFront (z.map FP.num) 1 FP.nan
  let harmonics := NDArray.padFront (n.map FP.num) 0 FP.nan
  let alpha ← Pdm.effPolN env o.stack (.ok (NDArray.scalar (FP.num aTip)) : RArr) (.ok harmonics) (some (.ok zTip)) none {}
  normalise (← alpha)

/-- The script. -/
noncomputable def siApproachPdm (env : Env) : PyM (NDArray (FP ℂ)) :=
  approachPdm env (linspace 0 60e-9 512) 20e-9 [2, 3, 4] 11.7

end Snompy.Examples
