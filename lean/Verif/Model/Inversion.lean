import Verif.NDArray
import Verif.Model.Fdm
import Verif.Model.Pdm

/-!
# Inversion through the Taylor series: `refl_coef_qs_from_eff_pol_n` of `snompy/fdm.py` and `snompy/pdm.py`

The bodies of the two functions are the same text after the Taylor coefficients have been computed; this
part is `solveColumns`.  It is array code throughout, so only the array reading exists; a scalar
input is an array without axes.
-/

namespace Snompy

/-- The numerical routines the inversion relies on. -/
structure Solver where
  /-- eigenvalues of the companion matrix of a polynomial (coefficients in ascending order,
  at least three of them, the last one non-zero), in the order `polyroots` returns them -/
  eigvals : List ℂ → List ℂ
  /-- `argsort` of booleans -/
  argsortBool : List Bool → List ℕ
  /-- `argsort` of floats -/
  argsortReal : List (FP ℝ) → List ℕ

open Classical in
/-- `numpy.polynomial.polyutils.trimseq`: drop trailing zeros, but keep one coefficient. -/
noncomputable def trimseq (c : List (FP ℂ)) : List (FP ℂ) :=
  match (c.reverse.dropWhile fun x => decide (x = FP.num 0)).reverse with
  | [] => c.take 1
  | c' => c'

/-- All entries, if they are finite. -/
def allFinite : List (FP ℂ) → Option (List ℂ)
  | [] => some []
  | FP.num z :: l => (allFinite l).map (z :: ·)
  | FP.nan :: _ => none

/-- `Polynomial(c).roots()` (`fdm.py:782`, `pdm.py:523`).  Simplification: any non-finite
coefficient of a polynomial of degree two or more makes `eigvals` raise. -/
noncomputable def polyRoots (sv : Solver) (c : List (FP ℂ)) : PyM (List (FP ℂ)) :=
  if c = [] then .error (.valueError "Coefficient array is empty")
  else
    match trimseq c with
    | [] => .ok []
    | [_] => .ok []
    | [c0, c1] => .ok [c0.map (-·) / c1]
    | c =>
      match allFinite c with
      | none => .error .linAlgError
      | some c => .ok ((sv.eigvals c).map FP.num)

/-- All positions of an array of the given shape, in C order (`np.ndindex`). -/
def positions : List ℕ → List (ℕ → ℕ)
  | [] => [fun _ => 0]
  | a :: s => (positions s).flatMap fun i => (List.range a).map fun k => fun
    | 0 => k
    | n + 1 => i n

namespace NDArray

variable {α β : Type}

/-- `np.apply_along_axis(f, 0, A)` for a function returning one-dimensional arrays.  The length of
the first result is the length of the new axis; a later result of length one is repeated along it
(assignment broadcasts), any other length raises. -/
noncomputable def applyAlong0 (f : List α → PyM (List β)) (dflt : β) (A : NDArray α) : PyM (NDArray β) :=
  let s := A.rshape.dropLast
  match positions s with
  | [] => .error (.valueError "Cannot apply_along_axis when any iteration dimensions are 0")
  | i₀ :: rest => do
    let r₀ ← f (A.column i₀)
    let m := r₀.length
    rest.forM fun i => do
      let r ← f (A.column i)
      if r.length = m ∨ r.length = 1 then pure () else throw .broadcast
    pure ⟨s ++ [m], fun i =>
      match f (A.column i) with
      | .ok r => if r.length = m then r.getD (i s.length) dflt else r.getD 0 dflt
      | .error _ => dflt⟩

/-- `A.argsort(axis=0)`, where `f` sorts one column. -/
def argsort0 (f : List α → List ℕ) (A : NDArray α) : NDArray ℕ :=
  ⟨A.rshape, fun i => (f (A.column i)).getD (i (A.ndim - 1)) 0⟩

/-- `np.take_along_axis(A, idx, axis=0)` for operands of the same shape. -/
def takeAlong0 (A : NDArray α) (idx : NDArray ℕ) : NDArray α :=
  ⟨A.rshape, fun i => A.get (Function.update i (A.ndim - 1) (idx.get i))⟩

open Classical in
/-- The positions `k` with `A.any(axis=(1, 2, ...))[k]`. -/
noncomputable def rowsAny (A : NDArray Bool) : List ℕ :=
  (List.range (dimAt A.rshape (A.ndim - 1))).filter fun k =>
    decide (∃ i ∈ positions A.rshape.dropLast, A.get (Function.update i (A.ndim - 1) k) = true)

/-- `A[rows]` with a boolean mask along axis 0 selecting the given rows. -/
def selectRows (A : NDArray α) (rows : List ℕ) : NDArray α :=
  ⟨A.rshape.dropLast ++ [rows.length], fun i =>
    A.get (Function.update i (A.ndim - 1) (rows.getD (i (A.ndim - 1)) 0))⟩

/-- `A &= B`: the broadcast shape must be the shape of `A`. -/
def iand (A B : NDArray Bool) : PyM (NDArray Bool) :=
  match bshape A.rshape B.rshape with
  | none => .error .broadcast
  | some s => if s = A.rshape then .ok ⟨s, fun i => A.get i && B.get i⟩ else .error .broadcast

end NDArray

/-- A complex number as `permitivitty` returns it: unlike in `FP`, a quotient with denominator zero is
remembered, since its imaginary part and modulus are compared afterwards. -/
inductive Quot0 where
  /-- a finite number -/
  | fin (z : ℂ)
  /-- `w / 0`: numpy divides the real and the imaginary part of `w` by zero -/
  | overZero (w : ℂ)
  /-- computed from a non-finite operand -/
  | nan

open Classical in
/-- `permitivitty` (`sample.py:883-911`) with the quotient kept. -/
noncomputable def permQuot (epsI beta : FP ℂ) : Quot0 :=
  match epsI, beta with
  | FP.num e, FP.num b =>
    if 1 - b = 0 then .overZero (e * (1 + b)) else .fin (e * (1 + b) / (1 - b))
  | _, _ => .nan

open Classical in
/-- `eps.imag >= 0`: `x / 0` is `inf`, `-inf` or `nan` for positive, negative or zero `x`. -/
noncomputable def imagNonneg : Quot0 → Bool
  | .fin z => decide (0 ≤ z.im)
  | .overZero w => decide (0 < w.im)
  | .nan => false

open Classical in
/-- `np.abs(eps) >= 1`: the modulus is `inf` unless both parts are `nan`. -/
noncomputable def absGeOne : Quot0 → Bool
  | .fin z => decide (1 ≤ ‖z‖)
  | .overZero w => decide (w ≠ 0)
  | .nan => false

open Classical in
/-- `np.abs(root) <= beta_threshold`; comparisons with `nan` are false. -/
noncomputable def withinThreshold (thr : ℝ) : FP ℂ → Bool
  | .num z => decide (‖z‖ ≤ thr)
  | .nan => false

/-- The validity of each root (`fdm.py:785-791`, `pdm.py:526-532`).  The permittivity is computed
whether or not a criterion is switched on. -/
noncomputable def validRoots (roots : NDArray (FP ℂ)) (thr : ℝ) (rejectIm rejectAbs : Bool)
    (epsEnv : NDArray (FP ℂ)) : PyM (NDArray Bool) := do
  let valid := roots.map (withinThreshold thr)
  let eps ← NDArray.zipWith permQuot epsEnv roots
  let valid ← if rejectIm then valid.iand (eps.map imagNonneg) else pure valid
  if rejectAbs then valid.iand (eps.map absGeOne) else pure valid

/-- A masked array: `mask = true` hides an entry. -/
structure Masked where
  data : NDArray (FP ℂ)
  mask : NDArray Bool

/-- Sorting and masking of the roots (`fdm.py:793-811`, `pdm.py:534-552`). -/
noncomputable def maskRoots (sv : Solver) (roots : NDArray (FP ℂ)) (valid : NDArray Bool) : Masked :=
  let roots₁ := roots.takeAlong0 (valid.argsort0 sv.argsortBool)
  let valid₁ := valid.takeAlong0 (valid.argsort0 sv.argsortBool)
  let rows := valid₁.rowsAny
  let roots₂ := roots₁.selectRows rows
  let valid₂ := valid₁.selectRows rows
  let valid₃ := valid₂.takeAlong0 ((roots₂.map (CplxOps.cabs : FP ℂ → FP ℝ)).argsort0 sv.argsortReal)
  let roots₃ := roots₂.takeAlong0 ((roots₂.map (CplxOps.cabs : FP ℂ → FP ℝ)).argsort0 sv.argsortReal)
  ⟨roots₃, valid₃.map (!·)⟩

/-- The common part of the two inversions (`fdm.py:781-811`, `pdm.py:522-552`).
Simplification: `beta_threshold` is a scalar. -/
noncomputable def solveColumns (sv : Solver) (j : JArr) (coefs alpha : CArr) (thr : ℝ)
    (rejectIm rejectAbs : Bool) (epsEnv : NDArray (FP ℂ)) : PyM Masked := do
  let offset ← CplxOps.whereJ j (coefs - alpha) coefs
  let roots ← offset.applyAlong0 (polyRoots sv) FP.nan
  let valid ← validRoots roots thr rejectIm rejectAbs epsEnv
  pure (maskRoots sv roots valid)

/-- Padded `np.arange(n_tayl)` (`fdm.py:773-776`, `pdm.py:517-519`). -/
def jTaylor (nTayl p : ℕ) : JArr :=
  .ok (NDArray.padFront ((List.range nTayl).map fun k : ℕ => (k : ℤ)) p 0)

/-- The keyword arguments that only the inversion has. -/
structure InvArgs where
  betaThreshold : Option ℝ := none
  rejectNegativeEpsImag : Bool := false
  rejectSubvacuumEpsAbs : Bool := false
  epsEnv : Option (NDArray (FP ℂ)) := none

/-- `fdm.refl_coef_qs_from_eff_pol_n` (`fdm.py:662-811`). -/
noncomputable def Fdm.reflCoefQsFromEffPolN (env : Env) (sv : Solver) (alpha : CArr) (aTip n : RArr)
    (zTip : Option RArr) (a : FdmArgs RArr CArr) (nTrapz nTayl : Option ℕ) (v : InvArgs) :
    PyM Masked := do
  let zTip := zTip.getD (lit env.defaults.zTip)
  let p := env.defaults.fdm { a with dQa := none }
  let nTayl := nTayl.getD env.defaults.nTayl
  let thr := v.betaThreshold.getD env.defaults.betaThreshold
  let epsEnv := v.epsEnv.getD (NDArray.scalar (FP.num env.defaults.epsEnv))
  let pad ← Arr.maxNdim [.inl zTip, .inl aTip, .inl n, .inr alpha, .inl p.rTip, .inl p.lTip,
    .inr p.gFactor, .inl p.dQ0, .inl p.dQ1]
  let j := jTaylor nTayl pad
  let coefs ← Fdm.taylorCoef env zTip j aTip n p.rTip p.lTip p.gFactor p.dQ0 p.dQ1 nTrapz
  solveColumns sv j coefs alpha thr v.rejectNegativeEpsImag v.rejectSubvacuumEpsAbs epsEnv

/-- `pdm.refl_coef_qs_from_eff_pol_n` (`pdm.py:410-552`). -/
noncomputable def Pdm.reflCoefQsFromEffPolN (env : Env) (sv : Solver) (alpha : CArr) (aTip n : RArr)
    (zTip : Option RArr) (a : PdmArgs RArr CArr) (nTrapz nTayl : Option ℕ) (v : InvArgs) :
    PyM Masked := do
  let zTip := zTip.getD (lit env.defaults.zTip)
  let (rTip, alphaTip) ← env.defaults.pdm a
  let nTayl := nTayl.getD env.defaults.nTayl
  let thr := v.betaThreshold.getD env.defaults.betaThreshold
  let epsEnv := v.epsEnv.getD (NDArray.scalar (FP.num env.defaults.epsEnv))
  let pad ← Arr.maxNdim [.inl zTip, .inl aTip, .inl n, .inr alpha, .inl rTip, .inr alphaTip]
  let j := jTaylor nTayl pad
  let coefs ← Pdm.taylorCoef env zTip j aTip n rTip alphaTip nTrapz
  solveColumns sv j coefs alpha thr v.rejectNegativeEpsImag v.rejectSubvacuumEpsAbs epsEnv

end Snompy
