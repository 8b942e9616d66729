import Verif.Model.Defaults

/-!
# `snompy/sample.py`: optics of a layered sample

The layer axis (axis 0 of `eps_stack` and `t_stack`) is a Lean list; each entry is a scalar or an array.
`Verif.Model.SampleObj` models the class itself (construction, validation, assignment).
-/

namespace Snompy

variable {R J C : Type} [RealOps R] [CplxOps R J C]

/-- What the optical methods of a `Sample` read from it. -/
structure Stack (R C : Type) where
  /-- `eps_stack` -/
  eps : List C
  /-- `t_stack` -/
  t : List R
  /-- `nu_vac` -/
  nuVac : Option R := none

/-- `_MAX_EXP_ARG` (`sample.py:44`): logarithm of the largest finite double. -/
noncomputable def maxExpArg : ℝ := Real.log ((2 - (1 / 2) ^ 52) * 2 ^ 1023)

/-- `refl_coef_qs_single` (`sample.py:831-880`). -/
def reflCoefQsSingle (epsI epsJ : C) : C := (epsJ - epsI) / (epsJ + epsI)

/-- `permitivitty` (`sample.py:883-911`), with its default `eps_i = 1 + 0j`. -/
def permitivitty (beta : C) (epsI : C := clit 1) : C :=
  epsI * (clit 1 + beta) / (clit 1 - beta)

namespace Stack

/-- `Sample.n_layers` (`sample.py:172-174`). -/
def nLayers (s : Stack R C) : ℕ := s.eps.length

/-- `Sample.multilayer` (`sample.py:176-179`). -/
def multilayer (s : Stack R C) : Bool := decide (s.nLayers > 2)

/-- Getter of `Sample.beta_stack` (`sample.py:154-157`). -/
def betaStack (s : Stack R C) : List C :=
  List.zipWith reflCoefQsSingle s.eps.dropLast s.eps.tail

/-- `(1 + np.array([[1, -1], [-1, 1]]) * trans_factor) / 2` (`sample.py:211-213`, `365-367`). -/
noncomputable def interface (tf : C) : Mat2 C where
  m00 := (clit 1 + clit 1 * tf) / clit 2
  m01 := (clit 1 + clit (-1) * tf) / clit 2
  m10 := (clit 1 + clit (-1) * tf) / clit 2
  m11 := (clit 1 + clit 1 * tf) / clit 2

/-- `np.exp(np.array([a, b]) * prop_factor) * np.eye(2)` (`sample.py:223-225`, `377-379`). -/
noncomputable def propagation (a b : ℂ) (p : C) : Mat2 C where
  m00 := CplxOps.exp (clit a * p) * clit 1
  m01 := CplxOps.exp (clit b * p) * clit 0
  m10 := CplxOps.exp (clit a * p) * clit 0
  m11 := CplxOps.exp (clit b * p) * clit 1

/-- `for T, P in zip(trans_matrices[1:], prop_matrices): M = M @ P @ T`
(`sample.py:227-228`, `381-382`). -/
def chain (M : Mat2 C) (TP : List (Mat2 C × Mat2 C)) : Mat2 C :=
  TP.foldl (fun M tp => (M.matmul tp.2).matmul tp.1) M

/-- `Sample.transfer_matrix_qs` (`sample.py:181-232`). -/
noncomputable def transferMatrixQs (s : Stack R C) (q : R) : PyM (Mat2 C) :=
  let transFactor := List.zipWith (· / ·) s.eps.dropLast s.eps.tail
  let transMatrices := transFactor.map interface
  match transMatrices with
  | [] => .error .indexError
  | T0 :: Ts =>
    if s.multilayer then
      let propFactor := s.t.map fun t => RealOps.clip (-maxExpArg) maxExpArg (q * t)
      let propMatrices := propFactor.map fun p => propagation 1 (-1) (ofR p)
      .ok (chain T0 (Ts.zip propMatrices))
    else
      let one : C := ofR (RealOps.onesLike q)
      .ok ⟨T0.m00 * one, T0.m01 * one, T0.m10 * one, T0.m11 * one⟩

/-- `Sample.refl_coef_qs` (`sample.py:234-252`). -/
noncomputable def reflCoefQs (s : Stack R C) (q : R := lit 0) : PyM C := do
  let M ← s.transferMatrixQs q
  pure (M.m10 / M.m00)

/-- `Sample.trans_coef_qs` (`sample.py:254-272`). -/
noncomputable def transCoefQs (s : Stack R C) (q : R := lit 0) : PyM C := do
  let M ← s.transferMatrixQs q
  pure (clit 1 / M.m00)

/-- The direction and wavenumber arguments of the far-field methods. -/
structure FarArgs (R : Type) where
  q : Option R := none
  thetaIn : Option R := none
  nuVac : Option R := none
  polarization : String := "p"

/-- Resolution of `nu_vac` in `Sample.transfer_matrix` (`sample.py:317-329`). -/
noncomputable def resolveNu (s : Stack R C) (nuVac : Option R) : PyM R :=
  match nuVac with
  | some nu => .ok nu
  | none =>
    match s.nuVac with
    | some nu => .ok nu
    | none =>
      if s.multilayer then
        .error (.valueError "`nu_vac` must not be None for multilayer samples.")
      else .ok (lit 1)

/-- Resolution of `q` in `Sample.transfer_matrix` (`sample.py:331-341`). -/
noncomputable def resolveQ (nu : R) (q thetaIn : Option R) : PyM R :=
  match thetaIn, q with
  | none, none => .ok (lit 0)
  | none, some q => .ok q
  | some theta, none => .ok (nu * RealOps.sin (RealOps.abs theta))
  | some _, some _ => .error (.valueError "Either `theta_in` or `q` must be None.")

/-- `nu_z_medium` (`sample.py:343-346`): wavevector in each layer. -/
noncomputable def nuZ (s : Stack R C) (nu q : R) : List C :=
  s.eps.map fun eps =>
    CplxOps.sqrt (eps * ofR (RealOps.npow nu 2) - ofR (RealOps.npow q 2))

/-- `trans_factor` of the far-field matrix (`sample.py:348-363`).  `layers` pairs each
permittivity with its wavevector. -/
noncomputable def farTransFactor (layers : List (C × C)) (polarization : String) : PyM (List C) :=
  if polarization = "p" then
    .ok (List.zipWith (fun a b => a.1 * b.2 / (b.1 * a.2)) layers.dropLast layers.tail)
  else if polarization = "s" then
    .ok (List.zipWith (fun a b => b.2 / a.2) layers.dropLast layers.tail)
  else .error (.valueError "`polarization` must be 's' or 'p'")

/-- The matrix product of `Sample.transfer_matrix` (`sample.py:365-384`). -/
noncomputable def farMatrix (s : Stack R C) (transFactor nuz : List C) : PyM (Mat2 C) :=
  match transFactor.map interface with
  | [] => .error (.valueError "need at least one array to stack")
  | T0 :: Ts =>
    if s.multilayer then
      let propFactor := List.zipWith (fun nz t => nz * ofR t) (nuz.dropLast.tail) s.t
      let propMatrices := propFactor.map fun p => propagation (-Complex.I) Complex.I p
      .ok (chain T0 (Ts.zip propMatrices))
    else .ok T0

/-- `Sample.transfer_matrix` (`sample.py:274-384`). -/
noncomputable def transferMatrix (s : Stack R C) (a : FarArgs R) : PyM (Mat2 C) := do
  let nu ← s.resolveNu a.nuVac
  let q ← resolveQ nu a.q a.thetaIn
  let nuz := s.nuZ nu q
  let transFactor ← farTransFactor (s.eps.zip nuz) a.polarization
  s.farMatrix transFactor nuz

/-- `Sample.refl_coef` (`sample.py:386-420`). -/
noncomputable def reflCoef (s : Stack R C) (a : FarArgs R) : PyM C := do
  let M ← s.transferMatrix a
  pure (M.m10 / M.m00)

/-- `Sample.trans_coef` (`sample.py:422-456`). -/
noncomputable def transCoef (s : Stack R C) (a : FarArgs R) : PyM C := do
  let M ← s.transferMatrix a
  pure (clit 1 / M.m00)

/-- `Sample.refl_coef_qs_above_surf` (`sample.py:472-590`). -/
noncomputable def reflCoefQsAboveSurf (s : Stack R C) (env : Env) (zQ : R) (nLag : Option ℕ) :
    PyM C := do
  let rule ← env.lagRule (nLag.getD env.defaults.nLag)
  let like ← s.reflCoefQs zQ
  CplxOps.quad0 rule [.inr like] fun x w => do
    let q := x / (lit 2 * zQ)
    let betaQ ← s.reflCoefQs q
    pure (ofR (w * x) * betaQ)

/-- `Sample.surf_pot_and_field` (`sample.py:592-726`): `(phi, E)`. -/
noncomputable def surfPotAndField (s : Stack R C) (env : Env) (zQ : R) (nLag : Option ℕ) :
    PyM (C × C) := do
  let rule ← env.lagRule (nLag.getD env.defaults.nLag)
  let like ← s.reflCoefQs zQ
  let phiSum ← CplxOps.quad0 rule [.inr like] fun x w => do
    let q := x / (lit 2 * zQ)
    let betaQ ← s.reflCoefQs q
    pure (ofR w * betaQ)
  let eSum ← CplxOps.quad0 rule [.inr like] fun x w => do
    let q := x / (lit 2 * zQ)
    let betaQ ← s.reflCoefQs q
    pure (ofR (w * x) * betaQ)
  pure (phiSum / ofR (lit 2 * zQ), eSum / ofR (lit 4 * RealOps.npow zQ 2))

/-- `Sample.image_depth_and_charge` (`sample.py:728-798`): `(d_image, beta_image)`. -/
noncomputable def imageDepthAndCharge (s : Stack R C) (env : Env) (zQ : R) (nLag : Option ℕ) :
    PyM (R × C) := do
  let (phi, e) ← s.surfPotAndField env zQ nLag
  let dImage := CplxOps.cabs (phi / e) - zQ
  let betaImage := CplxOps.cpow phi 2 / e
  pure (dImage, betaImage)

end Stack

/-- `lorentz_perm` (`sample.py:914-958`). -/
noncomputable def lorentzPerm (nuVac nuJ gammaJ : R) (aJ nuPlasma : Option R) (fJ : R := lit 1)
    (epsInf : C := clit 1) : PyM C := do
  let aJ ← match aJ, nuPlasma with
    | none, none => .error (.valueError "`A_j` and `nu_plasma` cannot both be None")
    | none, some nuP => .ok (fJ * RealOps.npow nuP 2)
    | some a, none => .ok a
    | some _, some _ => .error (.valueError "Either `A_j` or `nu_plasma` must be None")
  pure (epsInf + ofR aJ /
    (ofR (RealOps.npow nuJ 2 - RealOps.npow nuVac 2) - clit Complex.I * ofR gammaJ * ofR nuVac))

/-- `drude_perm` (`sample.py:961-988`). -/
noncomputable def drudePerm (nuVac nuPlasma gamma : R) (epsInf : C := clit 1) : PyM C :=
  lorentzPerm nuVac (lit 0) gamma none (some nuPlasma) (lit 1) epsInf

end Snompy
