import Verif.Model.Examples

/-!
# The numerical part of `docs/examples/scripts/t_dependent_spectra.py`

The numbers of the script are parameters; `tSpectra` is the script.  Simplifications as in `Verif.Model.Examples`; `geomspace` is
exact.
-/

namespace Snompy.Examples

/-- The parameters of the experiment (`t_dependent_spectra.py:8-13`). -/
structure Experiment where
  aTip : ℝ
  rTip : ℝ
  lTip : ℝ
  n : ℝ
  thetaIn : ℝ
  cR : ℝ

/-- The materials (`t_dependent_spectra.py:18-25`, `34`). -/
structure Materials where
  epsAir : ℝ
  epsSi : ℝ
  nuJ : ℝ
  gammaJ : ℝ
  aJ : ℝ
  epsInf : ℝ
  nuPlasma : ℝ
  gamma : ℝ

/-- The scattered field of one sample (`t_dependent_spectra.py:38-42`, `45-49`). -/
noncomputable def scattered {R J C : Type} [RealOps R] [CplxOps R J C] (env : Env) (x : Experiment) (s : Stack R C) : PyM C := do
  let alpha ← Fdm.effPolN env s (lit x.aTip) (lit x.n) none none { rTip := some (lit x.rTip), lTip := some (lit x.lTip) } none
    (some "Q_ave")
  let r ← s.reflCoef { thetaIn := some (lit x.thetaIn) }
  pure (CplxOps.cpow (clit 1 + ofR (lit x.cR) * r) 2 * alpha)

/-- `t_pmma[:, np.newaxis]`, `nu_vac`. -/
def axis1 (l : List ℝ) : NDArray (FP ℝ) := NDArray.padFront (l.map FP.num) 1 FP.nan

@[inherit_doc axis1]
def axis0 (l : List ℝ) : NDArray (FP ℝ) := NDArray.padFront (l.map FP.num) 0 FP.nan

/-- `eta_n` (`t_dependent_spectra.py:14-52`). -/
noncomputable def spectra (env : Env) (x : Experiment) (m : Materials) (nu t : List ℝ) : PyM (NDArray (FP ℂ)) := do
  let nuVac : RArr := .ok (axis0 nu)
  let epsPmma ← lorentzPerm (C := CArr) nuVac (lit m.nuJ) (lit m.gammaJ) (some (lit m.aJ)) none (epsInf := clit m.epsInf)
  let samplePmma ← SampleObj.init env.defaults
    { eps := some (.items [NDArray.scalar (FP.num m.epsAir), ← epsPmma, NDArray.scalar (FP.num m.epsSi)])
      t := some (.items [axis1 t])
      nuVac := some (axis0 nu) }
  let epsAu ← drudePerm (C := CArr) nuVac (lit m.nuPlasma) (lit m.gamma)
  let sampleAu ← SampleObj.bulk env.defaults (some (← epsAu)) none (epsEnv := some (NDArray.scalar (FP.num m.epsAir)))
    (nuVac := some (axis0 nu))
  let sigmaPmma : CArr ← scattered env x samplePmma.stack
  let sigmaAu : CArr ← scattered env x sampleAu.stack
  sigmaPmma / sigmaAu

/-- `np.geomspace(start, stop, num)` for positive ends and `num ≥ 2`. -/
noncomputable def geomspace (start stop : ℝ) (num : ℕ) : List ℝ :=
  (List.range num).map fun k : ℕ => start * (stop / start) ^ ((k : ℝ) / (num - 1 : ℕ))

/-- The numbers of the script. -/
noncomputable def tSpectra (env : Env) : PyM (NDArray (FP ℂ)) :=
  spectra env ⟨20e-9, 30e-9, 350e-9, 3, 60 * (Real.pi / 180), 0.3⟩ ⟨1, 11.7, 1738e2, 20e2, 4.2e8, 2, 7.25e6, 2.16e4⟩
    ((linspace 1680 1800 128).map (· * 1e2)) ((geomspace 1 35 32).map (· * 1e-9))

end Snompy.Examples
