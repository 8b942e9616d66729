import Verif.Lemmas.DemodAny
import Verif.Model.Fdm
import Verif.Model.Pdm

/-!
# Complex conjugation commutes with the quasistatic computations
-/

namespace Snompy

/-- Conjugation of a number; a non-finite value stays non-finite. -/
def FP.conj (x : FP ℂ) : FP ℂ := x.map (starRingEnd ℂ)

namespace FP

@[simp] theorem star_two : starRingEnd ℂ 2 = 2 := map_ofNat _ 2
@[simp] theorem conj_num (a : ℂ) : (num a).conj = num (starRingEnd ℂ a) := rfl
@[simp] theorem conj_nan : (nan : FP ℂ).conj = nan := rfl
@[simp] theorem conj_conj (a : FP ℂ) : a.conj.conj = a := by cases a <;> simp

theorem conj_add (a b : FP ℂ) : (a + b).conj = a.conj + b.conj := by
  cases a <;> cases b <;> simp

theorem conj_sub (a b : FP ℂ) : (a - b).conj = a.conj - b.conj := by
  cases a <;> cases b <;> simp

theorem conj_mul (a b : FP ℂ) : (a * b).conj = a.conj * b.conj := by
  cases a <;> cases b <;> simp

theorem conj_div (a b : FP ℂ) : (a / b).conj = a.conj / b.conj := by
  cases a with
  | nan => simp
  | num a =>
    cases b with
    | nan => simp
    | num b =>
      by_cases hb : b = 0
      · simp [hb]
      · have hb' : starRingEnd ℂ b ≠ 0 := by simpa using hb
        rw [num_div _ hb, conj_num, conj_num, conj_num, num_div _ hb', map_div₀]

theorem conj_ofR (x : FP ℝ) : (ofR x : FP ℂ).conj = ofR x := by
  cases x
  · show FP.num (starRingEnd ℂ ((_ : ℝ) : ℂ)) = _
    rw [Complex.conj_ofReal]
    rfl
  · rfl

theorem conj_exp (x : FP ℂ) : (CplxOps.exp x : FP ℂ).conj = CplxOps.exp x.conj := by
  cases x
  · show FP.num _ = FP.num _
    rw [Complex.exp_conj]
  · rfl

theorem conj_cpow (x : FP ℂ) (n : ℕ) : (CplxOps.cpow x n : FP ℂ).conj = CplxOps.cpow x.conj n := by
  cases x
  · show FP.num _ = FP.num _
    rw [map_pow]
  · rfl

theorem conj_jpow (x : FP ℂ) (j : ℤ) : (CplxOps.jpow x j : FP ℂ).conj = CplxOps.jpow x.conj j := by
  cases x with
  | num a =>
    show (FP.zpow _ _).conj = FP.zpow _ _
    simp only [FP.zpow, FP.bind_num, conj_num, map_eq_zero]
    split_ifs
    · rfl
    · rw [conj_num, map_zpow₀]
  | nan => rfl

theorem cabs_conj (x : FP ℂ) : (CplxOps.cabs x.conj : FP ℝ) = CplxOps.cabs x := by
  cases x
  · exact congrArg FP.num (Complex.norm_conj _)
  · rfl

theorem conj_clit (a : ℂ) : (clit a : FP ℂ).conj = clit (starRingEnd ℂ a) := rfl

theorem conj_sum (l : List (FP ℂ)) : (FP.sum l).conj = FP.sum (l.map FP.conj) := by
  induction l with
  | nil => simp
  | cons a l ih => simp [conj_add, ih]

theorem conj_trapz (l : List (FP ℂ)) : (FP.trapz l).conj = FP.trapz (l.map FP.conj) := by
  unfold FP.trapz
  rw [conj_sum, List.map_zipWith, ← List.map_tail, ← List.map_dropLast, List.zipWith_map]
  congr 2
  funext a b
  rw [conj_div, conj_add]
  simp

end FP

theorem mapM_conj {ι : Type} (l : List ι) (f : ι → PyM (FP ℂ)) :
    (l.mapM fun i => FP.conj <$> f i) = (List.map FP.conj) <$> l.mapM f := by
  induction l with
  | nil => rfl
  | cons a l ih =>
    rw [List.mapM_cons, List.mapM_cons, ih]
    cases f a with
    | error e => rfl
    | ok v => cases l.mapM f <;> rfl

theorem quad0_conj (rule : List (ℝ × ℝ)) (lk lk' : List (FP ℝ ⊕ FP ℂ))
    {f g : FP ℝ → FP ℝ → PyM (FP ℂ)} (h : ∀ x w, g x w = FP.conj <$> f x w) :
    (CplxOps.quad0 rule lk' g : PyM (FP ℂ)) = FP.conj <$> CplxOps.quad0 rule lk f := by
  show (rule.mapM fun xw => g (FP.num xw.1) (FP.num xw.2)) >>= _ =
    FP.conj <$> ((rule.mapM fun xw => f (FP.num xw.1) (FP.num xw.2)) >>= _)
  simp only [h]
  rw [mapM_conj]
  cases (rule.mapM fun xw => f (FP.num xw.1) (FP.num xw.2)) with
  | error e => rfl
  | ok v => simp [FP.conj_sum]

theorem series0_conj (n : ℕ) (lk lk' : List (FP ℝ ⊕ FP ℂ)) {f g : ℤ → PyM (FP ℂ)}
    (h : ∀ j, g j = FP.conj <$> f j) :
    (CplxOps.series0 n lk' g : PyM (FP ℂ)) = FP.conj <$> CplxOps.series0 n lk f := by
  show ((List.range n).mapM fun j : ℕ => g (j : ℤ)) >>= _ =
    FP.conj <$> (((List.range n).mapM fun j : ℕ => f (j : ℤ)) >>= _)
  simp only [h]
  rw [mapM_conj]
  cases ((List.range n).mapM fun j : ℕ => f (j : ℤ)) with
  | error e => rfl
  | ok v => simp [FP.conj_sum]

/-- The defaults with the complex ones conjugated. -/
def Env.conj (env : Env) : Env where
  defaults := { env.defaults with
    epsEnv := starRingEnd ℂ env.defaults.epsEnv
    gFactor := starRingEnd ℂ env.defaults.gFactor }
  laggauss := env.laggauss

/-- Conjugating the integrand conjugates the demodulated signal: the phase factor changes sign, but
the cosine modulation is even in the harmonic. -/
theorem demod_conj (env : Env) {f g : FP ℝ → PyM (FP ℂ)} (h : ∀ x, g x = FP.conj <$> f x)
    (x0 amp n : FP ℝ) (nT : Option ℕ) :
    demod env.conj g x0 amp n nT = FP.conj <$> demod env f x0 amp n nT := by
  have key : ∀ n n' : FP ℝ, (∀ θ : FP ℝ,
      (CplxOps.exp (clit (-Complex.I) * ofR n * ofR θ) : FP ℂ).conj =
        CplxOps.exp (clit (-Complex.I) * ofR n' * ofR θ)) →
      demod env.conj g x0 amp n' nT = FP.conj <$> demod env f x0 amp n nT := by
    intro n n' hn
    have hb : ∀ θ : FP ℝ, (g (x0 + RealOps.cos θ * amp) >>= fun fx =>
        (pure (fx * CplxOps.exp (clit (-Complex.I) * ofR n' * ofR θ)) : PyM (FP ℂ))) =
        FP.conj <$> (f (x0 + RealOps.cos θ * amp) >>= fun fx =>
        (pure (fx * CplxOps.exp (clit (-Complex.I) * ofR n * ofR θ)) : PyM (FP ℂ))) := by
      intro θ
      rw [h]
      cases f (x0 + RealOps.cos θ * amp) with
      | error e => rfl
      | ok v => simp [FP.conj_mul, hn]
    unfold demod
    rw [h]
    cases f (x0 + lit 0 * amp) with
    | error e => rfl
    | ok p =>
      simp only [PyM.map_ok, PyM.ok_bind, CplxOps.trapz0, hb]
      rw [mapM_conj]
      show (_ <$> (thetaGrid (nT.getD env.defaults.nTrapz)).mapM _ >>= _) >>= _ = _
      cases ((thetaGrid (nT.getD env.defaults.nTrapz)).mapM fun x =>
          f (x0 + RealOps.cos (FP.num x) * amp) >>= fun fx =>
            (pure (fx * CplxOps.exp (clit (-Complex.I) * ofR n * ofR (FP.num x))) :
              PyM (FP ℂ))) with
      | error e => rfl
      | ok v =>
        simp only [PyM.map_ok, PyM.ok_bind, PyM.pure_eq_ok, ← FP.conj_trapz, FP.conj_div,
          FP.conj_clit, map_natCast]
        rfl
  cases n with
  | nan => exact key _ _ fun θ => by cases θ <;> rfl
  | num n =>
    rw [← demod_even env f]
    refine key _ _ fun θ => ?_
    rw [FP.conj_exp]
    congr 1
    rw [FP.conj_mul, FP.conj_mul, FP.conj_ofR, FP.conj_ofR, FP.conj_clit]
    cases θ with
    | nan => show _ * FP.nan = _ * FP.nan; simp
    | num θ =>
      show FP.num _ = FP.num _
      simp

namespace Mat2

/-- Entrywise conjugation. -/
def conj (M : Mat2 (FP ℂ)) : Mat2 (FP ℂ) := ⟨M.m00.conj, M.m01.conj, M.m10.conj, M.m11.conj⟩

end Mat2

namespace Stack

/-- The stack with all permittivities conjugated. -/
def conj (s : Stack (FP ℝ) (FP ℂ)) : Stack (FP ℝ) (FP ℂ) := { s with eps := s.eps.map FP.conj }

variable (s : Stack (FP ℝ) (FP ℂ))

theorem conj_multilayer : s.conj.multilayer = s.multilayer := by
  simp [multilayer, nLayers, conj]

theorem interface_conj (x : FP ℂ) : interface x.conj = (interface x).conj := by
  simp [interface, Mat2.conj, FP.conj_div, FP.conj_add, FP.conj_mul, FP.conj_clit]

theorem propagation_conj (p : FP ℝ) :
    (propagation 1 (-1) (ofR p) : Mat2 (FP ℂ)).conj = propagation 1 (-1) (ofR p) := by
  simp [propagation, Mat2.conj, FP.conj_mul, FP.conj_exp, FP.conj_clit, FP.conj_ofR]

theorem matmul_conj (M N : Mat2 (FP ℂ)) : M.conj.matmul N.conj = (M.matmul N).conj := by
  simp [Mat2.matmul, Mat2.conj, FP.conj_mul, FP.conj_add]

theorem chain_conj (M : Mat2 (FP ℂ)) (TP : List (Mat2 (FP ℂ) × Mat2 (FP ℂ))) :
    chain M.conj (TP.map fun tp => (tp.1.conj, tp.2.conj)) = (chain M TP).conj := by
  induction TP generalizing M with
  | nil => rfl
  | cons a TP ih =>
    simp only [chain, List.map_cons, List.foldl_cons] at ih ⊢
    rw [← ih, matmul_conj, matmul_conj]

theorem transferMatrixQs_conj (q : FP ℝ) :
    s.conj.transferMatrixQs q = Mat2.conj <$> s.transferMatrixQs q := by
  unfold transferMatrixQs
  have h1 : List.zipWith (· / ·) s.conj.eps.dropLast s.conj.eps.tail =
      (List.zipWith (· / ·) s.eps.dropLast s.eps.tail).map FP.conj := by
    show List.zipWith (· / ·) (s.eps.map FP.conj).dropLast (s.eps.map FP.conj).tail = _
    rw [List.map_zipWith, ← List.map_tail, ← List.map_dropLast, List.zipWith_map]
    congr 1
    funext a b
    rw [FP.conj_div]
  simp only [h1, conj_multilayer]
  cases List.zipWith (· / ·) s.eps.dropLast s.eps.tail with
  | nil => rfl
  | cons a l =>
    simp only [List.map_cons]
    split_ifs with hm
    · simp only [PyM.map_ok]
      rw [interface_conj, ← chain_conj]
      congr 2
      show _ = List.map (Prod.map Mat2.conj Mat2.conj) _
      rw [← List.zip_map]
      congr 1
      · simp [interface_conj]
      · simp only [List.map_map]
        apply List.map_congr_left
        intro p _
        simp [propagation_conj]
    · simp only [PyM.map_ok]
      rw [interface_conj]
      simp [Mat2.conj, FP.conj_mul, FP.conj_ofR]

theorem reflCoefQs_conj (q : FP ℝ) : s.conj.reflCoefQs q = FP.conj <$> s.reflCoefQs q := by
  unfold reflCoefQs
  rw [transferMatrixQs_conj]
  cases s.transferMatrixQs q with
  | error e => rfl
  | ok M => simp [Mat2.conj, FP.conj_div]

theorem transCoefQs_conj (q : FP ℝ) : s.conj.transCoefQs q = FP.conj <$> s.transCoefQs q := by
  unfold transCoefQs
  rw [transferMatrixQs_conj]
  cases s.transferMatrixQs q with
  | error e => rfl
  | ok M => simp [Mat2.conj, FP.conj_div, FP.conj_clit]

theorem body_conj (w : FP ℝ) (q : FP ℝ) :
    (s.conj.reflCoefQs q >>= fun b => (pure (ofR w * b) : PyM (FP ℂ))) =
      FP.conj <$> (s.reflCoefQs q >>= fun b => (pure (ofR w * b) : PyM (FP ℂ))) := by
  rw [reflCoefQs_conj]
  cases s.reflCoefQs q with
  | error e => rfl
  | ok v => simp [FP.conj_mul, FP.conj_ofR]

theorem reflCoefQsAboveSurf_conj (env : Env) (z : FP ℝ) (nLag : Option ℕ) :
    s.conj.reflCoefQsAboveSurf env.conj z nLag =
      FP.conj <$> s.reflCoefQsAboveSurf env z nLag := by
  unfold reflCoefQsAboveSurf
  show (env.lagRule (nLag.getD env.defaults.nLag)) >>= _ = _
  cases env.lagRule (nLag.getD env.defaults.nLag) with
  | error e => rfl
  | ok rule =>
    simp only [PyM.ok_bind]
    rw [reflCoefQs_conj]
    cases s.reflCoefQs z with
    | error e => rfl
    | ok v =>
      simp only [PyM.map_ok, PyM.ok_bind]
      exact quad0_conj rule [.inr v] [.inr v.conj]
        fun x w => body_conj s (w * x) (x / (lit 2 * z))

theorem surfPotAndField_conj (env : Env) (z : FP ℝ) (nLag : Option ℕ) :
    s.conj.surfPotAndField env.conj z nLag =
      (fun p => (FP.conj p.1, FP.conj p.2)) <$> s.surfPotAndField env z nLag := by
  unfold surfPotAndField
  show (env.lagRule (nLag.getD env.defaults.nLag)) >>= _ = _
  cases env.lagRule (nLag.getD env.defaults.nLag) with
  | error e => rfl
  | ok rule =>
    simp only [PyM.ok_bind]
    rw [reflCoefQs_conj]
    cases s.reflCoefQs z with
    | error e => rfl
    | ok v =>
      simp only [PyM.map_ok, PyM.ok_bind]
      have h1 := quad0_conj rule [.inr v] [.inr v.conj] fun x w => body_conj s w (x / (lit 2 * z))
      have h2 := quad0_conj rule [.inr v] [.inr v.conj]
        fun x w => body_conj s (w * x) (x / (lit 2 * z))
      simp only [h1, h2]
      cases (CplxOps.quad0 rule [.inr v] fun x w => s.reflCoefQs (x / (lit 2 * z)) >>= fun b =>
          (pure (ofR w * b) : PyM (FP ℂ)) : PyM (FP ℂ)) with
      | error e => rfl
      | ok a =>
        cases (CplxOps.quad0 rule [.inr v] fun x w => s.reflCoefQs (x / (lit 2 * z)) >>= fun b =>
          (pure (ofR (w * x) * b) : PyM (FP ℂ)) : PyM (FP ℂ)) with
        | error e => rfl
        | ok b => simp [FP.conj_div, FP.conj_ofR]

theorem imageDepthAndCharge_conj (env : Env) (z : FP ℝ) (nLag : Option ℕ) :
    s.conj.imageDepthAndCharge env.conj z nLag =
      (fun p => (p.1, FP.conj p.2)) <$> s.imageDepthAndCharge env z nLag := by
  unfold imageDepthAndCharge
  rw [surfPotAndField_conj]
  cases s.surfPotAndField env z nLag with
  | error e => rfl
  | ok p => simp [← FP.conj_div, FP.cabs_conj, ← FP.conj_cpow]

end Stack

/-- The tip arguments with the complex one conjugated. -/
def FdmArgs.conj (a : FdmArgs (FP ℝ) (FP ℂ)) : FdmArgs (FP ℝ) (FP ℂ) :=
  { a with gFactor := a.gFactor.map FP.conj }

/-- The same for filled-in arguments. -/
def FdmTip.conj (a : FdmTip (FP ℝ) (FP ℂ)) : FdmTip (FP ℝ) (FP ℂ) :=
  { a with gFactor := a.gFactor.conj }

theorem fdm_conj (env : Env) (a : FdmArgs (FP ℝ) (FP ℂ)) :
    env.conj.defaults.fdm a.conj = (env.defaults.fdm a).conj := by
  unfold Defaults.fdm FdmArgs.conj FdmTip.conj
  cases a.gFactor <;> rfl

/-- The tip arguments with the complex ones conjugated. -/
def PdmArgs.conj (a : PdmArgs (FP ℝ) (FP ℂ)) : PdmArgs (FP ℝ) (FP ℂ) :=
  { a with epsTip := a.epsTip.map FP.conj, alphaTip := a.alphaTip.map FP.conj }

theorem pdm_conj (env : Env) (a : PdmArgs (FP ℝ) (FP ℂ)) :
    (env.conj.defaults.pdm a.conj : PyM (FP ℝ × FP ℂ)) =
      (fun p => (p.1, FP.conj p.2)) <$> env.defaults.pdm a := by
  unfold Defaults.pdm PdmArgs.conj
  cases a.epsTip <;> cases a.alphaTip <;>
    simp [Env.conj, FP.conj_div, FP.conj_mul, FP.conj_sub, FP.conj_add, FP.conj_ofR, FP.conj_clit]

namespace Fdm

theorem geomFunc_conj (z d r l : FP ℝ) (g : FP ℂ) :
    geomFunc z d r l g.conj = (geomFunc z d r l g).conj := by
  simp [geomFunc, FP.conj_div, FP.conj_mul, FP.conj_sub, FP.conj_ofR]

theorem geomFuncMulti_conj (z d r l : FP ℝ) (g : FP ℂ) :
    geomFuncMulti z d r l g.conj = (geomFuncMulti z d r l g).conj := by
  simp [geomFuncMulti, FP.conj_div, FP.conj_mul, FP.conj_sub, FP.conj_ofR]

theorem effPolFormula_conj (a b c d : FP ℂ) :
    effPolFormula a.conj b.conj c.conj d.conj = (effPolFormula a b c d).conj := by
  simp [effPolFormula, FP.conj_div, FP.conj_mul, FP.conj_sub, FP.conj_add, FP.conj_clit]

theorem effPol_conj (env : Env) (s : Stack (FP ℝ) (FP ℂ)) (z : Option (FP ℝ))
    (a : FdmArgs (FP ℝ) (FP ℂ)) (nLag : Option ℕ) (method : Option String) :
    effPol env.conj s.conj z a.conj nLag method = FP.conj <$> effPol env s z a nLag method := by
  unfold effPol
  simp only [fdm_conj, Stack.conj_multilayer, Stack.reflCoefQs_conj,
    Stack.imageDepthAndCharge_conj, Stack.reflCoefQsAboveSurf_conj]
  generalize method.getD (if s.multilayer then "multi" else "bulk") = m
  by_cases h1 : m = "bulk"
  · by_cases hm : s.multilayer
    · simp [h1, hm]
    simp only [h1, hm, if_true, if_false, Bool.false_eq_true]
    cases s.reflCoefQs with
    | error e => rfl
    | ok b => simp [FdmTip.conj, geomFunc_conj, effPolFormula_conj, Env.conj]
  by_cases h2 : m = "multi"
  · simp only [h2, if_true, if_false, FdmTip.conj, Env.conj, String.reduceEq]
    cases s.imageDepthAndCharge env
      (z.getD (lit env.defaults.zTip) + (env.defaults.fdm a).rTip * (env.defaults.fdm a).dQ0)
        nLag with
    | error e => rfl
    | ok b =>
      cases s.imageDepthAndCharge env
        (z.getD (lit env.defaults.zTip) + (env.defaults.fdm a).rTip * (env.defaults.fdm a).dQ1)
          nLag with
      | error e => rfl
      | ok c => simp [geomFuncMulti_conj, effPolFormula_conj]
  by_cases h3 : m = "Q_ave"
  · simp only [h3, if_true, if_false, FdmTip.conj, Env.conj, String.reduceEq]
    cases s.reflCoefQsAboveSurf env
      (z.getD (lit env.defaults.zTip) + (env.defaults.fdm a).rTip * (env.defaults.fdm a).dQa)
        nLag with
    | error e => rfl
    | ok b => simp [geomFunc_conj, effPolFormula_conj]
  simp [h1, h2, h3]

theorem effPolN_conj (env : Env) (s : Stack (FP ℝ) (FP ℂ)) (A n : FP ℝ) (z : Option (FP ℝ))
    (nT : Option ℕ) (a : FdmArgs (FP ℝ) (FP ℂ)) (nLag : Option ℕ) (method : Option String) :
    effPolN env.conj s.conj A n z nT a.conj nLag method =
      FP.conj <$> effPolN env s A n z nT a nLag method :=
  demod_conj env (fun x => effPol_conj env s (some x) a nLag method) _ _ _ _

theorem taylorCoef_conj (env : Env) (z : FP ℝ) (j : ℤ) (A n r l : FP ℝ) (g : FP ℂ) (d0 d1 : FP ℝ)
    (nT : Option ℕ) :
    taylorCoef env.conj z j A n r l g.conj d0 d1 nT =
      FP.conj <$> taylorCoef env z j A n r l g d0 d1 nT := by
  have h := demod_conj env (f := fun x => pure (geomFuncTaylor x j r l g d0 d1))
    (g := fun x => pure (geomFuncTaylor x j r l g.conj d0 d1))
    (fun x => by simp [geomFuncTaylor, geomFunc_conj, FP.conj_mul, FP.conj_jpow]) (z + A) A n nT
  unfold taylorCoef
  simp only [h]
  cases demod env (fun x => pure (geomFuncTaylor x j r l g d0 d1)) (z + A) A n nT with
  | error e => rfl
  | ok v =>
    simp only [PyM.map_ok, PyM.ok_bind, PyM.pure_eq_ok]
    classical
    show Except.ok (if j = 0 then if n = FP.num 0 then _ else _ else _) =
      Except.ok (FP.conj (if j = 0 then if n = FP.num 0 then _ else _ else _))
    split_ifs <;> simp [FP.conj_div, FP.conj_clit]

theorem taylorBeta_conj (env : Env) (s : Stack (FP ℝ) (FP ℂ)) (z : FP ℝ)
    (p : FdmTip (FP ℝ) (FP ℂ)) (nLag : Option ℕ) (method : Option String) :
    taylorBeta env.conj s.conj z p.conj nLag method =
      FP.conj <$> taylorBeta env s z p nLag method := by
  unfold taylorBeta
  simp only [Stack.conj_multilayer, Stack.reflCoefQs_conj, Stack.reflCoefQsAboveSurf_conj]
  generalize method.getD (if s.multilayer then "Q_ave" else "bulk") = m
  by_cases h1 : m = "bulk"
  · by_cases hm : s.multilayer <;> simp [h1, hm]
  by_cases h2 : m = "Q_ave"
  · simp [h2, FdmTip.conj]
  simp [h1, h2]

theorem effPolNTaylor_conj (env : Env) (s : Stack (FP ℝ) (FP ℂ)) (A n : FP ℝ) (z : Option (FP ℝ))
    (a : FdmArgs (FP ℝ) (FP ℂ)) (nLag : Option ℕ) (method : Option String) (nT nTayl : Option ℕ) :
    effPolNTaylor env.conj s.conj A n z a.conj nLag method nT nTayl =
      FP.conj <$> effPolNTaylor env s A n z a nLag method nT nTayl := by
  unfold effPolNTaylor
  simp only [fdm_conj, taylorBeta_conj]
  show (_ <$> taylorBeta env s (z.getD (lit env.defaults.zTip)) _ _ _) >>= _ = _
  cases taylorBeta env s (z.getD (lit env.defaults.zTip)) (env.defaults.fdm a) nLag method with
  | error e => rfl
  | ok b =>
    simp only [PyM.map_ok, PyM.ok_bind]
    refine series0_conj _ _ _ fun j => ?_
    rw [show (env.defaults.fdm a).conj.gFactor = (env.defaults.fdm a).gFactor.conj from rfl,
      taylorCoef_conj]
    show (_ <$> taylorCoef env (z.getD (lit env.defaults.zTip)) j A n (env.defaults.fdm a).rTip
      (env.defaults.fdm a).lTip (env.defaults.fdm a).gFactor (env.defaults.fdm a).dQ0
      (env.defaults.fdm a).dQ1 nT) >>= _ = _
    cases taylorCoef env (z.getD (lit env.defaults.zTip)) j A n (env.defaults.fdm a).rTip
      (env.defaults.fdm a).lTip (env.defaults.fdm a).gFactor (env.defaults.fdm a).dQ0
      (env.defaults.fdm a).dQ1 nT with
    | error e => rfl
    | ok c => simp [FP.conj_mul, FP.conj_jpow]

theorem reflCoefQsFromEffPol_conj (env : Env) (α : FP ℂ) (z : Option (FP ℝ))
    (a : FdmArgs (FP ℝ) (FP ℂ)) :
    reflCoefQsFromEffPol env.conj α.conj z a.conj = (reflCoefQsFromEffPol env α z a).conj := by
  unfold reflCoefQsFromEffPol
  rw [fdm_conj]
  simp [FdmTip.conj, geomFunc_conj, FP.conj_div, FP.conj_mul, FP.conj_sub, FP.conj_add,
    FP.conj_clit, show env.conj.defaults.zTip = env.defaults.zTip from rfl]

end Fdm

namespace Pdm

theorem geomFunc_conj (z r : FP ℝ) (α : FP ℂ) :
    geomFunc z r α.conj = (geomFunc z r α).conj := by
  simp [geomFunc, FP.conj_div, FP.conj_ofR]

theorem effPol_conj (env : Env) (s : Stack (FP ℝ) (FP ℂ)) (z : Option (FP ℝ))
    (a : PdmArgs (FP ℝ) (FP ℂ)) :
    effPol env.conj s.conj z a.conj = FP.conj <$> effPol env s z a := by
  unfold effPol
  simp only [pdm_conj, Stack.reflCoefQs_conj]
  cases (env.defaults.pdm a : PyM (FP ℝ × FP ℂ)) with
  | error e => rfl
  | ok p =>
    simp only [PyM.map_ok, PyM.ok_bind]
    cases s.reflCoefQs with
    | error e => rfl
    | ok b => simp [geomFunc_conj, FP.conj_div, FP.conj_mul, FP.conj_sub, FP.conj_clit, Env.conj]

theorem effPolN_conj (env : Env) (s : Stack (FP ℝ) (FP ℂ)) (A n : FP ℝ) (z : Option (FP ℝ))
    (nT : Option ℕ) (a : PdmArgs (FP ℝ) (FP ℂ)) :
    effPolN env.conj s.conj A n z nT a.conj = FP.conj <$> effPolN env s A n z nT a :=
  demod_conj env (fun x => effPol_conj env s (some x) a) _ _ _ _

theorem taylorCoef_conj (env : Env) (z : FP ℝ) (j : ℤ) (A n r : FP ℝ) (α : FP ℂ)
    (nT : Option ℕ) :
    taylorCoef env.conj z j A n r α.conj nT = FP.conj <$> taylorCoef env z j A n r α nT :=
  demod_conj env (f := fun x => pure (CplxOps.jpow (geomFunc x r α) j))
    (g := fun x => pure (CplxOps.jpow (geomFunc x r α.conj) j))
    (fun x => by simp [geomFunc_conj, FP.conj_jpow]) (z + A) A n nT

theorem effPolNTaylor_conj (env : Env) (s : Stack (FP ℝ) (FP ℂ)) (A n : FP ℝ) (z : Option (FP ℝ))
    (a : PdmArgs (FP ℝ) (FP ℂ)) (nT nTayl : Option ℕ) :
    effPolNTaylor env.conj s.conj A n z a.conj nT nTayl =
      FP.conj <$> effPolNTaylor env s A n z a nT nTayl := by
  unfold effPolNTaylor
  simp only [pdm_conj, Stack.reflCoefQs_conj]
  cases (env.defaults.pdm a : PyM (FP ℝ × FP ℂ)) with
  | error e => rfl
  | ok p =>
    simp only [PyM.map_ok, PyM.ok_bind]
    cases s.reflCoefQs with
    | error e => rfl
    | ok b =>
      simp only [PyM.map_ok, PyM.ok_bind]
      refine series0_conj _ _ _ fun j => ?_
      rw [taylorCoef_conj]
      show (_ <$> taylorCoef env (z.getD (lit env.defaults.zTip)) j A n p.1 p.2 nT) >>= _ = _
      cases taylorCoef env (z.getD (lit env.defaults.zTip)) j A n p.1 p.2 nT with
      | error e => rfl
      | ok c => simp [FP.conj_mul, FP.conj_jpow]

theorem reflCoefQsFromEffPol_conj (env : Env) (α : FP ℂ) (z : Option (FP ℝ))
    (a : PdmArgs (FP ℝ) (FP ℂ)) :
    reflCoefQsFromEffPol env.conj α.conj z a.conj =
      FP.conj <$> reflCoefQsFromEffPol env α z a := by
  unfold reflCoefQsFromEffPol
  simp only [pdm_conj]
  cases (env.defaults.pdm a : PyM (FP ℝ × FP ℂ)) with
  | error e => rfl
  | ok p => simp [geomFunc_conj, FP.conj_div, FP.conj_mul, FP.conj_sub, Env.conj]

end Pdm

end Snompy
