import Verif.Spec.Signed
import Verif.Lemmas.Ints
import Verif.Lemmas.GenProps

/-!
# Lemmas on signed zeros
-/

namespace Snompy

/-! ## Everything without roots -/

theorem View.quadS {rule : List (ℝ × ℝ)} {p p'} {body : SgR → SgR → PyM SgC} {body' : FP ℝ → FP ℝ → PyM (FP ℂ)}
    (h : ∀ x y : ℝ, View SgC.val (body ⟨.num x, false⟩ ⟨.num y, false⟩) (body' (.num x) (.num y))) :
    View SgC.val (CplxOps.quad0 rule p body) (CplxOps.quad0 rule p' body') :=
  (View.mapM rule fun xw _ => h xw.1 xw.2).bind fun _ _ => View.ok rfl

theorem View.trapzS {grid : List ℝ} {p p'} {body : SgR → PyM SgC} {body' : FP ℝ → PyM (FP ℂ)}
    (h : ∀ x : ℝ, View SgC.val (body ⟨.num x, false⟩) (body' (.num x))) :
    View SgC.val (CplxOps.trapz0 grid p body) (CplxOps.trapz0 grid p' body') :=
  (View.mapM grid fun x _ => h x).bind fun _ _ => View.ok rfl

theorem View.seriesS {n : ℕ} {p p'} {body : ℤ → PyM SgC} {body' : ℤ → PyM (FP ℂ)}
    (h : ∀ j : ℕ, View SgC.val (body j) (body' j)) :
    View SgC.val (CplxOps.series0 (C := SgC) n p body) (CplxOps.series0 n p' body') :=
  (View.mapM (List.range n) fun x _ => h x).bind fun _ _ => View.ok rfl

theorem SgC.whereR_val (n : SgR) (x y : SgC) : (CplxOps.whereR n x y : SgC).val = CplxOps.whereR n.val x.val y.val := by
  by_cases h : n.val = FP.num 0
  · have e1 : (CplxOps.whereR n x y : SgC) = x := if_pos h
    have e2 : (CplxOps.whereR n.val x.val y.val : FP ℂ) = x.val := if_pos h
    rw [e1, e2]
  · have e1 : (CplxOps.whereR n x y : SgC) = y := if_neg h
    have e2 : (CplxOps.whereR n.val x.val y.val : FP ℂ) = y.val := if_neg h
    rw [e1, e2]

theorem SgC.whereJ_val (j : ℤ) (x y : SgC) : (CplxOps.whereJ j x y : SgC).val = CplxOps.whereJ j x.val y.val := by
  show (ite _ _ _ : SgC).val = ite _ _ _
  split_ifs <;> rfl

theorem SgC.div_val (x y : SgC) : (x / y).val = x.val / y.val := rfl
section rules
theorem SgC.add_val (x y : SgC) : (x + y).val = x.val + y.val := rfl
theorem SgC.sub_val (x y : SgC) : (x - y).val = x.val - y.val := rfl
theorem SgC.mul_val (x y : SgC) : (x * y).val = x.val * y.val := rfl
theorem SgC.clit_val (z : ℂ) : (clit z : SgC).val = clit z := rfl
theorem SgC.ofR_val (x : SgR) : (ofR x : SgC).val = ofR x.val := rfl
theorem SgC.exp_val (x : SgC) : (CplxOps.exp x : SgC).val = CplxOps.exp x.val := rfl
theorem SgC.cabs_val (x : SgC) : (CplxOps.cabs x : SgR).val = CplxOps.cabs x.val := rfl
theorem SgC.cpow_val (x : SgC) (n : ℕ) : (CplxOps.cpow x n : SgC).val = CplxOps.cpow x.val n := rfl
theorem SgC.jpow_val (x : SgC) (n : ℤ) : (CplxOps.jpow x n : SgC).val = CplxOps.jpow x.val n := rfl
theorem SgR.add_val (x y : SgR) : (x + y).val = x.val + y.val := rfl
theorem SgR.sub_val (x y : SgR) : (x - y).val = x.val - y.val := rfl
theorem SgR.mul_val (x y : SgR) : (x * y).val = x.val * y.val := rfl
theorem SgR.div_val (x y : SgR) : (x / y).val = x.val / y.val := rfl
theorem SgR.lit_val (x : ℝ) : (lit x : SgR).val = lit x := rfl
theorem SgR.log_val (x : SgR) : (RealOps.log x).val = RealOps.log x.val := rfl
theorem SgR.cos_val (x : SgR) : (RealOps.cos x).val = RealOps.cos x.val := rfl
theorem SgR.npow_val (x : SgR) (n : ℕ) : (RealOps.npow x n).val = RealOps.npow x.val n := rfl
end rules

/-- All operations but the root. -/
macro "sgn" : tactic => `(tactic| simp only [SgC.div_val, SgC.whereR_val, SgC.whereJ_val, SgC.add_val, SgC.sub_val, SgC.mul_val,
  SgC.clit_val, SgC.ofR_val, SgC.exp_val, SgC.cabs_val, SgC.cpow_val, SgC.jpow_val, SgR.add_val, SgR.sub_val, SgR.mul_val,
  SgR.div_val, SgR.lit_val, SgR.log_val, SgR.cos_val, SgR.npow_val])

theorem matmul_unsigned (M N : Mat2 SgC) : (M.matmul N).unsigned = M.unsigned.matmul N.unsigned := by
  unfold Mat2.unsigned Mat2.matmul
  rfl

theorem interface_unsigned (x : SgC) : (Stack.interface x).unsigned = Stack.interface x.val := by
  unfold Mat2.unsigned Stack.interface
  sgn

theorem propagation_unsigned (a b : ℂ) (x : SgC) : (Stack.propagation a b x).unsigned = Stack.propagation a b x.val := by
  unfold Mat2.unsigned Stack.propagation
  sgn

theorem chain_unsigned (M : Mat2 SgC) (l : List (Mat2 SgC × Mat2 SgC)) :
    (Stack.chain M l).unsigned = Stack.chain M.unsigned (l.map fun p => (p.1.unsigned, p.2.unsigned)) := by
  unfold Stack.chain
  induction l generalizing M with
  | nil => rfl
  | cons p l ih =>
    simp only [List.foldl_cons, List.map_cons]
    rw [ih]
    rfl

theorem plain_multilayer (s : Stack SgR SgC) : s.plain.multilayer = s.multilayer := by
  simp [Stack.multilayer, Stack.nLayers, Stack.plain]

theorem zip_unsigned (l m : List (Mat2 SgC)) :
    (l.zip m).map (fun p => (p.1.unsigned, p.2.unsigned)) = (l.map Mat2.unsigned).zip (m.map Mat2.unsigned) := by
  rw [List.zip_map]
  rfl

theorem interfaces_unsigned (l : List SgC) :
    (l.map Stack.interface).map Mat2.unsigned = (l.map SgC.val).map Stack.interface := by
  rw [List.map_map, List.map_map]
  exact List.map_congr_left fun x _ => interface_unsigned x

theorem transferMatrixQs_sg (s : Stack SgR SgC) (q : SgR) :
    View Mat2.unsigned (s.transferMatrixQs q) (s.plain.transferMatrixQs q.val) := by
  unfold Stack.transferMatrixQs
  dsimp only
  have e1 : List.map Stack.interface (List.zipWith (· / ·) s.plain.eps.dropLast s.plain.eps.tail) =
      (List.map Stack.interface (List.zipWith (· / ·) s.eps.dropLast s.eps.tail)).map Mat2.unsigned := by
    rw [interfaces_unsigned]
    show List.map Stack.interface (List.zipWith (· / ·) (s.eps.map SgC.val).dropLast (s.eps.map SgC.val).tail) = _
    rw [← List.map_dropLast, ← List.map_tail, List.zipWith_map, List.map_zipWith (f := SgC.val)]
    simp only [SgC.div_val]
  rw [e1, plain_multilayer]
  generalize List.map Stack.interface (List.zipWith (· / ·) s.eps.dropLast s.eps.tail) = l
  cases l with
  | nil => exact View.error _
  | cons T0 Ts =>
    simp only [List.map_cons]
    split_ifs
    · refine View.ok ?_
      rw [chain_unsigned, zip_unsigned]
      congr 2
      rw [show s.plain.t = s.t.map SgR.val from rfl, List.map_map, List.map_map, List.map_map, List.map_map]
      refine List.map_congr_left fun t ht => ?_
      exact propagation_unsigned 1 (-1) (ofR (RealOps.clip (-maxExpArg) maxExpArg (q * t)))
    · exact View.ok rfl

theorem reflCoefQs_sg (s : Stack SgR SgC) (q : SgR) : View SgC.val (s.reflCoefQs q) (s.plain.reflCoefQs q.val) :=
  (transferMatrixQs_sg s q).bind fun _ _ => View.ok rfl

theorem transCoefQs_sg (s : Stack SgR SgC) (q : SgR) : View SgC.val (s.transCoefQs q) (s.plain.transCoefQs q.val) :=
  (transferMatrixQs_sg s q).bind fun _ _ => View.ok rfl

theorem reflCoefQs0_sg (s : Stack SgR SgC) : View SgC.val s.reflCoefQs s.plain.reflCoefQs := reflCoefQs_sg s (lit 0)

theorem reflCoefQs_divS (s : Stack SgR SgC) (z : SgR) (x : ℝ) :
    View SgC.val (s.reflCoefQs (⟨.num x, false⟩ / (lit 2 * z))) (s.plain.reflCoefQs (.num x / (lit 2 * z.val))) := by
  have h := reflCoefQs_sg s (⟨.num x, false⟩ / (lit 2 * z))
  rw [SgR.div_val, SgR.mul_val, SgR.lit_val] at h
  exact h

theorem reflCoefQsAboveSurf_sg (s : Stack SgR SgC) (env : Env) (z : SgR) (nLag : Option ℕ) :
    View SgC.val (s.reflCoefQsAboveSurf env z nLag) (s.plain.reflCoefQsAboveSurf env z.val nLag) := by
  unfold Stack.reflCoefQsAboveSurf
  refine (View.refl (env.lagRule (nLag.getD env.defaults.nLag))).bind fun rule _ => (reflCoefQs_sg s z).bind fun like _ =>
    View.quadS fun x y => ?_
  exact (reflCoefQs_divS s z x).bind fun b _ => View.ok rfl

theorem surfPotAndField_sg (s : Stack SgR SgC) (env : Env) (z : SgR) (nLag : Option ℕ) :
    View (Prod.map SgC.val SgC.val) (s.surfPotAndField env z nLag) (s.plain.surfPotAndField env z.val nLag) := by
  unfold Stack.surfPotAndField
  refine (View.refl (env.lagRule (nLag.getD env.defaults.nLag))).bind fun rule _ => (reflCoefQs_sg s z).bind fun like _ =>
    View.bind (View.quadS fun x y => ?_) fun phi _ => View.bind (View.quadS fun x y => ?_) fun e _ => View.ok ?_
  · exact (reflCoefQs_divS s z x).bind fun b _ => View.ok rfl
  · exact (reflCoefQs_divS s z x).bind fun b _ => View.ok rfl
  · rfl

theorem imageDepthAndCharge_sg (s : Stack SgR SgC) (env : Env) (z : SgR) (nLag : Option ℕ) :
    View (Prod.map SgR.val SgC.val) (s.imageDepthAndCharge env z nLag) (s.plain.imageDepthAndCharge env z.val nLag) := by
  refine (surfPotAndField_sg s env z nLag).bind fun v _ => View.ok ?_
  rfl

theorem demod_sg (env : Env) {f : SgR → PyM SgC} {g : FP ℝ → PyM (FP ℂ)} (x0 amp n : SgR) (nT : Option ℕ)
    (hf : ∀ x : SgR, View SgC.val (f x) (g x.val)) :
    View SgC.val (demod env f x0 amp n nT) (demod env g x0.val amp.val n.val nT) := by
  refine (hf (x0 + lit 0 * amp)).bind fun p _ => View.bind (View.trapzS fun θ => ?_) fun t _ => View.ok (by sgn)
  have h : View SgC.val (f (x0 + RealOps.cos ⟨.num θ, false⟩ * amp)) (g (x0.val + RealOps.cos (.num θ) * amp.val)) := hf _
  exact h.bind fun v _ => View.ok rfl

theorem getD_sg (z : Option SgR) (x : ℝ) : (z.getD (lit x)).val = (z.map SgR.val).getD (lit x) := by cases z <;> rfl

theorem pdmGeom_sg (z r : SgR) (al : SgC) : (Pdm.geomFunc z r al).val = Pdm.geomFunc z.val r.val al.val := by
  unfold Pdm.geomFunc
  sgn

theorem pdmDefaults_sg (d : Defaults) (a : PdmArgs SgR SgC) : View (Prod.map SgR.val SgC.val) (d.pdm a) (d.pdm a.plain) := by
  obtain ⟨r, e, al⟩ := a
  unfold Defaults.pdm PdmArgs.plain
  cases e <;> cases al
  · exact View.ok (Prod.ext (getD_sg _ _) (by cases r <;> rfl))
  · exact View.ok (Prod.ext (getD_sg _ _) rfl)
  · refine View.ok (Prod.ext (getD_sg _ _) ?_)
    cases r <;> rfl
  · exact View.error _

theorem pdmEffPol_sg (env : Env) (s : Stack SgR SgC) (z : Option SgR) (a : PdmArgs SgR SgC) :
    View SgC.val (Pdm.effPol env s z a) (Pdm.effPol env s.plain (z.map SgR.val) a.plain) := by
  unfold Pdm.effPol
  refine (pdmDefaults_sg env.defaults a).bind fun v hv => (reflCoefQs0_sg s).bind fun β _ => View.ok ?_
  rw [← getD_sg]
  rfl

/-- The numbers of a tip. -/
def FdmTip.unsigned (p : FdmTip SgR SgC) : FdmTip (FP ℝ) (FP ℂ) :=
  ⟨p.rTip.val, p.lTip.val, p.gFactor.val, p.dQ0.val, p.dQ1.val, p.dQa.val⟩

theorem fdmDefaults_sg (d : Defaults) (a : FdmArgs SgR SgC) : (d.fdm a).unsigned = d.fdm a.plain := by
  obtain ⟨r, l, g, d0, d1, dA⟩ := a
  unfold FdmTip.unsigned Defaults.fdm FdmArgs.plain
  simp only [getD_sg]
  refine congrArg₂ (fun x y => FdmTip.mk _ _ x y _ _) ?_ ?_
  · cases g <;> rfl
  · rw [← getD_sg, ← getD_sg]
    cases d0 <;> rfl

theorem fdmGeom_sg (z d r l : SgR) (g : SgC) : (Fdm.geomFunc z d r l g).val = Fdm.geomFunc z.val d.val r.val l.val g.val := by
  unfold Fdm.geomFunc
  sgn

theorem fdmGeomMulti_sg (z d r l : SgR) (g : SgC) :
    (Fdm.geomFuncMulti z d r l g).val = Fdm.geomFuncMulti z.val d.val r.val l.val g.val := by
  unfold Fdm.geomFuncMulti
  sgn

theorem effPolFormula_sg (a b c d : SgC) : (Fdm.effPolFormula a b c d).val = Fdm.effPolFormula a.val b.val c.val d.val := by
  unfold Fdm.effPolFormula
  sgn

theorem fdmEffPol_sg (env : Env) (s : Stack SgR SgC) (z : Option SgR) (a : FdmArgs SgR SgC) (nLag : Option ℕ) (m : Option String) :
    View SgC.val (Fdm.effPol env s z a nLag m) (Fdm.effPol env s.plain (z.map SgR.val) a.plain nLag m) := by
  unfold Fdm.effPol
  dsimp only
  rw [plain_multilayer, ← getD_sg, ← fdmDefaults_sg]
  generalize m.getD (if s.multilayer = true then "multi" else "bulk") = meth
  generalize z.getD (lit env.defaults.zTip) = x
  generalize env.defaults.fdm a = p
  obtain ⟨r, l, g, d0, d1, dA⟩ := p
  dsimp only [FdmTip.unsigned] at *
  split_ifs
  · exact View.error _
  · refine (reflCoefQs0_sg s).bind fun β _ => View.ok ?_
    rw [effPolFormula_sg, fdmGeom_sg, fdmGeom_sg]
  · refine (imageDepthAndCharge_sg s env (x + r * d0) nLag).bind fun u hu =>
      (imageDepthAndCharge_sg s env (x + r * d1) nLag).bind fun v hv => View.ok ?_
    dsimp only [Prod.map_fst, Prod.map_snd]
    rw [effPolFormula_sg, fdmGeomMulti_sg, fdmGeomMulti_sg]
  · refine (reflCoefQsAboveSurf_sg s env (x + r * dA) nLag).bind fun β _ => View.ok ?_
    rw [effPolFormula_sg, fdmGeom_sg, fdmGeom_sg]
  · exact View.error _

theorem fdmEffPolN_sg (env : Env) (s : Stack SgR SgC) (aTip n : SgR) (z : Option SgR) (nT : Option ℕ)
    (a : FdmArgs SgR SgC) (nLag : Option ℕ) (m : Option String) :
    View SgC.val (Fdm.effPolN env s aTip n z nT a nLag m)
      (Fdm.effPolN env s.plain aTip.val n.val (z.map SgR.val) nT a.plain nLag m) := by
  unfold Fdm.effPolN
  dsimp only
  rw [← getD_sg]
  exact demod_sg (f := fun x => Fdm.effPol env s (some x) a nLag m)
    (g := fun x => Fdm.effPol env s.plain (some x) a.plain nLag m) env (z.getD (lit env.defaults.zTip) + aTip) aTip n nT
    fun x => fdmEffPol_sg env s (some x) a nLag m

theorem pdmEffPolN_sg (env : Env) (s : Stack SgR SgC) (aTip n : SgR) (z : Option SgR) (nT : Option ℕ) (a : PdmArgs SgR SgC) :
    View SgC.val (Pdm.effPolN env s aTip n z nT a) (Pdm.effPolN env s.plain aTip.val n.val (z.map SgR.val) nT a.plain) := by
  unfold Pdm.effPolN
  dsimp only
  rw [← getD_sg]
  exact demod_sg (f := fun x => Pdm.effPol env s (some x) a) (g := fun x => Pdm.effPol env s.plain (some x) a.plain) env
    (z.getD (lit env.defaults.zTip) + aTip) aTip n nT fun x => pdmEffPol_sg env s (some x) a

theorem fdmTaylorCoef_sg (env : Env) (z aTip r l d0 d1 n : SgR) (j : ℤ) (g : SgC) (nT : Option ℕ) :
    View SgC.val (Fdm.taylorCoef env z j aTip n r l g d0 d1 nT)
      (Fdm.taylorCoef env z.val j aTip.val n.val r.val l.val g.val d0.val d1.val nT) := by
  unfold Fdm.taylorCoef
  dsimp only
  refine (demod_sg (f := fun x => pure (Fdm.geomFuncTaylor x j r l g d0 d1))
    (g := fun x => pure (Fdm.geomFuncTaylor x j r.val l.val g.val d0.val d1.val)) env (z + aTip) aTip n nT fun x => View.ok ?_).bind
    fun d _ => View.ok ?_
  · unfold Fdm.geomFuncTaylor
    dsimp only
    rw [← fdmGeom_sg, ← fdmGeom_sg]
    sgn
    rfl
  · sgn

theorem fdmTaylorBeta_sg (env : Env) (s : Stack SgR SgC) (z : SgR) (p : FdmTip SgR SgC) (nLag : Option ℕ) (m : Option String) :
    View SgC.val (Fdm.taylorBeta env s z p nLag m) (Fdm.taylorBeta env s.plain z.val p.unsigned nLag m) := by
  unfold Fdm.taylorBeta
  dsimp only
  rw [plain_multilayer]
  generalize m.getD (if s.multilayer = true then "Q_ave" else "bulk") = meth
  split_ifs
  · exact View.error _
  · exact reflCoefQs0_sg s
  · exact reflCoefQsAboveSurf_sg s env (z + p.rTip * p.dQa) nLag
  · exact View.error _

theorem fdmEffPolNTaylor_sg (env : Env) (s : Stack SgR SgC) (aTip n : SgR) (z : Option SgR)
    (a : FdmArgs SgR SgC) (nLag : Option ℕ) (m : Option String) (nT nTayl : Option ℕ) :
    View SgC.val (Fdm.effPolNTaylor env s aTip n z a nLag m nT nTayl)
      (Fdm.effPolNTaylor env s.plain aTip.val n.val (z.map SgR.val) a.plain nLag m nT nTayl) := by
  unfold Fdm.effPolNTaylor
  dsimp only
  rw [← getD_sg, ← fdmDefaults_sg]
  refine (fdmTaylorBeta_sg env s _ _ nLag m).bind fun β _ => View.seriesS fun j => ?_
  exact (fdmTaylorCoef_sg env _ aTip _ _ _ _ n j _ nT).bind fun d _ => View.ok rfl

theorem pdmTaylorCoef_sg (env : Env) (z aTip r n : SgR) (j : ℤ) (al : SgC) (nT : Option ℕ) :
    View SgC.val (Pdm.taylorCoef env z j aTip n r al nT) (Pdm.taylorCoef env z.val j aTip.val n.val r.val al.val nT) := by
  unfold Pdm.taylorCoef
  dsimp only
  refine demod_sg (f := fun x => pure (CplxOps.jpow (Pdm.geomFunc x r al) j))
    (g := fun x => pure (CplxOps.jpow (Pdm.geomFunc x r.val al.val) j)) env (z + aTip) aTip n nT fun x => View.ok ?_
  rw [← pdmGeom_sg]
  rfl

theorem pdmEffPolNTaylor_sg (env : Env) (s : Stack SgR SgC) (aTip n : SgR) (z : Option SgR)
    (a : PdmArgs SgR SgC) (nT nTayl : Option ℕ) :
    View SgC.val (Pdm.effPolNTaylor env s aTip n z a nT nTayl)
      (Pdm.effPolNTaylor env s.plain aTip.val n.val (z.map SgR.val) a.plain nT nTayl) := by
  unfold Pdm.effPolNTaylor
  dsimp only
  rw [← getD_sg]
  refine (pdmDefaults_sg env.defaults a).bind fun v hv => (reflCoefQs0_sg s).bind fun β _ => View.seriesS fun j => ?_
  exact (pdmTaylorCoef_sg env _ aTip _ n j _ nT).bind fun d _ => View.ok rfl

theorem fdmInverse_sg (env : Env) (y : SgC) (z : Option SgR) (a : FdmArgs SgR SgC) :
    (Fdm.reflCoefQsFromEffPol env y z a).val = Fdm.reflCoefQsFromEffPol env y.val (z.map SgR.val) a.plain := by
  unfold Fdm.reflCoefQsFromEffPol
  dsimp only
  rw [← getD_sg, ← fdmDefaults_sg]
  dsimp only [FdmTip.unsigned]
  rw [← fdmGeom_sg, ← fdmGeom_sg]
  sgn

theorem pdmInverse_sg (env : Env) (y : SgC) (z : Option SgR) (a : PdmArgs SgR SgC) :
    View SgC.val (Pdm.reflCoefQsFromEffPol env y z a) (Pdm.reflCoefQsFromEffPol env y.val (z.map SgR.val) a.plain) := by
  unfold Pdm.reflCoefQsFromEffPol
  dsimp only
  rw [← getD_sg]
  refine (pdmDefaults_sg env.defaults a).bind fun v hv => View.ok ?_
  dsimp only [Prod.map_fst, Prod.map_snd]
  rw [← pdmGeom_sg]
  sgn

end Snompy
