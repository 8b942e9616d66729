import Verif.Lemmas.Analytic

/-!
# Analytic dependence of samples and tips

Real arguments belong to a class `Q` of functions: the constant ones, or the analytic ones.  In a sample with layers `q t` is clipped,
and the clipped products have to be analytic for the arguments in this class.
-/

namespace Snompy

open Filter Topology

variable {𝕜 : Type} [NontriviallyNormedField 𝕜] [NormedAlgebra 𝕜 ℂ] {E : Type} [NormedAddCommGroup E] [NormedSpace 𝕜 E] {w : E}

/-- A class of real numbers that depend analytically on the parameters, closed under arithmetic. -/
structure RealClass (𝕜 : Type) [NontriviallyNormedField 𝕜] [NormedAlgebra 𝕜 ℂ] {E : Type} [NormedAddCommGroup E] [NormedSpace 𝕜 E]
    (w : E) (Q : (E → FP ℝ) → FP ℝ → Prop) : Prop where
  an : ∀ {x x0}, Q x x0 → FPA 𝕜 w x x0
  const : ∀ x, Q (fun _ => x) x
  add : ∀ {x x0 y y0}, Q x x0 → Q y y0 → Q (fun a => x a + y a) (x0 + y0)
  mul : ∀ {x x0 y y0}, Q x x0 → Q y y0 → Q (fun a => x a * y a) (x0 * y0)
  div : ∀ {x x0 y y0}, Q x x0 → Q y y0 → Q (fun a => x a / y a) (x0 / y0)

theorem RealClass.analytic : RealClass 𝕜 w (FPA 𝕜 w) :=
  ⟨id, FPA.const, FPA.add, FPA.mul, FPA.div⟩

theorem RealClass.constant : RealClass 𝕜 w (fun x x0 => x = fun _ => x0) :=
  ⟨by rintro x x0 rfl; exact FPA.const _, fun _ => rfl, by rintro x x0 y y0 rfl rfl; rfl, by rintro x x0 y y0 rfl rfl; rfl,
    by rintro x x0 y y0 rfl rfl; rfl⟩

/-! ## Matrices -/

theorem LT.csum {l : E → List (FP ℂ)} {l0 : List (FP ℂ)} (h : LT (𝓝 w) (FPA 𝕜 w) l l0) :
    FPA 𝕜 w (fun a => FP.sum (l a)) (FP.sum l0) := by
  induction l0 generalizing l with
  | nil => exact (FPA.const _).congr (by filter_upwards [h] with a h1; rw [h1])
  | cons b l0 ih =>
    obtain ⟨x, t, h1, h2, h3⟩ := h
    exact (h2.cadd (ih h3)).congr (by filter_upwards [h1] with a h1; rw [h1]; rfl)

theorem LT.ctrapz {l : E → List (FP ℂ)} {l0 : List (FP ℂ)} (h : LT (𝓝 w) (FPA 𝕜 w) l l0) :
    FPA 𝕜 w (fun a => FP.trapz (l a)) (FP.trapz l0) :=
  LT.csum (LT.zipWith (f := fun _ a b => (a + b) / FP.num 2) (fun _ _ _ _ h1 h2 => (h1.cadd h2).cdiv (FPA.const _)) h.tail h.dropLast)

/-- The entries of a matrix are analytic. -/
def M4A (𝕜 : Type) [NontriviallyNormedField 𝕜] [NormedAlgebra 𝕜 ℂ] {E : Type} [NormedAddCommGroup E] [NormedSpace 𝕜 E] (w : E)
    (M : E → Mat2 (FP ℂ)) (M0 : Mat2 (FP ℂ)) : Prop :=
  FPA 𝕜 w (fun a => (M a).m00) M0.m00 ∧ FPA 𝕜 w (fun a => (M a).m01) M0.m01 ∧ FPA 𝕜 w (fun a => (M a).m10) M0.m10 ∧
    FPA 𝕜 w (fun a => (M a).m11) M0.m11

theorem M4A.congr {M N : E → Mat2 (FP ℂ)} {M0 : Mat2 (FP ℂ)} (h : M4A 𝕜 w M M0) (e : ∀ᶠ a in 𝓝 w, N a = M a) : M4A 𝕜 w N M0 :=
  ⟨h.1.congr (by filter_upwards [e] with a h; rw [h]), h.2.1.congr (by filter_upwards [e] with a h; rw [h]),
    h.2.2.1.congr (by filter_upwards [e] with a h; rw [h]), h.2.2.2.congr (by filter_upwards [e] with a h; rw [h])⟩

theorem M4A.matmul {M N : E → Mat2 (FP ℂ)} {M0 N0 : Mat2 (FP ℂ)} (h : M4A 𝕜 w M M0) (h' : M4A 𝕜 w N N0) :
    M4A 𝕜 w (fun a => (M a).matmul (N a)) (M0.matmul N0) :=
  ⟨(h.1.cmul h'.1).cadd (h.2.1.cmul h'.2.2.1), (h.1.cmul h'.2.1).cadd (h.2.1.cmul h'.2.2.2),
    (h.2.2.1.cmul h'.1).cadd (h.2.2.2.cmul h'.2.2.1), (h.2.2.1.cmul h'.2.1).cadd (h.2.2.2.cmul h'.2.2.2)⟩

theorem M4A.interface {x : E → FP ℂ} {x0 : FP ℂ} (h : FPA 𝕜 w x x0) : M4A 𝕜 w (fun a => Stack.interface (x a)) (Stack.interface x0) := by
  have c : ∀ z : ℂ, FPA 𝕜 w (fun _ => (clit z : FP ℂ)) (clit z) := fun z => FPA.const _
  exact ⟨((c 1).cadd ((c 1).cmul h)).cdiv (c 2), ((c 1).cadd ((c (-1)).cmul h)).cdiv (c 2), ((c 1).cadd ((c (-1)).cmul h)).cdiv (c 2),
    ((c 1).cadd ((c 1).cmul h)).cdiv (c 2)⟩

theorem M4A.propagation (u v : ℂ) {x : E → FP ℂ} {x0 : FP ℂ} (h : FPA 𝕜 w x x0) :
    M4A 𝕜 w (fun a => Stack.propagation u v (x a)) (Stack.propagation u v x0) := by
  have c : ∀ z : ℂ, FPA 𝕜 w (fun _ => (clit z : FP ℂ)) (clit z) := fun z => FPA.const _
  exact ⟨((c u).cmul h).exp.cmul (c 1), ((c v).cmul h).exp.cmul (c 0), ((c u).cmul h).exp.cmul (c 0), ((c v).cmul h).exp.cmul (c 1)⟩

theorem M4A.chain {M : E → Mat2 (FP ℂ)} {M0 : Mat2 (FP ℂ)} (h : M4A 𝕜 w M M0) {Ts Ps : E → List (Mat2 (FP ℂ))} {Ts0 Ps0 : List (Mat2 (FP ℂ))}
    (hT : LT (𝓝 w) (M4A 𝕜 w) Ts Ts0) (hP : LT (𝓝 w) (M4A 𝕜 w) Ps Ps0) :
    M4A 𝕜 w (fun a => Stack.chain (M a) ((Ts a).zip (Ps a))) (Stack.chain M0 (Ts0.zip Ps0)) := by
  have hz : LT (𝓝 w) (fun (x : E → Mat2 (FP ℂ) × Mat2 (FP ℂ)) x0 => M4A 𝕜 w (fun a => (x a).1) x0.1 ∧ M4A 𝕜 w (fun a => (x a).2) x0.2)
      (fun a => (Ts a).zip (Ps a)) (Ts0.zip Ps0) :=
    LT.zipWith (f := fun _ => Prod.mk) (fun _ _ _ _ h1 h2 => ⟨h1, h2⟩) hT hP
  exact LT.foldl (U := M4A 𝕜 w) (f := fun M tp => (M.matmul tp.2).matmul tp.1) (fun _ _ _ _ hM ht => (hM.matmul ht.2).matmul ht.1)
    (fun _ _ _ h e => h.congr e) hz h

/-! ## Samples -/

/-- The permittivities depend analytically on the parameters, and so do the clipped products for `q` in the class `Q`. -/
structure SAnalytic (𝕜 : Type) [NontriviallyNormedField 𝕜] [NormedAlgebra 𝕜 ℂ] {E : Type} [NormedAddCommGroup E] [NormedSpace 𝕜 E]
    (w : E) (Q : (E → FP ℝ) → FP ℝ → Prop) (s : E → Stack (FP ℝ) (FP ℂ)) (s0 : Stack (FP ℝ) (FP ℂ)) : Prop where
  eps : LT (𝓝 w) (FPA 𝕜 w) (fun a => (s a).eps) s0.eps
  t : ∀ {q q0}, Q q q0 → LT (𝓝 w) (FPA 𝕜 w) (fun a => (s a).t.map fun t => RealOps.clip (-maxExpArg) maxExpArg (q a * t))
    (s0.t.map fun t => RealOps.clip (-maxExpArg) maxExpArg (q0 * t))

variable {s : E → Stack (FP ℝ) (FP ℂ)} {s0 : Stack (FP ℝ) (FP ℂ)} {Q : (E → FP ℝ) → FP ℝ → Prop}

theorem SAnalytic.multilayer (h : SAnalytic 𝕜 w Q s s0) : ∀ᶠ a in 𝓝 w, (s a).multilayer = s0.multilayer := by
  filter_upwards [h.eps.length] with a ha
  simp [Stack.multilayer, Stack.nLayers, ha]

theorem SAnalytic.transferMatrixQs (h : SAnalytic 𝕜 w Q s s0) {q : E → FP ℝ} {q0 : FP ℝ} (hq : Q q q0) :
    PyT (𝓝 w) (M4A 𝕜 w) (fun a => (s a).transferMatrixQs (q a)) (s0.transferMatrixQs q0) := by
  have hT : LT (𝓝 w) (M4A 𝕜 w) (fun a => (List.zipWith (· / ·) (s a).eps.dropLast (s a).eps.tail).map Stack.interface)
      ((List.zipWith (· / ·) s0.eps.dropLast s0.eps.tail).map Stack.interface) :=
    LT.map (f := fun _ => Stack.interface) (fun _ _ h => M4A.interface h)
      (LT.zipWith (f := fun _ => (· / ·)) (fun _ _ _ _ h1 h2 => h1.cdiv h2) h.eps.dropLast h.eps.tail)
  have hP : LT (𝓝 w) (M4A 𝕜 w) (fun a => ((s a).t.map fun t => RealOps.clip (-maxExpArg) maxExpArg (q a * t)).map
      fun p => Stack.propagation 1 (-1) (ofR p : FP ℂ))
      ((s0.t.map fun t => RealOps.clip (-maxExpArg) maxExpArg (q0 * t)).map fun p => Stack.propagation 1 (-1) (ofR p : FP ℂ)) :=
    LT.map (f := fun _ p => Stack.propagation 1 (-1) (ofR p : FP ℂ)) (fun _ _ h => M4A.propagation 1 (-1) h.ofR) (h.t hq)
  have hm := h.multilayer
  simp only [transferMatrixQs_rest]
  revert hT
  generalize (List.zipWith (· / ·) s0.eps.dropLast s0.eps.tail).map Stack.interface = l0
  intro hT
  cases l0 with
  | nil => exact PyT.error
  | cons T0 Ts0 =>
    obtain ⟨T, Ts, e, h1, h2⟩ := hT
    have key : PyT (𝓝 w) (M4A 𝕜 w) (fun a => qsRest (s a) (q a) (T a :: Ts a)) (qsRest s0 q0 (T0 :: Ts0)) := by
      refine PyT.ite (by filter_upwards [hm] with a ha; rw [ha]) (PyT.ok (h1.chain h2 hP)) (PyT.ok ?_)
      have one : FPA 𝕜 w (fun a => (ofR (RealOps.onesLike (q a)) : FP ℂ)) (ofR (RealOps.onesLike q0)) := FPA.const (ofR (FP.num (1 : ℝ)))
      exact ⟨h1.1.cmul one, h1.2.1.cmul one, h1.2.2.1.cmul one, h1.2.2.2.cmul one⟩
    refine key.congr ?_
    filter_upwards [e] with a ha
    rw [ha]

theorem SAnalytic.reflCoefQs (h : SAnalytic 𝕜 w Q s s0) {q : E → FP ℝ} {q0 : FP ℝ} (hq : Q q q0) :
    PyT (𝓝 w) (FPA 𝕜 w) (fun a => (s a).reflCoefQs (q a)) (s0.reflCoefQs q0) :=
  (h.transferMatrixQs hq).bind fun _ _ hM => PyT.ok (hM.2.2.1.cdiv hM.1)

theorem SAnalytic.transCoefQs (h : SAnalytic 𝕜 w Q s s0) {q : E → FP ℝ} {q0 : FP ℝ} (hq : Q q q0) :
    PyT (𝓝 w) (FPA 𝕜 w) (fun a => (s a).transCoefQs (q a)) (s0.transCoefQs q0) :=
  (h.transferMatrixQs hq).bind fun _ _ hM => PyT.ok ((FPA.const _).cdiv hM.1)

theorem PyA.quad0 (rule : List (ℝ × ℝ)) (p : E → List (FP ℝ ⊕ FP ℂ)) (p0 : List (FP ℝ ⊕ FP ℂ)) {body : E → FP ℝ → FP ℝ → PyM (FP ℂ)}
    {body0 : FP ℝ → FP ℝ → PyM (FP ℂ)}
    (h : ∀ x y : ℝ, PyT (𝓝 w) (FPA 𝕜 w) (fun a => body a (.num x) (.num y)) (body0 (.num x) (.num y))) :
    PyT (𝓝 w) (FPA 𝕜 w) (fun a => CplxOps.quad0 rule (p a) (body a)) (CplxOps.quad0 rule p0 body0) :=
  (PyT.mapM (T := FPA 𝕜 w) rule (f := fun a xw => body a (.num xw.1) (.num xw.2)) fun i _ => h i.1 i.2).bind fun _ _ hv => PyT.ok hv.csum

theorem PyA.trapz0 (grid : List ℝ) (p : E → List (FP ℝ ⊕ FP ℂ)) (p0 : List (FP ℝ ⊕ FP ℂ)) {body : E → FP ℝ → PyM (FP ℂ)}
    {body0 : FP ℝ → PyM (FP ℂ)} (h : ∀ x : ℝ, PyT (𝓝 w) (FPA 𝕜 w) (fun a => body a (.num x)) (body0 (.num x))) :
    PyT (𝓝 w) (FPA 𝕜 w) (fun a => CplxOps.trapz0 grid (p a) (body a)) (CplxOps.trapz0 grid p0 body0) :=
  (PyT.mapM (T := FPA 𝕜 w) grid (f := fun a x => body a (.num x)) fun i _ => h i).bind fun _ _ hv => PyT.ok hv.ctrapz

theorem PyA.series0 (n : ℕ) (p : E → List (FP ℝ ⊕ FP ℂ)) (p0 : List (FP ℝ ⊕ FP ℂ)) {body : E → ℤ → PyM (FP ℂ)}
    {body0 : ℤ → PyM (FP ℂ)} (h : ∀ j : ℕ, PyT (𝓝 w) (FPA 𝕜 w) (fun a => body a j) (body0 j)) :
    PyT (𝓝 w) (FPA 𝕜 w) (fun a => CplxOps.series0 n (p a) (body a)) (CplxOps.series0 n p0 body0) :=
  (PyT.mapM (T := FPA 𝕜 w) (List.range n) (f := fun a (j : ℕ) => body a j) fun i _ => h i).bind fun _ _ hv => PyT.ok hv.csum

theorem SAnalytic.reflCoefQsAboveSurf (h : SAnalytic 𝕜 w Q s s0) (hQ : RealClass 𝕜 w Q) (env : Env) {z : E → FP ℝ} {z0 : FP ℝ}
    (hz : Q z z0) (nLag : Option ℕ) :
    PyT (𝓝 w) (FPA 𝕜 w) (fun a => (s a).reflCoefQsAboveSurf env (z a) nLag) (s0.reflCoefQsAboveSurf env z0 nLag) := by
  refine (PyT.const (T := fun r r0 => r = fun _ => r0) (env.lagRule (nLag.getD env.defaults.nLag)) fun _ => rfl).bind fun r r0 hr => ?_
  subst hr
  refine (h.reflCoefQs hz).bind fun like like0 _ => ?_
  refine PyA.quad0 r0 (fun a => [.inr (like a)]) _ fun x y => ?_
  refine (h.reflCoefQs (q := fun a => FP.num x / (lit 2 * z a)) (hQ.div (hQ.const _) (hQ.mul (hQ.const _) hz))).bind fun b b0 hb => ?_
  exact PyT.ok ((FPA.const _).cmul hb)

theorem SAnalytic.surfPotAndField (h : SAnalytic 𝕜 w Q s s0) (hQ : RealClass 𝕜 w Q) (env : Env) {z : E → FP ℝ} {z0 : FP ℝ}
    (hz : Q z z0) (nLag : Option ℕ) :
    PyT (𝓝 w) (fun x x0 => FPA 𝕜 w (fun a => (x a).1) x0.1 ∧ FPA 𝕜 w (fun a => (x a).2) x0.2)
      (fun a => (s a).surfPotAndField env (z a) nLag) (s0.surfPotAndField env z0 nLag) := by
  refine (PyT.const (T := fun r r0 => r = fun _ => r0) (env.lagRule (nLag.getD env.defaults.nLag)) fun _ => rfl).bind fun r r0 hr => ?_
  subst hr
  refine (h.reflCoefQs hz).bind fun like like0 _ => ?_
  have hq : ∀ x : ℝ, Q (fun a => FP.num x / (lit 2 * z a)) (FP.num x / (lit 2 * z0)) := fun x =>
    hQ.div (hQ.const _) (hQ.mul (hQ.const _) hz)
  refine (PyA.quad0 (𝕜 := 𝕜) (w := w) r0 (fun a => [.inr (like a)]) _ fun x y => ?_).bind fun phi phi0 hphi => ?_
  · exact (h.reflCoefQs (hq x)).bind fun b b0 hb => PyT.ok ((FPA.const _).cmul hb)
  refine (PyA.quad0 (𝕜 := 𝕜) (w := w) r0 (fun a => [.inr (like a)]) _ fun x y => ?_).bind fun e e0 he => ?_
  · exact (h.reflCoefQs (hq x)).bind fun b b0 hb => PyT.ok ((FPA.const _).cmul hb)
  have c : ∀ x : ℝ, FPA 𝕜 w (fun _ => (lit x : FP ℝ)) (lit x) := fun x => FPA.const _
  exact PyT.ok ⟨hphi.cdiv ((c _).mul (hQ.an hz)).ofR, he.cdiv ((c _).mul ((hQ.an hz).npow 2)).ofR⟩

/-! ## Tips -/

/-- An optional argument in a class. -/
inductive ArgIn {β : Type} (P : (E → FP β) → FP β → Prop) : (E → Option (FP β)) → Option (FP β) → Prop
  | omitted : ArgIn P (fun _ => none) none
  | given {x x0} (h : P x x0) : ArgIn P (fun a => some (x a)) (some x0)

omit [NormedAddCommGroup E] in
theorem ArgIn.getD {β : Type} {P : (E → FP β) → FP β → Prop} {x : E → Option (FP β)} {x0 : Option (FP β)} (h : ArgIn P x x0)
    {d : E → FP β} {d0 : FP β} (hd : P d d0) : P (fun a => (x a).getD (d a)) (x0.getD d0) := by
  cases h with
  | omitted => exact hd
  | given h => exact h

omit [NormedAddCommGroup E] in
theorem ArgIn.const {β : Type} {P : (E → FP β) → FP β → Prop} (hP : ∀ x, P (fun _ => x) x) (x : Option (FP β)) : ArgIn P (fun _ => x) x := by
  cases x with
  | none => exact .omitted
  | some x => exact .given (hP x)

theorem ArgAnalytic.argIn {β : Type} [ToC β] {x : E → Option (FP β)} (h : ArgAnalytic 𝕜 w x) : ArgIn (FPA 𝕜 w) x (x w) := by
  cases h with
  | fixed x => exact ArgIn.const FPA.const x
  | given h => exact .given (FPA.num h)

structure FdmArgsIn (𝕜 : Type) [NontriviallyNormedField 𝕜] [NormedAlgebra 𝕜 ℂ] {E : Type} [NormedAddCommGroup E] [NormedSpace 𝕜 E]
    (w : E) (Q : (E → FP ℝ) → FP ℝ → Prop) (p : E → FdmArgs (FP ℝ) (FP ℂ)) (p0 : FdmArgs (FP ℝ) (FP ℂ)) : Prop where
  rTip : ArgIn Q (fun a => (p a).rTip) p0.rTip
  lTip : ArgIn Q (fun a => (p a).lTip) p0.lTip
  gFactor : ArgIn (FPA 𝕜 w) (fun a => (p a).gFactor) p0.gFactor
  dQ0 : ArgIn Q (fun a => (p a).dQ0) p0.dQ0
  dQ1 : ArgIn Q (fun a => (p a).dQ1) p0.dQ1
  dQa : ArgIn Q (fun a => (p a).dQa) p0.dQa

structure PdmArgsIn (𝕜 : Type) [NontriviallyNormedField 𝕜] [NormedAlgebra 𝕜 ℂ] {E : Type} [NormedAddCommGroup E] [NormedSpace 𝕜 E]
    (w : E) (Q : (E → FP ℝ) → FP ℝ → Prop) (p : E → PdmArgs (FP ℝ) (FP ℂ)) (p0 : PdmArgs (FP ℝ) (FP ℂ)) : Prop where
  rTip : ArgIn Q (fun a => (p a).rTip) p0.rTip
  epsTip : ArgIn (FPA 𝕜 w) (fun a => (p a).epsTip) p0.epsTip
  alphaTip : ArgIn (FPA 𝕜 w) (fun a => (p a).alphaTip) p0.alphaTip

structure FdmTipIn (𝕜 : Type) [NontriviallyNormedField 𝕜] [NormedAlgebra 𝕜 ℂ] {E : Type} [NormedAddCommGroup E] [NormedSpace 𝕜 E]
    (w : E) (Q : (E → FP ℝ) → FP ℝ → Prop) (p : E → FdmTip (FP ℝ) (FP ℂ)) (p0 : FdmTip (FP ℝ) (FP ℂ)) : Prop where
  rTip : Q (fun a => (p a).rTip) p0.rTip
  lTip : Q (fun a => (p a).lTip) p0.lTip
  gFactor : FPA 𝕜 w (fun a => (p a).gFactor) p0.gFactor
  dQ0 : Q (fun a => (p a).dQ0) p0.dQ0
  dQ1 : Q (fun a => (p a).dQ1) p0.dQ1
  dQa : Q (fun a => (p a).dQa) p0.dQa

theorem FdmArgsIn.fill {p : E → FdmArgs (FP ℝ) (FP ℂ)} {p0 : FdmArgs (FP ℝ) (FP ℂ)} (h : FdmArgsIn 𝕜 w Q p p0) (hQ : RealClass 𝕜 w Q)
    (d : Defaults) : FdmTipIn 𝕜 w Q (fun a => d.fdm (p a)) (d.fdm p0) := by
  have hr := h.rTip.getD (hQ.const (lit d.rTip))
  have hl := h.lTip.getD (hQ.const (lit d.lTip))
  exact ⟨hr, hl, h.gFactor.getD (FPA.const _), h.dQ0.getD (hQ.div (hQ.mul (hQ.const _) hl) (hQ.add hl (hQ.mul (hQ.const _) hr))),
    h.dQ1.getD (hQ.const _), h.dQa.getD (hQ.const _)⟩

theorem PdmArgsIn.fill {p : E → PdmArgs (FP ℝ) (FP ℂ)} {p0 : PdmArgs (FP ℝ) (FP ℂ)} (h : PdmArgsIn 𝕜 w Q p p0) (hQ : RealClass 𝕜 w Q)
    (d : Defaults) : PyT (𝓝 w) (fun x x0 => FPA 𝕜 w (fun a => (x a).1) x0.1 ∧ FPA 𝕜 w (fun a => (x a).2) x0.2) (fun a => d.pdm (p a))
      (d.pdm p0) := by
  have c : ∀ {γ : Type} [ToC γ] (z : FP γ), FPA 𝕜 w (fun _ => z) z := fun z => FPA.const z
  have hr := hQ.an (h.rTip.getD (hQ.const (lit d.rTip)))
  have vol : FPA 𝕜 w (fun a => (ofR (lit 4 * lit Real.pi * RealOps.npow ((p a).rTip.getD (lit d.rTip)) 3) : FP ℂ))
      (ofR (lit 4 * lit Real.pi * RealOps.npow (p0.rTip.getD (lit d.rTip)) 3)) := (((c _).mul (c _)).mul (hr.npow 3)).ofR
  obtain ⟨h1, h2, h3⟩ := h
  unfold Defaults.pdm
  revert h2 h3
  generalize he : (fun a => (p a).epsTip) = e
  generalize hal : (fun a => (p a).alphaTip) = al
  generalize p0.epsTip = e0
  generalize p0.alphaTip = al0
  have he' : ∀ a, (p a).epsTip = e a := fun a => by rw [← he]
  have hal' : ∀ a, (p a).alphaTip = al a := fun a => by rw [← hal]
  intro h2 h3
  simp only [he', hal']
  clear he hal he' hal'
  cases h2 with
  | omitted =>
    cases h3 with
    | omitted => exact PyT.ok ⟨hr, vol⟩
    | given h => exact PyT.ok ⟨hr, h⟩
  | given g =>
    cases h3 with
    | omitted => exact PyT.ok ⟨hr, (vol.cmul (g.csub (c _))).cdiv (g.cadd (c _))⟩
    | given h => exact PyT.error

theorem FPA.fdmGeom {z d r l : E → FP ℝ} {z0 d0 r0 l0 : FP ℝ} {g : E → FP ℂ} {g0 : FP ℂ} (hz : FPA 𝕜 w z z0) (hd : FPA 𝕜 w d d0)
    (hr : FPA 𝕜 w r r0) (hl : FPA 𝕜 w l l0) (hg : FPA 𝕜 w g g0) :
    FPA 𝕜 w (fun a => Fdm.geomFunc (z a) (d a) (r a) (l a) (g a)) (Fdm.geomFunc z0 d0 r0 l0 g0) := by
  have c : ∀ x : ℝ, FPA 𝕜 w (fun _ => (lit x : FP ℝ)) (lit x) := fun x => FPA.const _
  exact ((hg.csub (((hr.add ((c 2).mul hz)).add (hd.mul hr)).div ((c 2).mul hl)).ofR).cmul
    (((c 4).mul hl).div ((hr.add ((c 4).mul hz)).add (((c 2).mul hd).mul hr))).log.ofR).cdiv (((c 4).mul hl).div hr).log.ofR

theorem FPA.fdmGeomMulti {z d r l : E → FP ℝ} {z0 d0 r0 l0 : FP ℝ} {g : E → FP ℂ} {g0 : FP ℂ} (hz : FPA 𝕜 w z z0) (hd : FPA 𝕜 w d d0)
    (hr : FPA 𝕜 w r r0) (hl : FPA 𝕜 w l l0) (hg : FPA 𝕜 w g g0) :
    FPA 𝕜 w (fun a => Fdm.geomFuncMulti (z a) (d a) (r a) (l a) (g a)) (Fdm.geomFuncMulti z0 d0 r0 l0 g0) := by
  have c : ∀ x : ℝ, FPA 𝕜 w (fun _ => (lit x : FP ℝ)) (lit x) := fun x => FPA.const _
  exact ((hg.csub (((hr.add hz).add hd).div ((c 2).mul hl)).ofR).cmul
    (((c 4).mul hl).div ((hr.add ((c 2).mul hz)).add ((c 2).mul hd))).log.ofR).cdiv (((c 4).mul hl).div hr).log.ofR

theorem FPA.fdmFormula {b f b' f' : E → FP ℂ} {b0 f0 b0' f0' : FP ℂ} (hb : FPA 𝕜 w b b0) (hf : FPA 𝕜 w f f0) (hb' : FPA 𝕜 w b' b0')
    (hf' : FPA 𝕜 w f' f0') : FPA 𝕜 w (fun a => Fdm.effPolFormula (b a) (f a) (b' a) (f' a)) (Fdm.effPolFormula b0 f0 b0' f0') :=
  (FPA.const _).cadd ((hb.cmul hf).cdiv ((FPA.const _).cmul ((FPA.const _).csub (hb'.cmul hf'))))

theorem FPA.pdmGeom {z r : E → FP ℝ} {z0 r0 : FP ℝ} {g : E → FP ℂ} {g0 : FP ℂ} (hz : FPA 𝕜 w z z0) (hr : FPA 𝕜 w r r0)
    (hg : FPA 𝕜 w g g0) : FPA 𝕜 w (fun a => Pdm.geomFunc (z a) (r a) (g a)) (Pdm.geomFunc z0 r0 g0) :=
  hg.cdiv (((FPA.const _).mul (FPA.const _)).mul ((hr.add hz).npow 3)).ofR

theorem PyA.demod (hQ : RealClass 𝕜 w Q) (env : Env) {f : E → FP ℝ → PyM (FP ℂ)} {f0 : FP ℝ → PyM (FP ℂ)}
    (hf : ∀ x x0, Q x x0 → PyT (𝓝 w) (FPA 𝕜 w) (fun a => f a (x a)) (f0 x0)) {x amp n : E → FP ℝ} {x0 amp0 n0 : FP ℝ} (hx : Q x x0)
    (ha : Q amp amp0) (hn : Q n n0) (nT : Option ℕ) :
    PyT (𝓝 w) (FPA 𝕜 w) (fun a => demod env (f a) (x a) (amp a) (n a) nT) (demod env f0 x0 amp0 n0 nT) := by
  refine (hf _ _ (hQ.add hx (hQ.mul (hQ.const (lit 0)) ha))).bind fun p p0 _ => ?_
  refine (PyA.trapz0 _ (fun a => [.inr (p a), .inl (n a)]) _ fun θ => ?_).bind fun v v0 hv => PyT.ok (hv.cdiv (FPA.const _))
  exact (hf _ _ (hQ.add hx (hQ.mul (hQ.const (RealOps.cos (FP.num θ))) ha))).bind fun v v0 hv =>
    PyT.ok (hv.cmul (((FPA.const _).cmul (hQ.an hn).ofR).cmul (FPA.const _)).exp)

/-- The method is not `multi`. -/
theorem SAnalytic.fdm (h : SAnalytic 𝕜 w Q s s0) (hQ : RealClass 𝕜 w Q) (env : Env) {z : E → Option (FP ℝ)} {z0 : Option (FP ℝ)}
    (hz : Q (fun a => (z a).getD (lit env.defaults.zTip)) (z0.getD (lit env.defaults.zTip))) {p : E → FdmArgs (FP ℝ) (FP ℂ)}
    {p0 : FdmArgs (FP ℝ) (FP ℂ)} (hp : FdmArgsIn 𝕜 w Q p p0) (nLag : Option ℕ) (m : Option String)
    (hM : m.getD (if s0.multilayer then "multi" else "bulk") ≠ "multi") :
    PyT (𝓝 w) (FPA 𝕜 w) (fun a => Fdm.effPol env (s a) (z a) (p a) nLag m) (Fdm.effPol env s0 z0 p0 nLag m) := by
  have ht := hp.fill hQ env.defaults
  have hm := h.multilayer
  have hz' := hQ.an hz
  have g0 := hz'.fdmGeom (hQ.an ht.dQ0) (hQ.an ht.rTip) (hQ.an ht.lTip) ht.gFactor
  have g1 := hz'.fdmGeom (hQ.an ht.dQ1) (hQ.an ht.rTip) (hQ.an ht.lTip) ht.gFactor
  unfold Fdm.effPol
  dsimp only
  have me : ∀ᶠ a in 𝓝 w, (m.getD (if (s a).multilayer then "multi" else "bulk")) = m.getD (if s0.multilayer then "multi" else "bulk") := by
    filter_upwards [hm] with a ha
    rw [ha]
  refine PyT.ite (by filter_upwards [me] with a ha; rw [ha]) ?_ ?_
  · refine PyT.ite (by filter_upwards [hm] with a ha; rw [ha]) PyT.error ?_
    exact (h.reflCoefQs (hQ.const _)).bind fun b b0 hb => PyT.ok (hb.fdmFormula g0 hb g1)
  · rw [if_neg hM]
    refine PyT.congr (x := fun a => if m.getD (if (s a).multilayer then "multi" else "bulk") = "Q_ave" then _ else _)
      (PyT.ite (by filter_upwards [me] with a ha; rw [ha]) ?_ PyT.error) (by filter_upwards [me] with a ha; rw [if_neg (ha ▸ hM)])
    exact (h.reflCoefQsAboveSurf hQ env (hQ.add hz (hQ.mul ht.rTip ht.dQa)) nLag).bind fun b b0 hb => PyT.ok (hb.fdmFormula g0 hb g1)

theorem SAnalytic.fdm_n (h : SAnalytic 𝕜 w Q s s0) (hQ : RealClass 𝕜 w Q) (env : Env) {A n : E → FP ℝ} {A0 n0 : FP ℝ} (hA : Q A A0)
    (hn : Q n n0) {z : E → Option (FP ℝ)} {z0 : Option (FP ℝ)} (hz : ArgIn Q z z0) {p : E → FdmArgs (FP ℝ) (FP ℂ)}
    {p0 : FdmArgs (FP ℝ) (FP ℂ)} (hp : FdmArgsIn 𝕜 w Q p p0) (nT nLag : Option ℕ) (m : Option String)
    (hM : m.getD (if s0.multilayer then "multi" else "bulk") ≠ "multi") :
    PyT (𝓝 w) (FPA 𝕜 w) (fun a => Fdm.effPolN env (s a) (A a) (n a) (z a) nT (p a) nLag m) (Fdm.effPolN env s0 A0 n0 z0 nT p0 nLag m) :=
  PyA.demod hQ env (f := fun a x => Fdm.effPol env (s a) (some x) (p a) nLag m) (f0 := fun x => Fdm.effPol env s0 (some x) p0 nLag m)
    (fun x x0 hx => h.fdm hQ env (z := fun a => some (x a)) (z0 := some x0) hx hp nLag m hM) (hQ.add (hz.getD (hQ.const _)) hA) hA hn nT

theorem SAnalytic.fdm_taylor (h : SAnalytic 𝕜 w Q s s0) (hQ : RealClass 𝕜 w Q) (env : Env) {A : E → FP ℝ} {A0 : FP ℝ} (hA : Q A A0)
    (n : FP ℝ) {z : E → Option (FP ℝ)} {z0 : Option (FP ℝ)} (hz : ArgIn Q z z0) {p : E → FdmArgs (FP ℝ) (FP ℂ)}
    {p0 : FdmArgs (FP ℝ) (FP ℂ)} (hp : FdmArgsIn 𝕜 w Q p p0) (nLag : Option ℕ) (m : Option String) (nT nTayl : Option ℕ) :
    PyT (𝓝 w) (FPA 𝕜 w) (fun a => Fdm.effPolNTaylor env (s a) (A a) n (z a) (p a) nLag m nT nTayl)
      (Fdm.effPolNTaylor env s0 A0 n z0 p0 nLag m nT nTayl) := by
  have ht := hp.fill hQ env.defaults
  have hm := h.multilayer
  have hz' := hz.getD (hQ.const (lit env.defaults.zTip))
  have hbeta : PyT (𝓝 w) (FPA 𝕜 w)
      (fun a => Fdm.taylorBeta env (s a) ((z a).getD (lit env.defaults.zTip)) (env.defaults.fdm (p a)) nLag m)
      (Fdm.taylorBeta env s0 (z0.getD (lit env.defaults.zTip)) (env.defaults.fdm p0) nLag m) := by
    unfold Fdm.taylorBeta
    dsimp only
    have me : ∀ᶠ a in 𝓝 w, (m.getD (if (s a).multilayer then "Q_ave" else "bulk")) = m.getD (if s0.multilayer then "Q_ave" else "bulk") := by
      filter_upwards [hm] with a ha
      rw [ha]
    refine PyT.ite (by filter_upwards [me] with a ha; rw [ha]) ?_ (PyT.ite (by filter_upwards [me] with a ha; rw [ha]) ?_ PyT.error)
    · refine PyT.ite (by filter_upwards [hm] with a ha; rw [ha]) PyT.error ?_
      exact h.reflCoefQs (hQ.const _)
    · exact h.reflCoefQsAboveSurf hQ env (hQ.add hz' (hQ.mul ht.rTip ht.dQa)) nLag
  refine hbeta.bind fun b b0 hb => ?_
  refine PyA.series0 _ _ _ fun j => ?_
  refine PyT.bind (T := FPA 𝕜 w) ?_ fun v v0 hv => PyT.ok (hv.cmul (hb.jpow j))
  refine (PyA.demod hQ env (fun x x0 hx => PyT.ok ?_) (hQ.add hz' hA) hA (hQ.const n) nT).bind fun v v0 hv => PyT.ok ?_
  · exact ((hQ.an hx).fdmGeom (hQ.an ht.dQ0) (hQ.an ht.rTip) (hQ.an ht.lTip) ht.gFactor).cmul
      (((hQ.an hx).fdmGeom (hQ.an ht.dQ1) (hQ.an ht.rTip) (hQ.an ht.lTip) ht.gFactor).jpow _)
  · by_cases hj : (j : ℤ) = 0
    · simp only [CplxOps.whereJ, if_pos hj]
      exact FPA.const _
    · simp only [CplxOps.whereJ, if_neg hj]
      exact hv.cdiv (FPA.const _)

theorem FPA.fdm_inverse (hQ : RealClass 𝕜 w Q) (env : Env) {x : E → FP ℂ} {x0 : FP ℂ} (hx : FPA 𝕜 w x x0) {z : E → Option (FP ℝ)}
    {z0 : Option (FP ℝ)} (hz : ArgIn Q z z0) {p : E → FdmArgs (FP ℝ) (FP ℂ)} {p0 : FdmArgs (FP ℝ) (FP ℂ)} (hp : FdmArgsIn 𝕜 w Q p p0) :
    FPA 𝕜 w (fun a => Fdm.reflCoefQsFromEffPol env (x a) (z a) (p a)) (Fdm.reflCoefQsFromEffPol env x0 z0 p0) := by
  have ht := hp.fill hQ env.defaults
  have hz' := hQ.an (hz.getD (hQ.const (lit env.defaults.zTip)))
  have g0 := hz'.fdmGeom (hQ.an ht.dQ0) (hQ.an ht.rTip) (hQ.an ht.lTip) ht.gFactor
  have g1 := hz'.fdmGeom (hQ.an ht.dQ1) (hQ.an ht.rTip) (hQ.an ht.lTip) ht.gFactor
  have c : ∀ x : ℂ, FPA 𝕜 w (fun _ => (clit x : FP ℂ)) (clit x) := fun x => FPA.const _
  exact ((c 2).cmul (hx.csub (c 1))).cdiv (g0.cadd (((c 2).cmul g1).cmul (hx.csub (c 1))))

theorem SAnalytic.pdm (h : SAnalytic 𝕜 w Q s s0) (hQ : RealClass 𝕜 w Q) (env : Env) {z : E → Option (FP ℝ)} {z0 : Option (FP ℝ)}
    (hz : Q (fun a => (z a).getD (lit env.defaults.zTip)) (z0.getD (lit env.defaults.zTip))) {p : E → PdmArgs (FP ℝ) (FP ℂ)}
    {p0 : PdmArgs (FP ℝ) (FP ℂ)} (hp : PdmArgsIn 𝕜 w Q p p0) :
    PyT (𝓝 w) (FPA 𝕜 w) (fun a => Pdm.effPol env (s a) (z a) (p a)) (Pdm.effPol env s0 z0 p0) := by
  refine (hp.fill hQ env.defaults).bind fun v v0 hv => (h.reflCoefQs (hQ.const _)).bind fun b b0 hb => PyT.ok ?_
  exact hv.2.cdiv ((FPA.const _).csub (((hQ.an hz).pdmGeom hv.1 hv.2).cmul hb))

theorem SAnalytic.pdm_n (h : SAnalytic 𝕜 w Q s s0) (hQ : RealClass 𝕜 w Q) (env : Env) {A n : E → FP ℝ} {A0 n0 : FP ℝ} (hA : Q A A0)
    (hn : Q n n0) {z : E → Option (FP ℝ)} {z0 : Option (FP ℝ)} (hz : ArgIn Q z z0) {p : E → PdmArgs (FP ℝ) (FP ℂ)}
    {p0 : PdmArgs (FP ℝ) (FP ℂ)} (hp : PdmArgsIn 𝕜 w Q p p0) (nT : Option ℕ) :
    PyT (𝓝 w) (FPA 𝕜 w) (fun a => Pdm.effPolN env (s a) (A a) (n a) (z a) nT (p a)) (Pdm.effPolN env s0 A0 n0 z0 nT p0) :=
  PyA.demod hQ env (f := fun a x => Pdm.effPol env (s a) (some x) (p a)) (f0 := fun x => Pdm.effPol env s0 (some x) p0)
    (fun x x0 hx => h.pdm hQ env (z := fun a => some (x a)) (z0 := some x0) hx hp) (hQ.add (hz.getD (hQ.const _)) hA) hA hn nT

theorem SAnalytic.pdm_taylor (h : SAnalytic 𝕜 w Q s s0) (hQ : RealClass 𝕜 w Q) (env : Env) {A n : E → FP ℝ} {A0 n0 : FP ℝ}
    (hA : Q A A0) (hn : Q n n0) {z : E → Option (FP ℝ)} {z0 : Option (FP ℝ)} (hz : ArgIn Q z z0) {p : E → PdmArgs (FP ℝ) (FP ℂ)}
    {p0 : PdmArgs (FP ℝ) (FP ℂ)} (hp : PdmArgsIn 𝕜 w Q p p0) (nT nTayl : Option ℕ) :
    PyT (𝓝 w) (FPA 𝕜 w) (fun a => Pdm.effPolNTaylor env (s a) (A a) (n a) (z a) (p a) nT nTayl)
      (Pdm.effPolNTaylor env s0 A0 n0 z0 p0 nT nTayl) := by
  have hz' := hz.getD (hQ.const (lit env.defaults.zTip))
  refine (hp.fill hQ env.defaults).bind fun v v0 hv => (h.reflCoefQs (hQ.const _)).bind fun b b0 hb => ?_
  refine PyA.series0 _ _ _ fun j => ?_
  refine PyT.bind (T := FPA 𝕜 w) ?_ fun u u0 hu => PyT.ok (hu.cmul (hb.jpow j))
  exact PyA.demod hQ env (f := fun a z => pure (CplxOps.jpow (Pdm.geomFunc z (v a).1 (v a).2) (j : ℤ)))
    (f0 := fun z => pure (CplxOps.jpow (Pdm.geomFunc z v0.1 v0.2) (j : ℤ)))
    (fun x x0 hx => PyT.ok (((hQ.an hx).pdmGeom hv.1 hv.2).jpow _)) (hQ.add hz' hA) hA hn nT

theorem PyA.pdm_inverse (hQ : RealClass 𝕜 w Q) (env : Env) {x : E → FP ℂ} {x0 : FP ℂ} (hx : FPA 𝕜 w x x0) {z : E → Option (FP ℝ)}
    {z0 : Option (FP ℝ)} (hz : ArgIn Q z z0) {p : E → PdmArgs (FP ℝ) (FP ℂ)} {p0 : PdmArgs (FP ℝ) (FP ℂ)} (hp : PdmArgsIn 𝕜 w Q p p0) :
    PyT (𝓝 w) (FPA 𝕜 w) (fun a => Pdm.reflCoefQsFromEffPol env (x a) (z a) (p a)) (Pdm.reflCoefQsFromEffPol env x0 z0 p0) := by
  have hz' := hQ.an (hz.getD (hQ.const (lit env.defaults.zTip)))
  refine (hp.fill hQ env.defaults).bind fun v v0 hv => PyT.ok ?_
  exact (hx.csub hv.2).cdiv ((hz'.pdmGeom hv.1 hv.2).cmul hx)

/-- What this says about a number. -/
theorem PyA.finite {x : E → PyM (FP ℂ)} {x0 : PyM (FP ℂ)} (h : PyT (𝓝 w) (FPA 𝕜 w) x x0) {v0 : ℂ}
    (h0 : x0 = .ok (.num v0)) : IsAnalytic 𝕜 w x := by
  obtain ⟨v, h1, h2⟩ := h _ h0
  obtain ⟨u, h3, -, h4⟩ := h2 _ rfl
  exact ⟨u, by filter_upwards [h1, h3] with a h1 h3; rw [h1, h3], h4⟩

/-! ## Layered samples -/

theorem LT.of_list {ι β : Type} {T : (E → β) → β → Prop} (L : List ι) {f : E → ι → β} (h : ∀ l ∈ L, T (fun a => f a l) (f w l)) :
    LT (𝓝 w) T (fun a => L.map (f a)) (L.map (f w)) := by
  induction L with
  | nil => exact Eventually.of_forall fun _ => rfl
  | cons l L ih =>
    exact ⟨fun a => f a l, fun a => L.map (f a), Eventually.of_forall fun _ => rfl, h l (by simp), ih fun l hl => h l (by simp [hl])⟩

theorem LT.layered_eps {ι : Type} {e sub : E → ℂ} {L : List ι} {f : E → ι → ℂ × ℝ} {nu : E → Option ℝ} (he : AnalyticAt 𝕜 e w)
    (hL : ∀ l ∈ L, AnalyticAt 𝕜 (fun a => (f a l).1) w) (hs : AnalyticAt 𝕜 sub w) :
    LT (𝓝 w) (FPA 𝕜 w) (fun a => (layered (e a) (L.map (f a)) (sub a) (nu a)).eps) (layered (e w) (L.map (f w)) (sub w) (nu w)).eps := by
  refine ⟨fun a => .num (e a), fun a => ((L.map (f a)).map fun l => FP.num l.1) ++ [FP.num (sub a)], Eventually.of_forall fun _ => rfl,
    FPA.num he, LT.append ?_ ⟨fun a => .num (sub a), fun _ => [], Eventually.of_forall fun _ => rfl, FPA.num hs,
      Eventually.of_forall fun _ => rfl⟩⟩
  simp only [List.map_map]
  exact LT.of_list L fun l hl => FPA.num (hL l hl)

theorem SAnalytic.layered {e sub : E → ℂ} {L : List ((E → ℂ) × ℝ)} {nu : E → Option ℝ} (he : AnalyticAt 𝕜 e w)
    (hL : ∀ l ∈ L, AnalyticAt 𝕜 l.1 w) (hs : AnalyticAt 𝕜 sub w) :
    SAnalytic 𝕜 w (fun x x0 => x = fun _ => x0) (fun a => layered (e a) (L.map fun l => (l.1 a, l.2)) (sub a) (nu a))
      (layered (e w) (L.map fun l => (l.1 w, l.2)) (sub w) (nu w)) := by
  refine ⟨LT.layered_eps (f := fun a (l : (E → ℂ) × ℝ) => (l.1 a, l.2)) he hL hs, ?_⟩
  rintro q q0 rfl
  simp only [Snompy.layered, List.map_map]
  exact LT.of_list L fun l hl => FPA.const _

theorem SAnalytic.bulk {e sub : E → ℂ} {nu : E → Option ℝ} (he : AnalyticAt 𝕜 e w) (hs : AnalyticAt 𝕜 sub w)
    (Q : (E → FP ℝ) → FP ℝ → Prop) : SAnalytic 𝕜 w Q (fun a => bulk (e a) (sub a) (nu a)) (bulk (e w) (sub w) (nu w)) :=
  ⟨LT.layered_eps (L := ([] : List Unit)) (f := fun _ _ => (0, 0)) he (by simp) hs, fun _ => Eventually.of_forall fun _ => rfl⟩

theorem FPA.clip {hi : ℝ} {x : E → FP ℝ} {x0 : FP ℝ} (h : FPA 𝕜 w x x0) (hx : ∀ v, x0 = .num v → |v| ≠ hi) :
    FPA 𝕜 w (fun a => RealOps.clip (-hi) hi (x a)) (RealOps.clip (-hi) hi x0) := by
  intro u hu
  cases x0 with
  | nan => cases hu
  | num b =>
    obtain rfl := FP.num.inj hu
    have hb := hx b rfl
    obtain ⟨v, h1, rfl, h3⟩ := h b rfl
    have hc := continuous_of_toC h3
    refine ⟨fun a => min (max (v a) (-hi)) hi, by filter_upwards [h1] with a ha; rw [ha]; rfl, rfl, ?_⟩
    rcases lt_or_gt_of_ne hb with hb | hb
    · rw [abs_lt] at hb
      refine h3.congr ?_
      filter_upwards [hc.eventually (lt_mem_nhds hb.1), hc.eventually (gt_mem_nhds hb.2)] with a g1 g2
      rw [max_eq_left g1.le, min_eq_left g2.le]
    · rcases lt_or_ge (v w) 0 with h0 | h0
      · rw [abs_of_neg h0] at hb
        refine (analyticAt_const (v := ToC.toC (min (-hi) hi))).congr ?_
        filter_upwards [hc.eventually (gt_mem_nhds (show v w < -hi by linarith))] with a g1
        rw [max_eq_right g1.le]
      · rw [abs_of_nonneg h0] at hb
        refine (analyticAt_const (v := ToC.toC hi)).congr ?_
        filter_upwards [hc.eventually (lt_mem_nhds hb)] with a g1
        rw [min_eq_right (g1.le.trans (le_max_left _ _))]

/-- The momentum `q` is given. -/
theorem SAnalytic.thick {e sub : E → ℂ} {L : List ((E → ℂ) × (E → ℝ))} {nu : E → Option ℝ} (he : AnalyticAt 𝕜 e w) {q : E → ℝ}
    (hq : AnalyticAt 𝕜 (fun a => (q a : ℂ)) w)
    (hL : ∀ l ∈ L, AnalyticAt 𝕜 l.1 w ∧ AnalyticAt 𝕜 (fun a => (l.2 a : ℂ)) w ∧ |q w * l.2 w| ≠ maxExpArg) (hs : AnalyticAt 𝕜 sub w) :
    SAnalytic 𝕜 w (fun x x0 => x = (fun a => .num (q a)) ∧ x0 = .num (q w))
      (fun a => Snompy.layered (e a) (L.map fun l => (l.1 a, l.2 a)) (sub a) (nu a))
      (Snompy.layered (e w) (L.map fun l => (l.1 w, l.2 w)) (sub w) (nu w)) := by
  refine ⟨LT.layered_eps (f := fun a l => (l.1 a, l.2 a)) he (fun l hl => (hL l hl).1) hs, ?_⟩
  rintro _ _ ⟨rfl, rfl⟩
  simp only [Snompy.layered, List.map_map]
  refine LT.of_list (f := fun a l => RealOps.clip (-maxExpArg) maxExpArg (FP.num (q a) * FP.num (l.2 a))) L fun l hl => ?_
  exact ((FPA.num hq).mul (FPA.num (hL l hl).2.1)).clip fun v hv => by
    obtain rfl := FP.num.inj hv
    exact (hL l hl).2.2

/-! ## Light -/

theorem csqrt_analytic {z : ℂ} (h : z ∈ Complex.slitPlane) : AnalyticAt 𝕜 Complex.sqrt z :=
  (analyticAt_id.cpow analyticAt_const h).restrictScalars

/-- A square root near a point where the function is not zero. -/
theorem exists_root {x : E → ℂ} (h : AnalyticAt 𝕜 x w) (h0 : x w ≠ 0) : ∃ k : E → ℂ, AnalyticAt 𝕜 k w ∧ ∀ a, k a ^ 2 = x a := by
  refine ⟨fun a => Complex.sqrt (x w) * Complex.sqrt (x a / x w), ?_, fun a => ?_⟩
  · refine analyticAt_const.mul ?_
    have h1 : AnalyticAt 𝕜 (fun a => x a / x w) w := h.div analyticAt_const h0
    exact AnalyticAt.comp (g := Complex.sqrt) (csqrt_analytic (by rw [div_self h0]; exact Complex.one_mem_slitPlane)) h1
  · have e : ∀ z : ℂ, Complex.sqrt z ^ 2 = z := fun z => by unfold Complex.sqrt; simp
    rw [mul_pow, e, e, mul_div_cancel₀ _ h0]

/-! ## Image charges: real parameters -/

section Image

variable {E : Type} [NormedAddCommGroup E] [NormedSpace ℝ E] {w : E} {s : E → Stack (FP ℝ) (FP ℂ)} {s0 : Stack (FP ℝ) (FP ℂ)}
  {Q : (E → FP ℝ) → FP ℝ → Prop}

theorem FPA.cabs {x : E → FP ℂ} {x0 : FP ℂ} (h : FPA ℝ w x x0) (h0 : x0 ≠ .num 0) :
    FPA ℝ w (fun a => (CplxOps.cabs (x a) : FP ℝ)) (CplxOps.cabs x0) := by
  intro u hu
  cases x0 with
  | nan => cases hu
  | num b =>
    obtain rfl := FP.num.inj hu
    obtain ⟨v, h1, rfl, h3⟩ := h b rfl
    simp only [toC_cplx] at h3
    have hv : v w ≠ 0 := fun h => h0 (by rw [h])
    refine ⟨fun a => ‖v a‖, by filter_upwards [h1] with a ha; rw [ha]; rfl, rfl, ?_⟩
    have hn : ∀ z : ℂ, ((‖z‖ : ℝ) : ℂ) = Complex.sqrt (z * (starRingEnd ℂ) z) := fun z => by
      rw [Complex.mul_conj, Complex.normSq_eq_norm_sq, Complex.sqrt, ← Complex.ofReal_ofNat, ← Complex.ofReal_inv,
        ← Complex.ofReal_cpow (by positivity), ← one_div, ← Real.sqrt_eq_rpow, Real.sqrt_sq (norm_nonneg z)]
    simp only [toC_real, hn]
    have hc : AnalyticAt ℝ (fun a => (starRingEnd ℂ) (v a)) w :=
      AnalyticAt.comp (g := fun z : ℂ => (starRingEnd ℂ) z) (Complex.conjCLE.toContinuousLinearMap.analyticAt _) h3
    refine AnalyticAt.comp (g := Complex.sqrt) (csqrt_analytic ?_) (h3.mul hc)
    rw [Complex.mul_conj]
    exact Complex.ofReal_mem_slitPlane.2 (Complex.normSq_pos.2 hv)

theorem SAnalytic.imageDepthAndCharge (h : SAnalytic ℝ w Q s s0) (hQ : RealClass ℝ w Q) (env : Env) {z : E → FP ℝ} {z0 : FP ℝ}
    (hz : Q z z0) (nLag : Option ℕ) (h0 : ∀ d, s0.imageDepthAndCharge env z0 nLag ≠ .ok (d, .num 0)) :
    PyT (𝓝 w) (fun x x0 => FPA ℝ w (fun a => (x a).1) x0.1 ∧ FPA ℝ w (fun a => (x a).2) x0.2)
      (fun a => (s a).imageDepthAndCharge env (z a) nLag) (s0.imageDepthAndCharge env z0 nLag) := by
  have hs := h.surfPotAndField hQ env hz nLag
  unfold Stack.imageDepthAndCharge at h0 ⊢
  cases hv : s0.surfPotAndField env z0 nLag with
  | error e => exact PyT.error
  | ok v0 =>
    rw [hv] at hs h0
    obtain ⟨v, h1, h2, h3⟩ := hs v0 rfl
    refine PyT.congr (x := fun a => pure (CplxOps.cabs ((v a).1 / (v a).2) - z a, CplxOps.cpow (v a).1 2 / (v a).2)) (PyT.ok ?_)
      (by filter_upwards [h1] with a ha; rw [ha]; rfl)
    refine ⟨((h2.cdiv h3).cabs fun hd => ?_).sub (hQ.an hz), (h2.cpow 2).cdiv h3⟩
    obtain ⟨phi, e⟩ := v0
    refine h0 (CplxOps.cabs (phi / e) - z0) (congrArg Except.ok (Prod.ext rfl ?_))
    cases phi with
    | nan => rw [FP.nan_div] at hd; cases hd
    | num p =>
      cases e with
      | nan => rw [FP.div_nan] at hd; cases hd
      | num e =>
        by_cases he : e = 0
        · subst he
          rw [FP.num_div_zero] at hd
          cases hd
        · rw [FP.num_div _ he] at hd
          have hp := (div_eq_zero_iff.1 (FP.num.inj hd)).resolve_right he
          change CplxOps.cpow (FP.num p) 2 / FP.num e = _
          rw [scpow, FP.num_div _ he, hp]
          simp

theorem SAnalytic.fdm_multi (h : SAnalytic ℝ w Q s s0) (hQ : RealClass ℝ w Q) (env : Env) {z : E → Option (FP ℝ)} {z0 : Option (FP ℝ)}
    (hz : Q (fun a => (z a).getD (lit env.defaults.zTip)) (z0.getD (lit env.defaults.zTip))) {p : E → FdmArgs (FP ℝ) (FP ℂ)}
    {p0 : FdmArgs (FP ℝ) (FP ℂ)} (hp : FdmArgsIn ℝ w Q p p0) (nLag : Option ℕ)
    (h0 : ∀ x d, s0.imageDepthAndCharge env x nLag ≠ .ok (d, .num 0)) :
    PyT (𝓝 w) (FPA ℝ w) (fun a => Fdm.effPol env (s a) (z a) (p a) nLag (some "multi"))
      (Fdm.effPol env s0 z0 p0 nLag (some "multi")) := by
  have ht := hp.fill hQ env.defaults
  have hz' := hQ.an hz
  unfold Fdm.effPol
  simp only [Option.getD_some, String.reduceEq, if_false, if_true]
  refine (h.imageDepthAndCharge hQ env (hQ.add hz (hQ.mul ht.rTip ht.dQ0)) nLag (h0 _)).bind fun v v0 hv => ?_
  refine (h.imageDepthAndCharge hQ env (hQ.add hz (hQ.mul ht.rTip ht.dQ1)) nLag (h0 _)).bind fun u u0 hu => ?_
  exact PyT.ok (hv.2.fdmFormula (hz'.fdmGeomMulti hv.1 (hQ.an ht.rTip) (hQ.an ht.lTip) ht.gFactor) hu.2
    (hz'.fdmGeomMulti hu.1 (hQ.an ht.rTip) (hQ.an ht.lTip) ht.gFactor))

theorem SAnalytic.fdm_n_multi (h : SAnalytic ℝ w Q s s0) (hQ : RealClass ℝ w Q) (env : Env) {A n : E → FP ℝ} {A0 n0 : FP ℝ} (hA : Q A A0)
    (hn : Q n n0) {z : E → Option (FP ℝ)} {z0 : Option (FP ℝ)} (hz : ArgIn Q z z0) {p : E → FdmArgs (FP ℝ) (FP ℂ)}
    {p0 : FdmArgs (FP ℝ) (FP ℂ)} (hp : FdmArgsIn ℝ w Q p p0) (nT nLag : Option ℕ)
    (h0 : ∀ x d, s0.imageDepthAndCharge env x nLag ≠ .ok (d, .num 0)) :
    PyT (𝓝 w) (FPA ℝ w) (fun a => Fdm.effPolN env (s a) (A a) (n a) (z a) nT (p a) nLag (some "multi"))
      (Fdm.effPolN env s0 A0 n0 z0 nT p0 nLag (some "multi")) :=
  PyA.demod hQ env (f := fun a x => Fdm.effPol env (s a) (some x) (p a) nLag (some "multi"))
    (f0 := fun x => Fdm.effPol env s0 (some x) p0 nLag (some "multi"))
    (fun x x0 hx => h.fdm_multi hQ env (z := fun a => some (x a)) (z0 := some x0) hx hp nLag h0) (hQ.add (hz.getD (hQ.const _)) hA) hA hn nT

end Image

end Snompy
