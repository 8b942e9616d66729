import Verif.Spec.Session

/-!
# C56: explicit arguments shield a call from `snompy.defaults`
-/

namespace Snompy.Props

variable (lag : ℕ → List (ℝ × ℝ)) (sv : Solver)

theorem demod_env {d d' : Defaults} {f : RArr → PyM CArr} {x0 amp n : RArr} {nTrapz : Option ℕ}
    (h : nTrapz.isSome) : demod ⟨d, lag⟩ f x0 amp n nTrapz = demod ⟨d', lag⟩ f x0 amp n nTrapz := by
  obtain ⟨k, rfl⟩ := Option.isSome_iff_exists.1 h
  rfl

theorem fdm_env {d d' : Defaults} {a : FdmArgs RArr CArr} (h : a.Given) : d.fdm a = d'.fdm a := by
  obtain ⟨r, L, g, q0, q1, qa⟩ := a
  obtain ⟨h1, h2, h3, h4, h5, h6⟩ := h
  obtain ⟨_, rfl⟩ := Option.isSome_iff_exists.1 h1
  obtain ⟨_, rfl⟩ := Option.isSome_iff_exists.1 h2
  obtain ⟨_, rfl⟩ := Option.isSome_iff_exists.1 h3
  obtain ⟨_, rfl⟩ := Option.isSome_iff_exists.1 h4
  obtain ⟨_, rfl⟩ := Option.isSome_iff_exists.1 h5
  obtain ⟨_, rfl⟩ := Option.isSome_iff_exists.1 h6
  rfl

theorem pdm_env {d d' : Defaults} {a : PdmArgs RArr CArr} (h : a.rTip.isSome) : d.pdm a = d'.pdm a := by
  obtain ⟨r, e, al⟩ := a
  obtain ⟨_, rfl⟩ := Option.isSome_iff_exists.1 h
  rfl

theorem aboveSurf_env {d d' : Defaults} {s : Stack RArr CArr} {zQ : RArr} {nLag : Option ℕ} (h : nLag.isSome) :
    s.reflCoefQsAboveSurf ⟨d, lag⟩ zQ nLag = s.reflCoefQsAboveSurf ⟨d', lag⟩ zQ nLag := by
  obtain ⟨k, rfl⟩ := Option.isSome_iff_exists.1 h
  rfl

theorem surf_env {d d' : Defaults} {s : Stack RArr CArr} {zQ : RArr} {nLag : Option ℕ} (h : nLag.isSome) :
    s.surfPotAndField ⟨d, lag⟩ zQ nLag = s.surfPotAndField ⟨d', lag⟩ zQ nLag := by
  obtain ⟨k, rfl⟩ := Option.isSome_iff_exists.1 h
  rfl

theorem image_env {d d' : Defaults} {s : Stack RArr CArr} {zQ : RArr} {nLag : Option ℕ} (h : nLag.isSome) :
    s.imageDepthAndCharge ⟨d, lag⟩ zQ nLag = s.imageDepthAndCharge ⟨d', lag⟩ zQ nLag := by
  unfold Stack.imageDepthAndCharge
  rw [surf_env lag (d' := d') h]

theorem effPol_env {d d' : Defaults} {s : Stack RArr CArr} {zTip : Option RArr} {a : FdmArgs RArr CArr}
    {nLag : Option ℕ} {method : Option String} (hz : zTip.isSome) (ha : a.Given) (h : nLag.isSome) :
    Fdm.effPol ⟨d, lag⟩ s zTip a nLag method = Fdm.effPol ⟨d', lag⟩ s zTip a nLag method := by
  obtain ⟨z, rfl⟩ := Option.isSome_iff_exists.1 hz
  simp only [Fdm.effPol, Option.getD_some, fdm_env (d := d) (d' := d') ha,
    fun z => image_env lag (d := d) (d' := d') (s := s) (zQ := z) h,
    fun z => aboveSurf_env lag (d := d) (d' := d') (s := s) (zQ := z) h]

/-- **C56, first part.** A call whose optional arguments are all given returns (or raises) the same whatever
`snompy.defaults` holds. -/
theorem C56_explicit (d d' : Defaults) {c : Call} (h : c.Explicit) : c.run ⟨d, lag⟩ sv = c.run ⟨d', lag⟩ sv := by
  cases c with
  | demod f x0 amp n nTrapz => simp only [Call.run, demod_env lag (d' := d') h]
  | sample a =>
    obtain ⟨e, b, t, E, nu⟩ := a
    obtain ⟨_, rfl⟩ := Option.isSome_iff_exists.1 h
    rfl
  | bulkSample epsSub beta epsEnv t nuVac =>
    obtain ⟨_, rfl⟩ := Option.isSome_iff_exists.1 h
    rfl
  | aboveSurf s zQ nLag => simp only [Call.run, aboveSurf_env lag (d := d) (d' := d') h]
  | surf s zQ nLag => simp only [Call.run, surf_env lag (d := d) (d' := d') h]
  | image s zQ nLag => simp only [Call.run, image_env lag (d := d) (d' := d') h]
  | fdmEffPol s zTip a nLag method => simp only [Call.run, effPol_env lag (d := d) (d' := d') h.1 h.2.1 h.2.2]
  | fdmEffPolN s aTip n zTip nTrapz a nLag method =>
    obtain ⟨hz, ht, ha, hl⟩ := h
    obtain ⟨z, rfl⟩ := Option.isSome_iff_exists.1 hz
    simp only [Call.run, Fdm.effPolN, demod_env lag (d := d) (d' := d') ht, Option.getD_some,
      fun z => effPol_env lag (d := d) (d' := d') (s := s) (zTip := some z) (method := method) rfl ha hl]
  | fdmTaylorCoef zTip j aTip n rTip lTip g dQ0 dQ1 nTrapz =>
    simp only [Call.run, Fdm.taylorCoef, demod_env lag (d := d) (d' := d') h]
  | fdmTaylor s aTip n zTip a nLag method nTrapz nTayl =>
    obtain ⟨hz, ha, hl, ht, hy⟩ := h
    obtain ⟨z, rfl⟩ := Option.isSome_iff_exists.1 hz
    obtain ⟨y, rfl⟩ := Option.isSome_iff_exists.1 hy
    simp only [Call.run, Fdm.effPolNTaylor, Fdm.taylorCoef, Fdm.taylorBeta, demod_env lag (d := d) (d' := d') ht,
      Option.getD_some, fdm_env (d := d) (d' := d') ha,
      fun z => aboveSurf_env lag (d := d) (d' := d') (s := s) (zQ := z) hl]
  | fdmInvert alpha zTip a =>
    obtain ⟨hz, ha⟩ := h
    obtain ⟨z, rfl⟩ := Option.isSome_iff_exists.1 hz
    simp only [Call.run, Fdm.reflCoefQsFromEffPol, Option.getD_some, fdm_env (d := d) (d' := d') ha]
  | fdmInvertN alpha aTip n zTip a nTrapz nTayl v =>
    obtain ⟨hz, ⟨h1, h2, h3, h4, h5, -⟩, ht, hy, hv, hE⟩ := h
    obtain ⟨r, L, g, q0, q1, qa⟩ := a
    obtain ⟨thr, r1, r2, E⟩ := v
    obtain ⟨z, rfl⟩ := Option.isSome_iff_exists.1 hz
    obtain ⟨y, rfl⟩ := Option.isSome_iff_exists.1 hy
    obtain ⟨_, rfl⟩ := Option.isSome_iff_exists.1 hv
    obtain ⟨_, rfl⟩ := Option.isSome_iff_exists.1 hE
    obtain ⟨_, rfl⟩ := Option.isSome_iff_exists.1 h1
    obtain ⟨_, rfl⟩ := Option.isSome_iff_exists.1 h2
    obtain ⟨_, rfl⟩ := Option.isSome_iff_exists.1 h3
    obtain ⟨_, rfl⟩ := Option.isSome_iff_exists.1 h4
    obtain ⟨_, rfl⟩ := Option.isSome_iff_exists.1 h5
    simp only [Call.run, Fdm.reflCoefQsFromEffPolN, Option.getD_some, Fdm.taylorCoef,
      demod_env lag (d := d) (d' := d') ht, Defaults.fdm]
  | pdmEffPol s zTip a =>
    obtain ⟨hz, ha⟩ := h
    obtain ⟨z, rfl⟩ := Option.isSome_iff_exists.1 hz
    simp only [Call.run, Pdm.effPol, Option.getD_some, pdm_env (d := d) (d' := d') ha]
  | pdmEffPolN s aTip n zTip nTrapz a =>
    obtain ⟨hz, ht, ha⟩ := h
    obtain ⟨z, rfl⟩ := Option.isSome_iff_exists.1 hz
    simp only [Call.run, Pdm.effPolN, demod_env lag (d := d) (d' := d') ht, Option.getD_some, Pdm.effPol,
      pdm_env (d := d) (d' := d') ha]
  | pdmTaylorCoef zTip j aTip n rTip alphaTip nTrapz =>
    simp only [Call.run, Pdm.taylorCoef, demod_env lag (d := d) (d' := d') h]
  | pdmTaylor s aTip n zTip a nTrapz nTayl =>
    obtain ⟨hz, ha, ht, hy⟩ := h
    obtain ⟨z, rfl⟩ := Option.isSome_iff_exists.1 hz
    obtain ⟨y, rfl⟩ := Option.isSome_iff_exists.1 hy
    simp only [Call.run, Pdm.effPolNTaylor, Pdm.taylorCoef, demod_env lag (d := d) (d' := d') ht,
      Option.getD_some, pdm_env (d := d) (d' := d') ha]
  | pdmInvert alpha zTip a =>
    obtain ⟨hz, ha⟩ := h
    obtain ⟨z, rfl⟩ := Option.isSome_iff_exists.1 hz
    simp only [Call.run, Pdm.reflCoefQsFromEffPol, Option.getD_some, pdm_env (d := d) (d' := d') ha]
  | pdmInvertN alpha aTip n zTip a nTrapz nTayl v =>
    obtain ⟨hz, ha, ht, hy, hv, hE⟩ := h
    obtain ⟨thr, r1, r2, E⟩ := v
    obtain ⟨z, rfl⟩ := Option.isSome_iff_exists.1 hz
    obtain ⟨y, rfl⟩ := Option.isSome_iff_exists.1 hy
    obtain ⟨_, rfl⟩ := Option.isSome_iff_exists.1 hv
    obtain ⟨_, rfl⟩ := Option.isSome_iff_exists.1 hE
    simp only [Call.run, Pdm.reflCoefQsFromEffPolN, Option.getD_some, Pdm.taylorCoef,
      demod_env lag (d := d) (d' := d') ht, pdm_env (d := d) (d' := d') ha]

theorem isSome_orReal (x : Option RArr) (v : ℝ) : (orReal x v).isSome := by cases x <;> rfl
theorem isSome_orCplx (x : Option CArr) (v : ℂ) : (orCplx x v).isSome := by cases x <;> rfl

theorem getD_orReal (x : Option RArr) (v w : ℝ) : (orReal x v).getD (lit w) = x.getD (lit v) := by cases x <;> rfl
theorem getD_orCplx (x : Option CArr) (v w : ℂ) :
    (orCplx x v).getD (clit w) = x.getD (clit v) := by cases x <;> rfl

theorem given_spellOut (d : Defaults) (a : FdmArgs RArr CArr) : (a.spellOut d).Given := by
  obtain ⟨r, L, g, q0, q1, qa⟩ := a
  refine ⟨isSome_orReal _ _, isSome_orReal _ _, isSome_orCplx _ _, ?_, isSome_orReal _ _, isSome_orReal _ _⟩
  cases r <;> cases L <;> cases q0 <;> rfl

/-- Spelling out the omitted arguments of a call leaves none. -/
theorem C56_spellOut (d : Defaults) (c : Call) : (c.spellOut d).Explicit := by
  have h1 := isSome_orReal
  have h2 : ∀ (x : Option ℕ) (v : ℕ), (x.or (some v)).isSome := by intro x v; cases x <;> rfl
  have h3 : ∀ (x : Option (NDArray (FP ℂ))) v, (x.or (some v)).isSome := by intro x v; cases x <;> rfl
  have h4 : ∀ (x : Option ℝ) (v : ℝ), (x.or (some v)).isSome := by intro x v; cases x <;> rfl
  have h5 := given_spellOut d
  have h6 : ∀ a : FdmArgs RArr CArr, ({ a.spellOut d with dQa := some (lit 0) } : FdmArgs RArr CArr).Given :=
    fun a => ⟨(h5 a).1, (h5 a).2.1, (h5 a).2.2.1, (h5 a).2.2.2.1, (h5 a).2.2.2.2.1, rfl⟩
  cases c <;> simp only [Call.spellOut, Call.Explicit, InvArgs.spellOut, InvArgs.Given, h1, h2, h3, h4, h5, h6,
    and_self]

theorem fdm_spellOut (d d' : Defaults) (a : FdmArgs RArr CArr) : d'.fdm (a.spellOut d) = d.fdm a := by
  obtain ⟨r, L, g, q0, q1, qa⟩ := a
  cases r <;> cases L <;> cases g <;> cases q0 <;> cases q1 <;> cases qa <;> rfl

theorem pdm_spellOut (d d' : Defaults) (a : PdmArgs RArr CArr) :
    d'.pdm { a with rTip := orReal a.rTip d.rTip } = d.pdm a := by
  obtain ⟨r, e, al⟩ := a
  cases r <;> rfl

theorem demod_spellOut {d : Defaults} {f : RArr → PyM CArr} {x0 amp n : RArr} {nTrapz : Option ℕ} :
    demod ⟨d, lag⟩ f x0 amp n (nTrapz.or (some d.nTrapz)) = demod ⟨d, lag⟩ f x0 amp n nTrapz := by
  cases nTrapz <;> rfl

theorem aboveSurf_spellOut {d : Defaults} {s : Stack RArr CArr} {zQ : RArr} {nLag : Option ℕ} :
    s.reflCoefQsAboveSurf ⟨d, lag⟩ zQ (nLag.or (some d.nLag)) = s.reflCoefQsAboveSurf ⟨d, lag⟩ zQ nLag := by
  cases nLag <;> rfl

theorem image_spellOut {d : Defaults} {s : Stack RArr CArr} {zQ : RArr} {nLag : Option ℕ} :
    s.imageDepthAndCharge ⟨d, lag⟩ zQ (nLag.or (some d.nLag)) = s.imageDepthAndCharge ⟨d, lag⟩ zQ nLag := by
  cases nLag <;> rfl

theorem effPol_spellOut {d : Defaults} {s : Stack RArr CArr} {zTip : Option RArr} {a : FdmArgs RArr CArr}
    {nLag : Option ℕ} {method : Option String} :
    Fdm.effPol ⟨d, lag⟩ s (orReal zTip d.zTip) (a.spellOut d) (nLag.or (some d.nLag)) method =
      Fdm.effPol ⟨d, lag⟩ s zTip a nLag method := by
  simp only [Fdm.effPol, getD_orReal, fdm_spellOut, image_spellOut, aboveSurf_spellOut]

theorem run_spellOut (d : Defaults) (c : Call) : (c.spellOut d).run ⟨d, lag⟩ sv = c.run ⟨d, lag⟩ sv := by
  cases c with
  | demod f x0 amp n nTrapz => simp only [Call.spellOut, Call.run, demod_spellOut]
  | sample a =>
    obtain ⟨e, b, t, E, nu⟩ := a
    cases E <;> rfl
  | bulkSample epsSub beta epsEnv t nuVac => cases epsEnv <;> rfl
  | aboveSurf s zQ nLag => simp only [Call.spellOut, Call.run, aboveSurf_spellOut]
  | surf s zQ nLag => cases nLag <;> rfl
  | image s zQ nLag => simp only [Call.spellOut, Call.run, image_spellOut]
  | fdmEffPol s zTip a nLag method => simp only [Call.spellOut, Call.run, effPol_spellOut]
  | fdmEffPolN s aTip n zTip nTrapz a nLag method =>
    simp only [Call.spellOut, Call.run, Fdm.effPolN, demod_spellOut, getD_orReal]
    have h : ∀ x, Fdm.effPol ⟨d, lag⟩ s (some x) (a.spellOut d) (nLag.or (some d.nLag)) method =
        Fdm.effPol ⟨d, lag⟩ s (some x) a nLag method := fun x => effPol_spellOut lag (zTip := some x)
    simp only [h]
  | fdmTaylorCoef zTip j aTip n rTip lTip g dQ0 dQ1 nTrapz =>
    simp only [Call.spellOut, Call.run, Fdm.taylorCoef, demod_spellOut]
  | fdmTaylor s aTip n zTip a nLag method nTrapz nTayl =>
    have hy : (nTayl.or (some d.nTayl)).getD d.nTayl = nTayl.getD d.nTayl := by cases nTayl <;> rfl
    simp only [Call.spellOut, Call.run, Fdm.effPolNTaylor, Fdm.taylorCoef, Fdm.taylorBeta, demod_spellOut,
      getD_orReal, fdm_spellOut, aboveSurf_spellOut, hy]
  | fdmInvert alpha zTip a =>
    simp only [Call.spellOut, Call.run, Fdm.reflCoefQsFromEffPol, getD_orReal, fdm_spellOut]
  | fdmInvertN alpha aTip n zTip a nTrapz nTayl v =>
    have hy : (nTayl.or (some d.nTayl)).getD d.nTayl = nTayl.getD d.nTayl := by cases nTayl <;> rfl
    have ha : d.fdm { a.spellOut d with dQa := none } = d.fdm { a with dQa := none } := by
      obtain ⟨r, L, g, q0, q1, qa⟩ := a
      cases r <;> cases L <;> cases g <;> cases q0 <;> cases q1 <;> rfl
    obtain ⟨thr, r1, r2, E⟩ := v
    simp only [Call.spellOut, Call.run, Fdm.reflCoefQsFromEffPolN, Fdm.taylorCoef, demod_spellOut, getD_orReal, ha,
      hy, InvArgs.spellOut]
    cases thr <;> cases E <;> rfl
  | pdmEffPol s zTip a => simp only [Call.spellOut, Call.run, Pdm.effPol, getD_orReal, pdm_spellOut]
  | pdmEffPolN s aTip n zTip nTrapz a =>
    simp only [Call.spellOut, Call.run, Pdm.effPolN, demod_spellOut, getD_orReal, Pdm.effPol, pdm_spellOut]
  | pdmTaylorCoef zTip j aTip n rTip alphaTip nTrapz =>
    simp only [Call.spellOut, Call.run, Pdm.taylorCoef, demod_spellOut]
  | pdmTaylor s aTip n zTip a nTrapz nTayl =>
    have hy : (nTayl.or (some d.nTayl)).getD d.nTayl = nTayl.getD d.nTayl := by cases nTayl <;> rfl
    simp only [Call.spellOut, Call.run, Pdm.effPolNTaylor, Pdm.taylorCoef, demod_spellOut, getD_orReal,
      pdm_spellOut, hy]
  | pdmInvert alpha zTip a =>
    simp only [Call.spellOut, Call.run, Pdm.reflCoefQsFromEffPol, getD_orReal, pdm_spellOut]
  | pdmInvertN alpha aTip n zTip a nTrapz nTayl v =>
    have hy : (nTayl.or (some d.nTayl)).getD d.nTayl = nTayl.getD d.nTayl := by cases nTayl <;> rfl
    obtain ⟨thr, r1, r2, E⟩ := v
    simp only [Call.spellOut, Call.run, Pdm.reflCoefQsFromEffPolN, Pdm.taylorCoef, demod_spellOut, getD_orReal,
      pdm_spellOut, hy, InvArgs.spellOut]
    cases thr <;> cases E <;> rfl

/-- **C56, second and third part, for one call.** An omitted argument is the value that `snompy.defaults` holds when the
call is made, and an omitted `d_Q0` follows the `r_tip` and `L_tip` of the call: spelling them out gives the same,
whatever the defaults are afterwards. -/
theorem C56_omitted (d d' : Defaults) (c : Call) : c.run ⟨d, lag⟩ sv = (c.spellOut d).run ⟨d', lag⟩ sv :=
  (run_spellOut lag sv d c).symm.trans (C56_explicit lag sv d d' (C56_spellOut d c))

/-- **C56, over histories, first part.** Two programs that make the same explicit calls see the same outcomes, however
they change `snompy.defaults` in between. -/
theorem C56_shielded (d d' : Defaults) {es es' : List Event} (hc : calls es = calls es')
    (hx : ∀ c ∈ calls es, c.Explicit) : session lag sv d es = session lag sv d' es' := by
  have key : ∀ (d d₀ : Defaults) (es : List Event), (∀ c ∈ calls es, c.Explicit) →
      session lag sv d es = (calls es).map fun c => c.run ⟨d₀, lag⟩ sv := by
    intro d d₀ es
    induction es generalizing d with
    | nil => intro _; rfl
    | cons e es ih =>
      intro hx
      cases e with
      | assign a => exact ih (a.run d) hx
      | call c =>
        rw [session, calls, List.map_cons, C56_explicit lag sv d d₀ (hx c (by simp [calls])),
          ih d fun c hc => hx c (by simp [calls, hc])]
  rw [key d d es hx, key d' d es' (by rw [← hc]; exact hx), hc]

/-- The defaults after a program. -/
def defaultsAfter (d : Defaults) : List Event → Defaults
  | [] => d
  | .assign a :: es => defaultsAfter (a.run d) es
  | .call _ :: es => defaultsAfter d es

theorem session_append (d : Defaults) (es es' : List Event) :
    session lag sv d (es ++ es') = session lag sv d es ++ session lag sv (defaultsAfter d es) es' := by
  induction es generalizing d with
  | nil => rfl
  | cons e es ih => cases e <;> simp only [List.cons_append, session, defaultsAfter, ih]

theorem holds_after (d : Defaults) (es : List Event) : Holds d es (defaultsAfter d es) := by
  induction es generalizing d with
  | nil => exact ⟨rfl, rfl, rfl, rfl, rfl, rfl, rfl, rfl, rfl, rfl, rfl⟩
  | cons e es ih =>
    cases e with
    | call c => exact ih d
    | assign a =>
      have h := ih (a.run d)
      have key : ∀ {α : Type} (f : Assign → Option α) (x : α),
          (lastAssigned f (.assign a :: es)).getD x = (lastAssigned f es).getD ((f a).getD x) := by
        intro α f x
        simp only [lastAssigned]
        cases lastAssigned f es <;> rfl
      simp only [Holds, key]
      cases a <;> exact h

/-- **C56, over histories.** A call made after any program returns what the same call with the omitted arguments spelt
out returns: each is the last value assigned to that default before the call (or the one it started with), no matter
what is assigned later and which other calls are made. -/
theorem C56_history (d₀ d' : Defaults) (before after : List Event) (c : Call) :
    ∃ d, Holds d₀ before d ∧
      session lag sv d₀ (before ++ .call c :: after) =
        session lag sv d₀ before ++ (c.spellOut d).run ⟨d', lag⟩ sv :: session lag sv d after := by
  refine ⟨defaultsAfter d₀ before, holds_after d₀ before, ?_⟩
  rw [session_append, session, ← C56_omitted]

/-- An explicit call, and a history that changes the defaults it would otherwise use. -/
example (s : Stack RArr CArr) (x y : RArr) (g : CArr) (d d' : Defaults) :
    session lag sv d [.call (.fdmEffPol s (some x) ⟨some x, some y, some g, some x, some y, some x⟩ (some 8) none),
      .assign (.rTip 5), .assign (.nLag 2)] =
    session lag sv d' [.assign (.rTip 7), .assign (.zTip 3),
      .call (.fdmEffPol s (some x) ⟨some x, some y, some g, some x, some y, some x⟩ (some 8) none)] :=
  C56_shielded lag sv d d' rfl (by
    simp only [calls, List.mem_singleton, forall_eq]
    exact ⟨rfl, ⟨rfl, rfl, rfl, rfl, rfl, rfl⟩, rfl⟩)

/-- The default of `d_Q0` at import is 1.31 · 15/17. -/
example : (Defaults.initial.fdm ({} : FdmArgs (FP ℝ) (FP ℂ))).dQ0 = FP.num (1.31 * (15 / 17)) := by
  show FP.num 1.31 * FP.num 300e-9 / (FP.num 300e-9 + FP.num 2 * FP.num 20e-9) = _
  rw [FP.num_mul, FP.num_mul, FP.num_add, FP.num_div _ (by norm_num), FP.num_inj]
  norm_num

end Snompy.Props
