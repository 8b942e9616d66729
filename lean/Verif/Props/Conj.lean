import Verif.Lemmas.Conj
import Verif.Props.Monotone

/-!
# C70: the quasistatic results do not depend on the sign convention for time

With the time dependence `exp(+iωt)` in place of `exp(-iωt)` every permittivity, polarizability and
charge fraction is replaced by its conjugate; so must be the results.
-/

namespace Snompy.Props

open Snompy

/-! ## C70 Conjugate inputs give conjugate results -/

/-- The quasistatic methods of a sample (the depth of the image charge is a length and stays). -/
theorem C70_sample (env : Env) (s : Stack (FP ℝ) (FP ℂ)) (q z : FP ℝ) (nLag : Option ℕ) :
    let s' : Stack (FP ℝ) (FP ℂ) := { s with eps := s.eps.map FP.conj }
    s'.reflCoefQs q = FP.conj <$> s.reflCoefQs q ∧
    s'.transCoefQs q = FP.conj <$> s.transCoefQs q ∧
    s'.reflCoefQsAboveSurf env z nLag = FP.conj <$> s.reflCoefQsAboveSurf env z nLag ∧
    s'.surfPotAndField env z nLag =
      (fun p => (FP.conj p.1, FP.conj p.2)) <$> s.surfPotAndField env z nLag ∧
    s'.imageDepthAndCharge env z nLag =
      (fun p => (p.1, FP.conj p.2)) <$> s.imageDepthAndCharge env z nLag :=
  ⟨s.reflCoefQs_conj q, s.transCoefQs_conj q, s.reflCoefQsAboveSurf_conj env z nLag,
    s.surfPotAndField_conj env z nLag, s.imageDepthAndCharge_conj env z nLag⟩

/-- Not vacuous: the two samples differ, and so do their finite reflection coefficients. -/
example : (bulk 1 (1 + Complex.I)).reflCoefQs = .ok (FP.num (Complex.I / (2 + Complex.I))) ∧
    ({ (bulk 1 (1 + Complex.I)) with eps := (bulk 1 (1 + Complex.I)).eps.map FP.conj } :
      Stack (FP ℝ) (FP ℂ)).reflCoefQs = .ok (FP.num (-Complex.I / (2 - Complex.I))) ∧
    Complex.I / (2 + Complex.I) ≠ -Complex.I / (2 - Complex.I) := by
  have h1 : (1 + Complex.I : ℂ) ≠ 0 := fun h => by simpa using congrArg Complex.im h
  have h2 : (1 + Complex.I + 1 : ℂ) ≠ 0 := fun h => by simpa using congrArg Complex.im h
  have h3 : (2 + Complex.I : ℂ) ≠ 0 := fun h => by simpa using congrArg Complex.im h
  have h4 : (2 - Complex.I : ℂ) ≠ 0 := fun h => by simpa using congrArg Complex.im h
  have e := C09_refl 1 (1 + Complex.I) none (FP.num 0) h1 h2
  rw [show (1 + Complex.I - 1) / (1 + Complex.I + 1) = Complex.I / (2 + Complex.I) by
    congr 1 <;> ring] at e
  refine ⟨e, ?_, ?_⟩
  · refine ((C70_sample ⟨Defaults.initial, fun _ => []⟩ _ (FP.num 0) (FP.num 0) none).1).trans ?_
    rw [e]
    simp [sub_eq_add_neg]
  · rw [Ne, div_eq_div_iff h3 h4]
    intro h
    have := congrArg Complex.im h
    simp at this
    norm_num at this

/-- Demodulation: a conjugate signal has conjugate harmonics (not those of opposite sign), because the modulation
is a cosine. -/
theorem C70_demod (env : Env) (f : FP ℝ → PyM (FP ℂ)) (x0 amp n : FP ℝ) (nT : Option ℕ) :
    demod env (fun x => FP.conj <$> f x) x0 amp n nT = FP.conj <$> demod env f x0 amp n nT :=
  demod_conj env (fun _ => rfl) x0 amp n nT

/-- The finite dipole functions, for any method and any (given or default) arguments.  `env'` are defaults in which
`g_factor` is conjugated. -/
theorem C70_fdm (env env' : Env) (henv : env' = { env with defaults :=
      { env.defaults with gFactor := starRingEnd ℂ env.defaults.gFactor } })
    (s : Stack (FP ℝ) (FP ℂ)) (A n : FP ℝ) (z : Option (FP ℝ)) (a : FdmArgs (FP ℝ) (FP ℂ))
    (nLag nT nTayl : Option ℕ) (method : Option String) (c : FP ℂ) :
    let s' : Stack (FP ℝ) (FP ℂ) := { s with eps := s.eps.map FP.conj }
    let a' : FdmArgs (FP ℝ) (FP ℂ) := { a with gFactor := a.gFactor.map FP.conj }
    Fdm.effPol env' s' z a' nLag method = FP.conj <$> Fdm.effPol env s z a nLag method ∧
    Fdm.effPolN env' s' A n z nT a' nLag method =
      FP.conj <$> Fdm.effPolN env s A n z nT a nLag method ∧
    Fdm.effPolNTaylor env' s' A n z a' nLag method nT nTayl =
      FP.conj <$> Fdm.effPolNTaylor env s A n z a nLag method nT nTayl ∧
    Fdm.reflCoefQsFromEffPol env' c.conj z a' = (Fdm.reflCoefQsFromEffPol env c z a).conj := by
  subst henv
  exact ⟨Fdm.effPol_conj env s z a nLag method, Fdm.effPolN_conj env s A n z nT a nLag method,
    Fdm.effPolNTaylor_conj env s A n z a nLag method nT nTayl,
    Fdm.reflCoefQsFromEffPol_conj env c z a⟩

/-- The point dipole functions. -/
theorem C70_pdm (env : Env) (s : Stack (FP ℝ) (FP ℂ)) (A n : FP ℝ) (z : Option (FP ℝ))
    (a : PdmArgs (FP ℝ) (FP ℂ)) (nT nTayl : Option ℕ) (c : FP ℂ) :
    let s' : Stack (FP ℝ) (FP ℂ) := { s with eps := s.eps.map FP.conj }
    let a' : PdmArgs (FP ℝ) (FP ℂ) :=
      { a with epsTip := a.epsTip.map FP.conj, alphaTip := a.alphaTip.map FP.conj }
    Pdm.effPol env s' z a' = FP.conj <$> Pdm.effPol env s z a ∧
    Pdm.effPolN env s' A n z nT a' = FP.conj <$> Pdm.effPolN env s A n z nT a ∧
    Pdm.effPolNTaylor env s' A n z a' nT nTayl =
      FP.conj <$> Pdm.effPolNTaylor env s A n z a nT nTayl ∧
    Pdm.reflCoefQsFromEffPol env c.conj z a' = FP.conj <$> Pdm.reflCoefQsFromEffPol env c z a :=
  ⟨Pdm.effPol_conj env s z a, Pdm.effPolN_conj env s A n z nT a,
    Pdm.effPolNTaylor_conj env s A n z a nT nTayl, Pdm.reflCoefQsFromEffPol_conj env c z a⟩

/-- A real number that survived conjugation is real. -/
private theorem im_eq_zero {x : PyM (FP ℂ)} (h : x = FP.conj <$> x) {v : ℂ}
    (hv : x = .ok (FP.num v)) : v.im = 0 := by
  rw [hv] at h
  simp only [PyM.map_ok, FP.conj_num, Except.ok.injEq, FP.num_inj] at h
  exact Complex.conj_eq_iff_im.1 h.symm

private theorem conj_real (l : List ℝ) :
    (l.map fun e : ℝ => FP.num (e : ℂ)).map FP.conj = l.map fun e : ℝ => FP.num (e : ℂ) := by
  simp

/-- Lossless samples and a real charge fraction give real signals at every harmonic: nothing in the model introduces
a phase by itself. -/
theorem C70_fdm_real (env : Env) (eps t : List ℝ) (nu : Option (FP ℝ)) (A n : FP ℝ)
    (z : Option (FP ℝ)) (a : FdmArgs (FP ℝ) (FP ℂ)) (g : ℝ) (nLag nT nTayl : Option ℕ)
    (method : Option String) (v : ℂ) :
    let s : Stack (FP ℝ) (FP ℂ) := ⟨eps.map fun e : ℝ => FP.num (e : ℂ), t.map FP.num, nu⟩
    let a' : FdmArgs (FP ℝ) (FP ℂ) := { a with gFactor := some (FP.num g) }
    (Fdm.effPol env s z a' nLag method = .ok (FP.num v) → v.im = 0) ∧
    (Fdm.effPolN env s A n z nT a' nLag method = .ok (FP.num v) → v.im = 0) ∧
    (Fdm.effPolNTaylor env s A n z a' nLag method nT nTayl = .ok (FP.num v) → v.im = 0) := by
  intro s a'
  obtain ⟨h1, h2, h3, -⟩ := C70_fdm env _ rfl s A n z a' nLag nT nTayl method (FP.num 0)
  have hs : ({ s with eps := s.eps.map FP.conj } : Stack (FP ℝ) (FP ℂ)) = s := by
    show (⟨_, _, _⟩ : Stack (FP ℝ) (FP ℂ)) = ⟨_, _, _⟩
    rw [conj_real]
  have ha : ({ a' with gFactor := a'.gFactor.map FP.conj } : FdmArgs (FP ℝ) (FP ℂ)) = a' := by
    simp [a']
  simp only [hs, ha] at h1 h2 h3
  exact ⟨im_eq_zero h1, im_eq_zero h2, im_eq_zero h3⟩

/-- The hypotheses are met. -/
example (env : Env) : ∃ v, Fdm.effPol env
    ⟨[1, 3].map fun e : ℝ => FP.num (e : ℂ), ([] : List ℝ).map FP.num, none⟩ (some (FP.num 100))
    { fdmTip 20 300 0 1 0.5 1.4 with gFactor := some (FP.num ((0.7 : ℝ) : ℂ)) } none (some "bulk") =
      .ok (FP.num v) := by
  obtain ⟨v, -, h, -⟩ := C68_contrast env 1 3 5 one_pos (by norm_num) (by norm_num) 20 300 0.7 1 0.5 1.4
    100 none
    ⟨by norm_num, by norm_num, by norm_num, by norm_num, by norm_num, by norm_num, by norm_num⟩
    ⟨by norm_num, by norm_num, by norm_num, by norm_num, by norm_num, by norm_num, by norm_num⟩
  exact ⟨v, h⟩

/-- The same for the point dipole model with a real tip. -/
theorem C70_pdm_real (env : Env) (eps t : List ℝ) (nu : Option (FP ℝ)) (A n : FP ℝ)
    (z r : Option (FP ℝ)) (et αt : Option ℝ) (nT nTayl : Option ℕ) (v : ℂ) :
    let s : Stack (FP ℝ) (FP ℂ) := ⟨eps.map fun e : ℝ => FP.num (e : ℂ), t.map FP.num, nu⟩
    let a : PdmArgs (FP ℝ) (FP ℂ) :=
      ⟨r, et.map fun e : ℝ => FP.num (e : ℂ), αt.map fun e : ℝ => FP.num (e : ℂ)⟩
    (Pdm.effPol env s z a = .ok (FP.num v) → v.im = 0) ∧
    (Pdm.effPolN env s A n z nT a = .ok (FP.num v) → v.im = 0) ∧
    (Pdm.effPolNTaylor env s A n z a nT nTayl = .ok (FP.num v) → v.im = 0) := by
  intro s a
  obtain ⟨h1, h2, h3, -⟩ := C70_pdm env s A n z a nT nTayl (FP.num 0)
  have hs : ({ s with eps := s.eps.map FP.conj } : Stack (FP ℝ) (FP ℂ)) = s := by
    show (⟨_, _, _⟩ : Stack (FP ℝ) (FP ℂ)) = ⟨_, _, _⟩
    rw [conj_real]
  have ha : ({ a with epsTip := a.epsTip.map FP.conj, alphaTip := a.alphaTip.map FP.conj } :
      PdmArgs (FP ℝ) (FP ℂ)) = a := by
    cases et <;> cases αt <;> simp [a]
  simp only [hs, ha] at h1 h2 h3
  exact ⟨im_eq_zero h1, im_eq_zero h2, im_eq_zero h3⟩

/-- The hypotheses are met. -/
example (env : Env) : ∃ v, Pdm.effPol env
    ⟨[1, 3].map fun e : ℝ => FP.num (e : ℂ), ([] : List ℝ).map FP.num, none⟩ (some (FP.num 1))
    ⟨some (FP.num 1), (none : Option ℝ).map fun e : ℝ => FP.num (e : ℂ),
      (some (1 : ℝ)).map fun e : ℝ => FP.num (e : ℂ)⟩ = .ok (FP.num v) := by
  obtain ⟨v, -, h, -⟩ := C68_pdm env (bulk (1 : ℝ) (3 : ℝ)) (bulk (1 : ℝ) (3 : ℝ)) (1 / 2) (1 / 2)
    (by rw [C09_refl] <;> norm_num) (by rw [C09_refl] <;> norm_num) 1 1 1 0 one_pos
    zero_le_one (by norm_num) (by norm_num) le_rfl (Or.inr one_pos)
    (by have := Real.two_le_pi; norm_num; linarith)
  exact ⟨v, h⟩

end Snompy.Props
