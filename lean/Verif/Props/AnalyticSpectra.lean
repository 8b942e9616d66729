import Verif.Props.Analytic
import Verif.Props.Spectra

/-!
C125, continued: the permittivity models `lorentz_perm` and `drude_perm` and the near-field spectra of bulk
samples described by them.
-/

namespace Snompy.Props

open Snompy Filter Topology

variable {𝕜 : Type} [NontriviallyNormedField 𝕜] [NormedAlgebra 𝕜 ℂ] {E : Type} [NormedAddCommGroup E] [NormedSpace 𝕜 E] {w : E}

theorem lorentz_tail {nu nuJ gam A : E → FP ℝ} {nu0 nuJ0 gam0 A0 : FP ℝ} {ei : E → FP ℂ} {ei0 : FP ℂ} (hnu : FPA 𝕜 w nu nu0)
    (hJ : FPA 𝕜 w nuJ nuJ0) (hg : FPA 𝕜 w gam gam0) (hA : FPA 𝕜 w A A0) (he : FPA 𝕜 w ei ei0) :
    FPA 𝕜 w (fun a => ei a + Snompy.ofR (A a) / (Snompy.ofR (RealOps.npow (nuJ a) 2 - RealOps.npow (nu a) 2) -
        (clit Complex.I : FP ℂ) * Snompy.ofR (gam a) * Snompy.ofR (nu a)))
      (ei0 + Snompy.ofR A0 / (Snompy.ofR (RealOps.npow nuJ0 2 - RealOps.npow nu0 2) -
        (clit Complex.I : FP ℂ) * Snompy.ofR gam0 * Snompy.ofR nu0)) :=
  he.cadd (hA.ofR.cdiv ((((hJ.npow 2).sub (hnu.npow 2)).ofR).csub (((FPA.const _).cmul hg.ofR).cmul hnu.ofR)))

theorem C125_lorentz {nu nuJ gam f : E → ℝ} {ei : E → ℂ} (hnu : AnalyticAt 𝕜 (fun a => (nu a : ℂ)) w)
    (hJ : AnalyticAt 𝕜 (fun a => (nuJ a : ℂ)) w) (hg : AnalyticAt 𝕜 (fun a => (gam a : ℂ)) w)
    (hf : AnalyticAt 𝕜 (fun a => (f a : ℂ)) w) (he : AnalyticAt 𝕜 ei w) {A P : E → Option (FP ℝ)} (hA : ArgAnalytic 𝕜 w A)
    (hP : ArgAnalytic 𝕜 w P) (x0 : ℂ)
    (h0 : lorentzPerm (FP.num (nu w)) (FP.num (nuJ w)) (FP.num (gam w)) (A w) (P w) (FP.num (f w)) (FP.num (ei w)) = .ok (FP.num x0)) :
    IsAnalytic 𝕜 w fun a =>
      lorentzPerm (FP.num (nu a)) (FP.num (nuJ a)) (FP.num (gam a)) (A a) (P a) (FP.num (f a)) (FP.num (ei a)) := by
  have key : ∀ {B : E → FP ℝ} {B0 : FP ℝ}, FPA 𝕜 w B B0 → _ := fun hB =>
    lorentz_tail (FPA.num hnu) (FPA.num hJ) (FPA.num hg) hB (FPA.num he)
  have plasma : ∀ {B : E → FP ℝ} {B0 : FP ℝ}, FPA 𝕜 w B B0 → _ := fun hB => key ((FPA.num hf).mul (hB.npow 2))
  cases hA with
  | fixed A =>
    cases hP with
    | fixed P =>
      cases A with
      | none =>
        cases P with
        | none => cases h0
        | some P => exact PyA.finite (PyT.ok (plasma (FPA.const P))) h0
      | some A =>
        cases P with
        | none => exact PyA.finite (PyT.ok (key (FPA.const A))) h0
        | some P => cases h0
    | given hP =>
      cases A with
      | none => exact PyA.finite (PyT.ok (plasma (FPA.num hP))) h0
      | some A => cases h0
  | given hA =>
    cases hP with
    | fixed P =>
      cases P with
      | none => exact PyA.finite (PyT.ok (key (FPA.num hA))) h0
      | some P => cases h0
    | given hP => cases h0

theorem C125_drude {nu nuP gam : E → ℝ} {ei : E → ℂ} (hnu : AnalyticAt 𝕜 (fun a => (nu a : ℂ)) w)
    (hP : AnalyticAt 𝕜 (fun a => (nuP a : ℂ)) w) (hg : AnalyticAt 𝕜 (fun a => (gam a : ℂ)) w) (he : AnalyticAt 𝕜 ei w) (x0 : ℂ)
    (h0 : drudePerm (FP.num (nu w)) (FP.num (nuP w)) (FP.num (gam w)) (FP.num (ei w)) = .ok (FP.num x0)) :
    IsAnalytic 𝕜 w fun a => drudePerm (FP.num (nu a)) (FP.num (nuP a)) (FP.num (gam a)) (FP.num (ei a)) :=
  C125_lorentz (nuJ := fun _ => 0) (f := fun _ => 1) hnu analyticAt_const hg analyticAt_const he (ArgAnalytic.fixed none)
    (ArgAnalytic.given hP) x0 h0

/-- Near resonance, and all five parameters vary at once. -/
example : IsAnalytic ℝ (1 : ℝ) fun x =>
    lorentzPerm (FP.num (2 * x)) (FP.num 2) (FP.num x) (some (FP.num x)) none (FP.num 1) (FP.num (x : ℂ)) := by
  have hx : AnalyticAt ℝ (fun x : ℝ => (x : ℂ)) 1 := Complex.ofRealCLM.analyticAt 1
  have h2 : AnalyticAt ℝ (fun x : ℝ => ((2 * x : ℝ) : ℂ)) 1 := by
    have h := (analyticAt_const (𝕜 := ℝ) (x := (1 : ℝ)) (v := (2 : ℂ))).mul hx
    refine h.congr (Eventually.of_forall fun x => ?_)
    push_cast
    rfl
  refine C125_lorentz (nuJ := fun _ => 2) (f := fun _ => 1) h2 analyticAt_const hx analyticAt_const hx (ArgAnalytic.given (v := fun x => x) hx)
    (ArgAnalytic.fixed none) _ (C55_lorentz _ _ _ 1 _ _ ?_)
  norm_num

/-! ## Spectra -/

/-- The program that works out the permittivity `eps_inf + A_j / ...` of the substrate at the frequency `nu`, and hands
`bulk_sample(eps_sub, eps_env=e, nu_vac=nu)` to `model`. -/
noncomputable def lorentzSpectrum (nuJ gam A : ℝ) (ei e : ℂ) (model : Stack (FP ℝ) (FP ℂ) → PyM (FP ℂ)) (nu : ℝ) : PyM (FP ℂ) := do
  let x ← lorentzPerm (FP.num nu) (FP.num nuJ) (FP.num gam) (some (FP.num A)) none (epsInf := FP.num ei)
  model ⟨[FP.num e, x], [], some (FP.num nu)⟩

theorem IsAnalytic.congr {x y : E → PyM (FP ℂ)} (h : IsAnalytic 𝕜 w x) (hxy : ∀ᶠ a in 𝓝 w, y a = x a) : IsAnalytic 𝕜 w y := by
  obtain ⟨v, h1, h2⟩ := h
  exact ⟨v, by filter_upwards [h1, hxy] with a h1 h3; rw [h3, h1], h2⟩

theorem lorentzSpectrum_bulk (nuJ gam A : ℝ) (ei : ℂ) {nu0 : ℝ} (h : nuJ ^ 2 - nu0 ^ 2 ≠ 0 ∨ gam * nu0 ≠ 0) :
    ∃ v : ℝ → ℂ, AnalyticAt ℝ v nu0 ∧ ∀ᶠ nu in 𝓝 nu0, ∀ e model,
      lorentzSpectrum nuJ gam A ei e model nu = model (bulk e (v nu) (some nu)) := by
  have hx : AnalyticAt ℝ (fun x : ℝ => (x : ℂ)) nu0 := Complex.ofRealCLM.analyticAt nu0
  obtain ⟨v, h1, h2⟩ := C125_lorentz (𝕜 := ℝ) (w := nu0) (nu := fun x => x) (nuJ := fun _ => nuJ) (gam := fun _ => gam) (f := fun _ => 1)
    (ei := fun _ => ei) hx analyticAt_const analyticAt_const analyticAt_const analyticAt_const (ArgAnalytic.fixed (some (FP.num A)))
    (ArgAnalytic.fixed none) _ (lorentz_eq nu0 nuJ gam A ei h)
  refine ⟨v, h2, ?_⟩
  filter_upwards [h1] with nu h1 e model
  have h1' : lorentzPerm (FP.num nu) (FP.num nuJ) (FP.num gam) (some (FP.num A)) none (epsInf := FP.num ei) = .ok (FP.num (v nu)) := h1
  rw [lorentzSpectrum, h1']
  rfl

/-- The near-field spectra of a damped Lorentz oscillator are real-analytic in the frequency wherever they are finite. -/
theorem C125_spectrum (env : Env) (nuJ gam A : ℝ) (ei e : ℂ) {nu0 : ℝ} (h : nuJ ^ 2 - nu0 ^ 2 ≠ 0 ∨ gam * nu0 ≠ 0) (a n : ℝ)
    (z : Option (FP ℝ)) (nT nLag : Option ℕ) :
    (∀ (p : FdmArgs (FP ℝ) (FP ℂ)) (m : Option String), m ≠ some "multi" → ∀ x0,
      lorentzSpectrum nuJ gam A ei e (fun s => Fdm.effPolN env s (FP.num a) (FP.num n) z nT p nLag m) nu0 = .ok (FP.num x0) →
      IsAnalytic ℝ nu0 (lorentzSpectrum nuJ gam A ei e fun s => Fdm.effPolN env s (FP.num a) (FP.num n) z nT p nLag m)) ∧
    ∀ (p : PdmArgs (FP ℝ) (FP ℂ)) (x0 : ℂ),
      lorentzSpectrum nuJ gam A ei e (fun s => Pdm.effPolN env s (FP.num a) (FP.num n) z nT p) nu0 = .ok (FP.num x0) →
      IsAnalytic ℝ nu0 (lorentzSpectrum nuJ gam A ei e fun s => Pdm.effPolN env s (FP.num a) (FP.num n) z nT p) := by
  obtain ⟨v, hv, h1⟩ := lorentzSpectrum_bulk nuJ gam A ei h
  have h2 := h1.self_of_nhds
  constructor
  · intro p m hm x0 h0
    rw [h2] at h0
    refine IsAnalytic.congr (C125_bulk_fdm_n env (e := fun _ => e) (nu := fun x => some x) analyticAt_const hv (A := fun _ => a) (n := fun _ => n)
      analyticAt_const analyticAt_const (ArgAnalytic.fixed z) (p := fun _ => p)
      ⟨.fixed _, .fixed _, .fixed _, .fixed _, .fixed _, .fixed _⟩ nT nLag m hm x0 h0) ?_
    filter_upwards [h1] with nu h1
    exact h1 _ _
  · intro p x0 h0
    rw [h2] at h0
    refine IsAnalytic.congr (C125_bulk_pdm_n env (e := fun _ => e) (nu := fun x => some x) analyticAt_const hv (A := fun _ => a) (n := fun _ => n)
      analyticAt_const analyticAt_const (ArgAnalytic.fixed z) (p := fun _ => p) ⟨.fixed _, .fixed _, .fixed _⟩ nT x0 h0) ?_
    filter_upwards [h1] with nu h1
    exact h1 _ _

/-- Where the permittivity of the oscillator crosses that of its surroundings there is no signal. -/
example (d : Defaults) :
    IsAnalytic ℝ (1 : ℝ) (lorentzSpectrum 2 0 3 1 2 fun s => Fdm.effPolN (rule2 d) s (FP.num 2) (FP.num ((3 : ℤ) : ℝ))
      (some (FP.num 0)) (some 8) (fdmTip 1 300 Complex.I 1 (1 / 2) 1.4) (some 2) none) ∧
    IsAnalytic ℝ (1 : ℝ) (lorentzSpectrum 2 0 3 1 2 fun s => Pdm.effPolN (rule2 d) s (FP.num 2) (FP.num ((3 : ℤ) : ℝ))
      (some (FP.num 0)) (some 8) (tip 1 2)) := by
  have h : (2 : ℝ) ^ 2 - 1 ^ 2 ≠ 0 ∨ (0 : ℝ) * 1 ≠ 0 := by norm_num
  have h2 : ∀ model, lorentzSpectrum 2 0 3 1 2 model 1 = model (bulk 2 2 (some 1)) := fun model => by
    have h3 : lorentzPerm (FP.num 1) (FP.num 2) (FP.num 0) (some (FP.num 3)) none (epsInf := FP.num (1 : ℂ)) = .ok (FP.num (2 : ℂ)) := by
      refine (lorentz_eq 1 2 0 3 1 h).trans ?_
      norm_num
    rw [lorentzSpectrum, h3]
    rfl
  refine ⟨(C125_spectrum (rule2 d) 2 0 3 1 2 h 2 ((3 : ℤ) : ℝ) (some (FP.num 0)) (some 8) (some 2)).1 _ none (by simp) 0 ?_,
    (C125_spectrum (rule2 d) 2 0 3 1 2 h 2 ((3 : ℤ) : ℝ) (some (FP.num 0)) (some 8) (some 2)).2 _ 0 ?_⟩
  · rw [h2]
    exact C37_fdm_n (rule2 d) 2 (some 1) (by norm_num) (some 2) (rule2_ok d) 0 1 300 Complex.I 1 (1 / 2) 1.4 example_geomOk.1 example_geomOk.2
      none (.inl rfl) 2 (by norm_num) 3 8 (by norm_num) (by norm_num)
  · rw [h2]
    exact C37_pdm_n (rule2 d) 2 (some 1) 0 1 2 2 3 8 (by norm_num) one_pos le_rfl zero_le_two (by norm_num) (by norm_num)

end Snompy.Props
