import Verif.Lemmas.FdmScale
import Verif.Props.Image
import Verif.Props.Pdm

/-!
# C32, C33, C35–C38, C46 (FDM): the finite dipole model

`fdmTip` gives every tip parameter explicitly (C56 is about omitted ones).  `Fdm.GeomOk z d r l`
says that the logarithms in the geometry function at height `z` have positive arguments and that
the one in its denominator is not zero.
-/

namespace Snompy.Props

open Snompy Filter Topology

/-- All tip parameters given. -/
def fdmTip (r l : ℝ) (g : ℂ) (d0 d1 dA : ℝ) : FdmArgs (FP ℝ) (FP ℂ) :=
  ⟨some (FP.num r), some (FP.num l), some (FP.num g), some (FP.num d0), some (FP.num d1),
    some (FP.num dA)⟩

theorem fdm_fdmTip (env : Env) (r l : ℝ) (g : ℂ) (d0 d1 dA : ℝ) :
    env.defaults.fdm (fdmTip r l g d0 d1 dA) =
      ⟨FP.num r, FP.num l, FP.num g, FP.num d0, FP.num d1, FP.num dA⟩ := rfl

theorem bulk_multilayer (e sub : ℂ) (nu : Option ℝ) : (bulk e sub nu).multilayer = false := rfl

/-- `eff_pol` of a sample that is not a multilayer. -/
theorem effPol_val (env : Env) (s : Stack (FP ℝ) (FP ℂ)) (hm : s.multilayer = false) (β : ℂ)
    (hβ : s.reflCoefQs = .ok (FP.num β)) (z r l : ℝ) (g : ℂ) (d0 d1 dA : ℝ)
    (h0 : Fdm.GeomOk z d0 r l) (h1 : Fdm.GeomOk z d1 r l)
    (hd : 1 - β * Fdm.geom z d1 r l g ≠ 0) (nLag : Option ℕ) :
    Fdm.effPol env s (some (FP.num z)) (fdmTip r l g d0 d1 dA) nLag (some "bulk") =
      .ok (FP.num (1 + β * Fdm.geom z d0 r l g / (2 * (1 - β * Fdm.geom z d1 r l g)))) := by
  rw [Fdm.effPol_bulk env s hm, hβ, PyM.ok_bind, fdm_fdmTip]
  simp only [Option.getD_some]
  rw [Fdm.geomFunc_num h0, Fdm.geomFunc_num h1, Fdm.formula_num _ _ _ _ hd]

/-! ## C32 All FDM methods agree on bulk samples -/

/-- The methods of `eff_pol`, with `none` the default. -/
def Method (m : Option String) : Prop :=
  m = none ∨ m = some "bulk" ∨ m = some "multi" ∨ m = some "Q_ave"

theorem C32_eff_pol (env : Env) (e sub : ℂ) (nu : Option ℝ) (hs : sub ≠ 0) (h : sub + e ≠ 0)
    (hne : sub ≠ e) (nLag : Option ℕ) (hr : env.RuleOk nLag) (z r l : ℝ) (g : ℂ) (d0 d1 dA : ℝ)
    (h0 : 0 < z + r * d0) (h1 : 0 < z + r * d1) (m m' : Option String) (hm : Method m)
    (hm' : Method m') :
    Fdm.effPol env (bulk e sub nu) (some (FP.num z)) (fdmTip r l g d0 d1 dA) nLag m =
      Fdm.effPol env (bulk e sub nu) (some (FP.num z)) (fdmTip r l g d0 d1 dA) nLag m' := by
  have hb := bulk_multilayer e sub nu
  have key : ∀ m, Method m →
      Fdm.effPol env (bulk e sub nu) (some (FP.num z)) (fdmTip r l g d0 d1 dA) nLag m =
        Fdm.effPol env (bulk e sub nu) (some (FP.num z)) (fdmTip r l g d0 d1 dA) nLag (some "bulk") := by
    rintro m (rfl | rfl | rfl | rfl)
    · rw [Fdm.effPol_default, hb]; rfl
    · rfl
    · rw [Fdm.effPol_multi, Fdm.effPol_bulk _ _ hb, fdm_fdmTip]
      simp only [Option.getD_some, FP.num_mul, FP.num_add]
      rw [C29_image env e sub nu _ h0 nLag hr hs h hne, C29_image env e sub nu _ h1 nLag hr hs h hne,
        C09_refl e sub nu _ hs h]
      simp only [PyM.ok_bind]
      rw [Fdm.geomFuncMulti_bulk, Fdm.geomFuncMulti_bulk]
    · rw [Fdm.effPol_Qave, Fdm.effPol_bulk _ _ hb, C28_average env e sub nu _ nLag hr hs h]
  rw [key m hm, key m' hm']

example (d : Defaults) := C32_eff_pol (rule2 d) 1 2 none two_ne_zero (by norm_num) (by norm_num)
  (some 2) (rule2_ok d) 0 1 10 0.7 1 0.5 1.4 (by norm_num) (by norm_num) none (some "Q_ave")
  (.inl rfl) (.inr (.inr (.inr rfl)))

theorem C32_eff_pol_n (env : Env) (e sub : ℂ) (nu : Option ℝ) (hs : sub ≠ 0) (h : sub + e ≠ 0)
    (hne : sub ≠ e) (nLag : Option ℕ) (hr : env.RuleOk nLag) (z r l : ℝ) (g : ℂ) (d0 d1 dA : ℝ)
    (h0 : 0 < z + r * d0) (h1 : 0 < z + r * d1) (A : ℝ) (hA : 0 ≤ A) (n : FP ℝ) (nT : Option ℕ)
    (m m' : Option String) (hm : Method m) (hm' : Method m') :
    Fdm.effPolN env (bulk e sub nu) (FP.num A) n (some (FP.num z)) nT (fdmTip r l g d0 d1 dA) nLag m =
      Fdm.effPolN env (bulk e sub nu) (FP.num A) n (some (FP.num z)) nT (fdmTip r l g d0 d1 dA) nLag
        m' := by
  unfold Fdm.effPolN
  simp only [Option.getD_some, FP.num_add]
  exact demod_ext env _ _ (z + A) hA n nT fun x hx _ =>
    C32_eff_pol env e sub nu hs h hne nLag hr x r l g d0 d1 dA (by linarith) (by linarith) m m' hm hm'

example (d : Defaults) := C32_eff_pol_n (rule2 d) 1 2 none two_ne_zero (by norm_num) (by norm_num)
  (some 2) (rule2_ok d) 0 1 10 0.7 1 0.5 1.4 (by norm_num) (by norm_num) 2 (by norm_num) (FP.num 3)
  none none (some "Q_ave") (.inl rfl) (.inr (.inr (.inr rfl)))

/-! ## C33 FDM inversion is the inverse of the FDM -/

theorem fdm_inverse_num (env : Env) (z r l : ℝ) (g : ℂ) (d0 d1 dA : ℝ)
    (h0 : Fdm.GeomOk z d0 r l) (h1 : Fdm.GeomOk z d1 r l) (α : ℂ) :
    Fdm.reflCoefQsFromEffPol env (FP.num α) (some (FP.num z)) (fdmTip r l g d0 d1 dA) =
      (FP.num (2 * (α - 1)) / FP.num (Fdm.geom z d0 r l g + 2 * Fdm.geom z d1 r l g * (α - 1)) :
        FP ℂ) := by
  unfold Fdm.reflCoefQsFromEffPol
  rw [fdm_fdmTip]
  simp only [Option.getD_some, Fdm.geomFunc_num h0, Fdm.geomFunc_num h1, sclit, FP.num_sub, FP.num_mul,
    FP.num_add]

/-- Conditions: finite geometry functions, `f0 ≠ 0` and `β f1 ≠ 1`. -/
theorem C33_left (env : Env) (s : Stack (FP ℝ) (FP ℂ)) (hm : s.multilayer = false) (β : ℂ)
    (hβ : s.reflCoefQs = .ok (FP.num β)) (z r l : ℝ) (g : ℂ) (d0 d1 dA : ℝ)
    (h0 : Fdm.GeomOk z d0 r l) (h1 : Fdm.GeomOk z d1 r l)
    (hf : Fdm.geom z d0 r l g ≠ 0) (hd : β * Fdm.geom z d1 r l g ≠ 1) (nLag : Option ℕ) :
    (Fdm.effPol env s (some (FP.num z)) (fdmTip r l g d0 d1 dA) nLag (some "bulk") >>= fun α =>
      .ok (Fdm.reflCoefQsFromEffPol env α (some (FP.num z)) (fdmTip r l g d0 d1 dA))) =
      .ok (FP.num β) := by
  have hd' : 1 - β * Fdm.geom z d1 r l g ≠ 0 := sub_ne_zero.2 hd.symm
  rw [effPol_val env s hm β hβ z r l g d0 d1 dA h0 h1 hd' nLag, PyM.ok_bind,
    fdm_inverse_num env z r l g d0 d1 dA h0 h1]
  generalize Fdm.geom z d0 r l g = f0 at *
  generalize Fdm.geom z d1 r l g = f1 at *
  have hD : f0 + 2 * f1 * (1 + β * f0 / (2 * (1 - β * f1)) - 1) = f0 / (1 - β * f1) := by
    generalize hE : 1 - β * f1 = E at *
    field_simp
    linear_combination -f0 * hE
  rw [hD, FP.num_div _ (div_ne_zero hf hd')]
  congr 2
  field_simp
  ring

theorem C33_right (env : Env) (z r l : ℝ) (g : ℂ) (d0 d1 dA : ℝ)
    (h0 : Fdm.GeomOk z d0 r l) (h1 : Fdm.GeomOk z d1 r l) (hf : Fdm.geom z d0 r l g ≠ 0) (α : ℂ)
    (hd : Fdm.geom z d0 r l g + 2 * Fdm.geom z d1 r l g * (α - 1) ≠ 0) (nLag : Option ℕ) :
    ∃ β, Fdm.reflCoefQsFromEffPol env (FP.num α) (some (FP.num z)) (fdmTip r l g d0 d1 dA) =
        FP.num β ∧
      ∀ s : Stack (FP ℝ) (FP ℂ), s.multilayer = false → s.reflCoefQs = .ok (FP.num β) →
        Fdm.effPol env s (some (FP.num z)) (fdmTip r l g d0 d1 dA) nLag (some "bulk") =
          .ok (FP.num α) := by
  refine ⟨2 * (α - 1) / (Fdm.geom z d0 r l g + 2 * Fdm.geom z d1 r l g * (α - 1)), ?_,
    fun s hm hβ => ?_⟩
  · rw [fdm_inverse_num env z r l g d0 d1 dA h0 h1, FP.num_div _ hd]
  · have key : 1 - 2 * (α - 1) / (Fdm.geom z d0 r l g + 2 * Fdm.geom z d1 r l g * (α - 1)) *
        Fdm.geom z d1 r l g =
        Fdm.geom z d0 r l g / (Fdm.geom z d0 r l g + 2 * Fdm.geom z d1 r l g * (α - 1)) := by
      generalize Fdm.geom z d0 r l g = f0 at *
      generalize Fdm.geom z d1 r l g = f1 at *
      generalize hD : f0 + 2 * f1 * (α - 1) = D at *
      field_simp
      linear_combination -hD
    rw [effPol_val env s hm _ hβ z r l g d0 d1 dA h0 h1 (by rw [key]; exact div_ne_zero hf hd) nLag,
      key]
    congr 2
    generalize Fdm.geom z d0 r l g = f0 at *
    generalize f0 + 2 * Fdm.geom z d1 r l g * (α - 1) = D at *
    field_simp
    ring

/-- A tip for which the conditions hold. -/
theorem example_geomOk : Fdm.GeomOk 0 1 1 300 ∧ Fdm.GeomOk 0 (1 / 2) 1 300 := by
  constructor <;> constructor <;> norm_num

theorem example_geom_ne : Fdm.geom 0 1 1 300 Complex.I ≠ 0 := by
  unfold Fdm.geom
  have h1 : Real.log (4 * 300 / (1 + 4 * 0 + 2 * 1 * 1)) ≠ 0 :=
    Real.log_ne_zero_of_pos_of_ne_one (by norm_num) (by norm_num)
  have h2 : Real.log (4 * 300 / 1) ≠ 0 :=
    Real.log_ne_zero_of_pos_of_ne_one (by norm_num) (by norm_num)
  refine div_ne_zero (mul_ne_zero ?_ (by exact_mod_cast h1)) (by exact_mod_cast h2)
  intro h
  have := congrArg Complex.im h
  simp only [Complex.sub_im, Complex.I_im, Complex.ofReal_im, Complex.zero_im] at this
  norm_num at this

theorem example_im_ne {f : ℂ} (h : f.im ≠ 0) (β : ℝ) : (β : ℂ) * f ≠ 1 := by
  intro h0
  by_cases hβ : β = 0
  · simp [hβ] at h0
  · have := congrArg Complex.im h0
    simp only [Complex.mul_im, Complex.ofReal_re, Complex.ofReal_im, zero_mul, add_zero,
      Complex.one_im, mul_eq_zero] at this
    tauto

theorem example_geom_im : (Fdm.geom 0 (1 / 2) 1 300 Complex.I).im ≠ 0 := by
  unfold Fdm.geom
  have h1 : Real.log (4 * 300 / (1 + 4 * 0 + 2 * (1 / 2) * 1)) ≠ 0 :=
    Real.log_ne_zero_of_pos_of_ne_one (by norm_num) (by norm_num)
  have h2 : Real.log (4 * 300 / 1) ≠ 0 :=
    Real.log_ne_zero_of_pos_of_ne_one (by norm_num) (by norm_num)
  rw [Complex.div_ofReal_im, Complex.im_mul_ofReal]
  refine div_ne_zero (mul_ne_zero ?_ h1) h2
  rw [Complex.sub_im, Complex.I_im, Complex.ofReal_im]
  norm_num

example (env : Env) := C33_left env (bulk 1 2) rfl ((1 / 3 : ℝ) : ℂ)
  (by rw [C09_refl 1 2 none _ two_ne_zero (by norm_num)]; norm_num) 0 1 300 Complex.I 1 (1 / 2) 1.4
  example_geomOk.1 example_geomOk.2 example_geom_ne (example_im_ne example_geom_im _) none

example (env : Env) := C33_right env 0 1 300 Complex.I 1 (1 / 2) 1.4 example_geomOk.1
  example_geomOk.2 example_geom_ne 1 (by simpa using example_geom_ne) none

/-- With `f0 = 0` the sample has no influence and the inversion divides 0 by 0. -/
theorem C33_degenerate (env : Env) (z r l : ℝ) (g : ℂ) (d0 d1 dA : ℝ)
    (h0 : Fdm.GeomOk z d0 r l) (h1 : Fdm.GeomOk z d1 r l) (hf : Fdm.geom z d0 r l g = 0) :
    Fdm.reflCoefQsFromEffPol env (FP.num 1) (some (FP.num z)) (fdmTip r l g d0 d1 dA) =
      (FP.nan : FP ℂ) := by
  rw [fdm_inverse_num env z r l g d0 d1 dA h0 h1, hf]
  simp

example (env : Env) := C33_degenerate env 0 1 300 ((1 + 2 * 0 + 1 * 1) / (2 * 300) : ℝ) 1 (1 / 2) 1.4
  example_geomOk.1 example_geomOk.2 (by simp [Fdm.geom])

/-! ## C35 Length units do not matter -/

theorem rescale_refl_nan (c : ℝ) (e : ℂ) (L : List (ℂ × ℝ)) (sub : ℂ) (nu : Option ℝ) :
    (layered e (rescale c L) sub nu).reflCoefQs FP.nan = (layered e L sub nu).reflCoefQs FP.nan := by
  unfold Stack.reflCoefQs Stack.transferMatrixQs Stack.multilayer Stack.nLayers layered rescale
  simp [Function.comp_def]

theorem layered_length (e : ℂ) (L : List (ℂ × ℝ)) (sub : ℂ) (nu : Option ℝ) :
    (layered e L sub nu).eps.length = L.length + 2 := by
  simp [layered]

theorem rescaled (c : ℝ) (hc : 0 < c) (e : ℂ) (L : List (ℂ × ℝ)) (sub : ℂ) (nu : Option ℝ) :
    Rescaled c (layered e L sub nu) (layered e (rescale c L) sub nu) where
  pos := hc
  len := by rw [layered_length]; omega
  eps := by simp [layered, rescale, Function.comp_def]
  num := rescale_refl c hc.ne' e L sub nu
  nan := rescale_refl_nan c e L sub nu

/-- `withLengths a r l` is the tip `a` with radius `r` and length `l`; the other parameters (omitted
or not) have no unit.  Any method, any `n_lag`, also where the result is not finite or an exception. -/
theorem C35_fdm (env : Env) (e : ℂ) (L : List (ℂ × ℝ)) (sub : ℂ) (nu : Option ℝ) (c : ℝ) (hc : 0 < c)
    (z r l : ℝ) (a : FdmArgs (FP ℝ) (FP ℂ)) (nLag : Option ℕ) (m : Option String) :
    Fdm.effPol env (layered e (rescale c L) sub nu) (some (FP.num (c * z)))
        (Fdm.withLengths a (c * r) (c * l)) nLag m =
      Fdm.effPol env (layered e L sub nu) (some (FP.num z)) (Fdm.withLengths a r l) nLag m :=
  Fdm.effPol_scale (rescaled c hc e L sub nu) env z r l a nLag m

example (env : Env) := C35_fdm env 1 [(2, 3)] 4 none 1e9 (by norm_num) 1e-9 2e-8 3e-7 {} none none

theorem C35_fdm_n (env : Env) (e : ℂ) (L : List (ℂ × ℝ)) (sub : ℂ) (nu : Option ℝ) (c : ℝ) (hc : 0 < c)
    (z r l A : ℝ) (n : FP ℝ) (nT : Option ℕ) (a : FdmArgs (FP ℝ) (FP ℂ)) (nLag : Option ℕ)
    (m : Option String) :
    Fdm.effPolN env (layered e (rescale c L) sub nu) (FP.num (c * A)) n (some (FP.num (c * z))) nT
        (Fdm.withLengths a (c * r) (c * l)) nLag m =
      Fdm.effPolN env (layered e L sub nu) (FP.num A) n (some (FP.num z)) nT (Fdm.withLengths a r l) nLag
        m := by
  have h1 : ∀ v : FP ℂ, FP.num 1 * v = v := fun v => by cases v <;> simp
  unfold Fdm.effPolN
  simp only [Option.getD_some, FP.num_add]
  rw [← mul_add]
  have h := demod_scale env (fun x => Fdm.effPol env (layered e L sub nu) (some x)
    (Fdm.withLengths a r l) nLag m) (fun x => Fdm.effPol env (layered e (rescale c L) sub nu) (some x)
    (Fdm.withLengths a (c * r) (c * l)) nLag m) c 1 (z + A) A n nT fun x => by
    rw [C35_fdm env e L sub nu c hc x r l a nLag m]
    simp only [h1]
    cases Fdm.effPol env (layered e L sub nu) (some (FP.num x)) (Fdm.withLengths a r l) nLag m <;> rfl
  rw [h]
  simp only [h1]
  generalize (demod env _ _ _ n nT : PyM (FP ℂ)) = v
  cases v <;> rfl

example (env : Env) := C35_fdm_n env 1 [(2, 3)] 4 none 1e9 (by norm_num) 1e-9 2e-8 3e-7 5e-8
  (FP.num 2) none {} none none

/-! ## C36 FDM method selection -/

section C36
variable (env : Env) (s : Stack (FP ℝ) (FP ℂ)) (A n : FP ℝ) (z : Option (FP ℝ))
  (a : FdmArgs (FP ℝ) (FP ℂ)) (nLag nT nJ : Option ℕ)

/-- The default method of each function is `m` (of `eff_pol`, `eff_pol_n`) and `m'` (Taylor). -/
theorem C36_default (e : ℂ) (L : List (ℂ × ℝ)) (sub : ℂ) (nu : Option ℝ) :
    Fdm.effPol env (layered e L sub nu) z a nLag none =
        Fdm.effPol env (layered e L sub nu) z a nLag (some (if L = [] then "bulk" else "multi")) ∧
      Fdm.effPolN env (layered e L sub nu) A n z nT a nLag none =
        Fdm.effPolN env (layered e L sub nu) A n z nT a nLag
          (some (if L = [] then "bulk" else "multi")) ∧
      Fdm.effPolNTaylor env (layered e L sub nu) A n z a nLag none nT nJ =
        Fdm.effPolNTaylor env (layered e L sub nu) A n z a nLag
          (some (if L = [] then "bulk" else "Q_ave")) nT nJ := by
  cases L with
  | nil => exact ⟨rfl, rfl, rfl⟩
  | cons x L =>
    have hm : (layered e (x :: L) sub nu).multilayer = true := by
      unfold Stack.multilayer Stack.nLayers
      rw [layered_length]
      simp
    have h := Fdm.effPol_default env (layered e (x :: L) sub nu) (a := a) (nLag := nLag)
    rw [hm, if_pos rfl] at h
    refine ⟨h z, ?_, ?_⟩
    · unfold Fdm.effPolN
      simp only [h]
      rfl
    · unfold Fdm.effPolNTaylor Fdm.taylorBeta
      simp only [hm]
      rfl

/-- The methods `eff_pol` accepts for `s`. -/
def Accepts (m : Option String) : Prop :=
  m = none ∨ (m = some "bulk" ∧ s.eps.length ≤ 2) ∨ m = some "multi" ∨ m = some "Q_ave"

/-- The methods `eff_pol_n_taylor` accepts for `s`. -/
def AcceptsTaylor (m : Option String) : Prop :=
  m = none ∨ (m = some "bulk" ∧ s.eps.length ≤ 2) ∨ m = some "Q_ave"

theorem effPol_ok (h2 : 2 ≤ s.eps.length) (hl : nLag.getD env.defaults.nLag ≠ 0) (m : Option String)
    (hm : Accepts s m) : ∃ v, Fdm.effPol env s z a nLag m = .ok v := by
  have hbulk : s.eps.length ≤ 2 → ∃ v, Fdm.effPol env s z a nLag (some "bulk") = .ok v := by
    intro h
    have hml : s.multilayer = false := by
      unfold Stack.multilayer Stack.nLayers
      simpa using h
    obtain ⟨β, hβ⟩ := reflCoefQs_ok s h2 (lit 0)
    rw [Fdm.effPol_bulk env s hml, hβ]
    exact ⟨_, rfl⟩
  have hmulti : ∃ v, Fdm.effPol env s z a nLag (some "multi") = .ok v := by
    rw [Fdm.effPol_multi]
    obtain ⟨p, hp⟩ := image_ok env s h2 (z.getD (lit env.defaults.zTip) +
        (env.defaults.fdm a).rTip * (env.defaults.fdm a).dQ0) nLag hl
    obtain ⟨p', hp'⟩ := image_ok env s h2 (z.getD (lit env.defaults.zTip) +
        (env.defaults.fdm a).rTip * (env.defaults.fdm a).dQ1) nLag hl
    rw [hp, PyM.ok_bind, hp']
    exact ⟨_, rfl⟩
  rcases hm with rfl | ⟨rfl, h⟩ | rfl | rfl
  · rw [Fdm.effPol_default]
    by_cases h : s.eps.length ≤ 2
    · rw [if_neg (by unfold Stack.multilayer Stack.nLayers; simpa using h)]
      exact hbulk h
    · rw [if_pos (by unfold Stack.multilayer Stack.nLayers; simpa using h)]
      exact hmulti
  · exact hbulk h
  · exact hmulti
  · rw [Fdm.effPol_Qave]
    obtain ⟨β, hβ⟩ := aboveSurf_ok env s h2 (z.getD (lit env.defaults.zTip) +
        (env.defaults.fdm a).rTip * (env.defaults.fdm a).dQa) nLag hl
    rw [hβ]
    exact ⟨_, rfl⟩

theorem effPol_error (m : Option String) (hm : ¬ Accepts s m) :
    ∃ msg, ∀ z, Fdm.effPol env s z a nLag m = .error (.valueError msg) := by
  cases m with
  | none => exact absurd (.inl rfl) hm
  | some m =>
    by_cases hb : m = "bulk"
    · subst hb
      have h : s.multilayer = true := by
        unfold Stack.multilayer Stack.nLayers
        by_contra h
        exact hm (.inr (.inl ⟨rfl, by simpa using h⟩))
      refine ⟨"`method`='bulk' cannot be used for multilayer samples.", fun z => ?_⟩
      unfold Fdm.effPol
      simp only [Option.getD_some, if_true, h]
      rfl
    · refine ⟨"`method` must be one of `bulk`, `multi`, or `Q_ave`.", fun z => ?_⟩
      unfold Fdm.effPol
      simp only [Option.getD_some]
      rw [if_neg hb, if_neg fun h => hm (.inr (.inr (.inl (congrArg some h)))),
        if_neg fun h => hm (.inr (.inr (.inr (congrArg some h))))]
      rfl

/-- For a sample with at least two media (C02) and `n_lag > 0` (C28), exactly the unaccepted methods
raise, and what they raise is `ValueError`. -/
theorem C36_eff_pol (h2 : 2 ≤ s.eps.length) (hl : nLag.getD env.defaults.nLag ≠ 0)
    (m : Option String) :
    (Accepts s m → (∃ v, Fdm.effPol env s z a nLag m = .ok v) ∧
      ∃ v, Fdm.effPolN env s A n z nT a nLag m = .ok v) ∧
    (¬ Accepts s m → (∃ msg, Fdm.effPol env s z a nLag m = .error (.valueError msg)) ∧
      ∃ msg, Fdm.effPolN env s A n z nT a nLag m = .error (.valueError msg)) := by
  refine ⟨fun h => ⟨effPol_ok env s z a nLag h2 hl m h, ?_⟩, fun h => ?_⟩
  · exact demod_ok env _ _ _ _ _ fun x => effPol_ok env s (some x) a nLag h2 hl m h
  · obtain ⟨msg, hmsg⟩ := effPol_error env s a nLag m h
    refine ⟨⟨msg, hmsg z⟩, msg, ?_⟩
    unfold Fdm.effPolN
    rw [demod_unfold, hmsg]
    rfl

/-- `method='multi'` on a bulk sample is accepted, `method='bulk'` on a multilayer is not. -/
example := (C36_eff_pol env (bulk 1 2) A n z a (some 2) nT le_rfl (by simp) (some "multi")).1
  (.inr (.inr (.inl rfl)))
example := (C36_eff_pol env (layered 1 [(2, 3)] 4) A n z a (some 2) nT (by simp [layered]) (by simp)
  (some "bulk")).2 (by rintro (h | ⟨-, h⟩ | h | h) <;> simp [layered] at h)
example := (C36_eff_pol env (bulk 1 2) A n z a (some 2) nT le_rfl (by simp) (some "Multi")).2
  (by rintro (h | ⟨h, -⟩ | h | h) <;> simp at h)

theorem C36_taylor (h2 : 2 ≤ s.eps.length) (hl : nLag.getD env.defaults.nLag ≠ 0)
    (m : Option String) :
    (AcceptsTaylor s m → ∃ v, Fdm.effPolNTaylor env s A n z a nLag m nT nJ = .ok v) ∧
    (¬ AcceptsTaylor s m →
      ∃ msg, Fdm.effPolNTaylor env s A n z a nLag m nT nJ = .error (.valueError msg)) := by
  have key : (AcceptsTaylor s m → ∃ β, Fdm.taylorBeta env s (z.getD (lit env.defaults.zTip))
        (env.defaults.fdm a) nLag m = .ok β) ∧
      (¬ AcceptsTaylor s m → ∃ msg, Fdm.taylorBeta env s (z.getD (lit env.defaults.zTip))
        (env.defaults.fdm a) nLag m = .error (.valueError msg)) := by
    unfold Fdm.taylorBeta
    have hq := aboveSurf_ok env s h2 (z.getD (lit env.defaults.zTip) +
        (env.defaults.fdm a).rTip * (env.defaults.fdm a).dQa) nLag hl
    have hb := reflCoefQs_ok s h2 (lit 0)
    by_cases h : s.eps.length ≤ 2
    · have hml : s.multilayer = false := by
        unfold Stack.multilayer Stack.nLayers
        simpa using h
      constructor
      · rintro (rfl | ⟨rfl, -⟩ | rfl)
        · simpa [hml] using hb
        · simpa [hml] using hb
        · simpa [hml] using hq
      · intro hm
        unfold AcceptsTaylor at hm
        push Not at hm
        cases m with
        | none => exact absurd rfl hm.1
        | some m =>
          refine ⟨"`method` must be one of `bulk`, or `Q_ave`.", ?_⟩
          simp only [Option.getD_some]
          rw [if_neg fun h0 => absurd h (not_le.2 (hm.2.1 (congrArg some h0))),
            if_neg fun h0 => hm.2.2 (congrArg some h0)]
          rfl
    · have hml : s.multilayer = true := by
        unfold Stack.multilayer Stack.nLayers
        simpa using h
      constructor
      · rintro (rfl | ⟨rfl, h0⟩ | rfl)
        · simpa [hml] using hq
        · exact absurd h0 h
        · simpa [hml] using hq
      · intro hm
        unfold AcceptsTaylor at hm
        push Not at hm
        cases m with
        | none => exact absurd rfl hm.1
        | some m =>
          by_cases h0 : m = "bulk"
          · refine ⟨"`method`='bulk' cannot be used for multilayer samples.", ?_⟩
            simp only [Option.getD_some, h0, hml, if_true]
            rfl
          · refine ⟨"`method` must be one of `bulk`, or `Q_ave`.", ?_⟩
            simp only [Option.getD_some]
            rw [if_neg h0, if_neg fun h0 => hm.2.2 (congrArg some h0)]
            rfl
  refine ⟨fun h => ?_, fun h => ?_⟩
  · obtain ⟨β, hβ⟩ := key.1 h
    unfold Fdm.effPolNTaylor
    simp only [hβ, PyM.ok_bind]
    have hc : ∀ j : ℤ, ∃ v, Fdm.taylorCoef env (z.getD (lit env.defaults.zTip)) j A n
        (env.defaults.fdm a).rTip (env.defaults.fdm a).lTip (env.defaults.fdm a).gFactor
        (env.defaults.fdm a).dQ0 (env.defaults.fdm a).dQ1 nT = .ok (v : FP ℂ) := by
      intro j
      unfold Fdm.taylorCoef
      obtain ⟨v, hv⟩ := demod_ok env (fun x => pure (Fdm.geomFuncTaylor x j (env.defaults.fdm a).rTip
        (env.defaults.fdm a).lTip (env.defaults.fdm a).gFactor (env.defaults.fdm a).dQ0
        (env.defaults.fdm a).dQ1)) (z.getD (lit env.defaults.zTip) + A) A n nT fun x => ⟨_, rfl⟩
      simp only [hv, PyM.ok_bind]
      exact ⟨_, rfl⟩
    choose f hf using hc
    show ∃ v, (do
      let vals ← (List.range (nJ.getD env.defaults.nTayl)).mapM fun j : ℕ => (do
        let coefs ← Fdm.taylorCoef env (z.getD (lit env.defaults.zTip)) (j : ℤ) A n
          (env.defaults.fdm a).rTip (env.defaults.fdm a).lTip (env.defaults.fdm a).gFactor
          (env.defaults.fdm a).dQ0 (env.defaults.fdm a).dQ1 nT
        pure (coefs * CplxOps.jpow β (j : ℤ)) : PyM (FP ℂ))
      pure (FP.sum vals) : PyM (FP ℂ)) = .ok v
    simp only [hf, PyM.ok_bind, PyM.pure_eq_ok]
    rw [mapM_ok _ _ _ fun _ _ => rfl]
    exact ⟨_, rfl⟩
  · obtain ⟨msg, hmsg⟩ := key.2 h
    refine ⟨msg, ?_⟩
    unfold Fdm.effPolNTaylor
    simp only [hmsg]
    rfl

example := (C36_taylor env (bulk 1 2) A n z a (some 2) nT nJ le_rfl (by simp) (some "multi")).2
  (by rintro (h | ⟨h, -⟩ | h) <;> simp at h)
example := (C36_taylor env (layered 1 [(2, 3)] 4) A n z a (some 2) nT nJ (by simp [layered]) (by simp)
  none).1 (.inl rfl)

end C36

/-! ## C37 A sample identical to the environment gives no signal -/

/-- The methods that give a finite value without contrast. -/
def MethodNoImage (m : Option String) : Prop := m = none ∨ m = some "bulk" ∨ m = some "Q_ave"

theorem C37_fdm (env : Env) (e : ℂ) (nu : Option ℝ) (he : e ≠ 0) (nLag : Option ℕ)
    (hr : env.RuleOk nLag) (z r l : ℝ) (g : ℂ) (d0 d1 dA : ℝ) (h0 : Fdm.GeomOk z d0 r l)
    (h1 : Fdm.GeomOk z d1 r l) (m : Option String) (hm : MethodNoImage m) :
    Fdm.effPol env (bulk e e nu) (some (FP.num z)) (fdmTip r l g d0 d1 dA) nLag m =
      .ok (FP.num 1) := by
  have hee : e + e ≠ 0 := by rw [← two_mul]; exact mul_ne_zero two_ne_zero he
  have hβ : (bulk e e nu).reflCoefQs = .ok (FP.num 0) := by
    rw [C09_refl e e nu _ he hee]
    simp
  have hb : Fdm.effPol env (bulk e e nu) (some (FP.num z)) (fdmTip r l g d0 d1 dA) nLag (some "bulk") =
      .ok (FP.num 1) := by
    rw [effPol_val env _ (bulk_multilayer e e nu) 0 hβ z r l g d0 d1 dA h0 h1 (by simp) nLag]
    simp
  rcases hm with rfl | rfl | rfl
  · rw [Fdm.effPol_default, bulk_multilayer]
    exact hb
  · exact hb
  · rw [← hb, Fdm.effPol_Qave, Fdm.effPol_bulk _ _ (bulk_multilayer e e nu),
      C28_average env e e nu _ nLag hr he hee]

example (d : Defaults) := C37_fdm (rule2 d) 1 none one_ne_zero (some 2) (rule2_ok d) 0 1 300 Complex.I 1
  (1 / 2) 1.4 example_geomOk.1 example_geomOk.2 none (.inl rfl)

/-- Hence nothing at the harmonics. -/
theorem C37_fdm_n (env : Env) (e : ℂ) (nu : Option ℝ) (he : e ≠ 0) (nLag : Option ℕ)
    (hr : env.RuleOk nLag) (z r l : ℝ) (g : ℂ) (d0 d1 dA : ℝ) (h0 : Fdm.GeomOk z d0 r l)
    (h1 : Fdm.GeomOk z d1 r l) (m : Option String) (hm : MethodNoImage m) (A : ℝ) (hA : 0 ≤ A) (n : ℤ)
    (N : ℕ) (hN : N ≠ 0) (hn : ¬ (N : ℤ) ∣ n) :
    Fdm.effPolN env (bulk e e nu) (FP.num A) (FP.num n) (some (FP.num z)) (some N)
      (fdmTip r l g d0 d1 dA) nLag m = .ok (FP.num 0) := by
  unfold Fdm.effPolN
  simp only [Option.getD_some, FP.num_add]
  rw [demod_ext env _ (onFinite fun _ => 1) (z + A) hA _ _ fun x hx _ =>
    C37_fdm env e nu he nLag hr x r l g d0 d1 dA
      ⟨h0.r_pos, h0.l_pos, h0.ne, by have := h0.den; linarith⟩
      ⟨h1.r_pos, h1.l_pos, h1.ne, by have := h1.den; linarith⟩ m hm,
    demod_onFinite env _ _ _ _ (some N) hN, Option.getD_some, demodSum_mean _ _ _ n hN]
  have hc : (mode (-n) * fun _ => 1 : ℝ → ℂ) = mode (-n) := by
    funext θ
    simp
  rw [hc, meanN_mode hN (by rwa [dvd_neg])]

theorem example_no_signal (d : Defaults) :
    Fdm.effPolN (rule2 d) (bulk 1 1) (FP.num 2) (FP.num ((3 : ℤ) : ℝ)) (some (FP.num 0)) (some 8)
      (fdmTip 1 300 Complex.I 1 (1 / 2) 1.4) (some 2) none = .ok (FP.num 0) := C37_fdm_n (rule2 d) 1 none one_ne_zero (some 2) (rule2_ok d)
  0 1 300 Complex.I 1 (1 / 2) 1.4 example_geomOk.1 example_geomOk.2 none (.inl rfl) 2 (by norm_num) 3 8
  (by norm_num) (by norm_num)

/-- With `method='multi'` the image position is 0/0. -/
theorem C37_fdm_multi (env : Env) (e : ℂ) (nu : Option ℝ) (he : e ≠ 0) (nLag : Option ℕ)
    (hr : env.RuleOk nLag) (z r l : ℝ) (g : ℂ) (d0 d1 dA : ℝ) (h0 : 0 < z + r * d0)
    (h1 : 0 < z + r * d1) :
    Fdm.effPol env (bulk e e nu) (some (FP.num z)) (fdmTip r l g d0 d1 dA) nLag (some "multi") =
      .ok FP.nan := by
  rw [Fdm.effPol_multi, fdm_fdmTip]
  simp only [Option.getD_some, FP.num_mul, FP.num_add]
  rw [C29_no_contrast env e nu _ h0 nLag hr he, C29_no_contrast env e nu _ h1 nLag hr he]
  simp [Fdm.effPolFormula]

example (d : Defaults) := C37_fdm_multi (rule2 d) 1 none one_ne_zero (some 2) (rule2_ok d) 0 1 300
  Complex.I 1 (1 / 2) 1.4 (by norm_num) (by norm_num)

/-! ## C38 A retracted tip sees no sample: not so for the FDM -/

theorem arm_norm_tendsto {r l : ℝ} (hl : 0 < l) (d : ℝ) (g : ℂ) :
    Tendsto (fun z : ℝ => ‖g - ((r + 2 * z + d * r) / (2 * l) : ℝ)‖) atTop atTop := by
  have h : Tendsto (fun z : ℝ => (r + 2 * z + d * r) / (2 * l) - ‖g‖) atTop atTop := by
    have h1 : Tendsto (fun z : ℝ => 1 / l * z + ((r + d * r) / (2 * l) - ‖g‖)) atTop atTop :=
      tendsto_atTop_add_const_right _ _ (Tendsto.const_mul_atTop (by positivity) tendsto_id)
    refine h1.congr fun z => ?_
    field_simp
    ring
  refine tendsto_atTop_mono (fun z => ?_) h
  have h2 := norm_sub_norm_le ((((r + 2 * z + d * r) / (2 * l) : ℝ)) : ℂ) g
  rw [norm_sub_rev] at h2
  have h3 : (r + 2 * z + d * r) / (2 * l) ≤ ‖((((r + 2 * z + d * r) / (2 * l) : ℝ)) : ℂ)‖ := by
    rw [Complex.norm_real]
    exact Real.le_norm_self _
  linarith

theorem depth_tendsto (r d : ℝ) : Tendsto (fun z : ℝ => r + 4 * z + 2 * d * r) atTop atTop := by
  have h1 : Tendsto (fun z : ℝ => 4 * z + (r + 2 * d * r)) atTop atTop :=
    tendsto_atTop_add_const_right _ _ (Tendsto.const_mul_atTop (by norm_num) tendsto_id)
  refine h1.congr fun z => ?_
  ring

theorem log_norm_tendsto {l : ℝ} (hl : 0 < l) (r d : ℝ) :
    Tendsto (fun z : ℝ => ‖((Real.log (4 * l / (r + 4 * z + 2 * d * r)) : ℝ) : ℂ)‖) atTop atTop := by
  have h1 : Tendsto (fun z : ℝ => Real.log (4 * l) - Real.log (r + 4 * z + 2 * d * r)) atTop atBot := by
    have h2 := Real.tendsto_log_atTop.comp (depth_tendsto r d)
    exact tendsto_atBot_add_const_left _ _ (tendsto_neg_atTop_atBot.comp h2)
  have h3 : Tendsto (fun z : ℝ => Real.log (4 * l / (r + 4 * z + 2 * d * r))) atTop atBot := by
    refine h1.congr' ?_
    filter_upwards [(depth_tendsto r d).eventually_gt_atTop 0] with z hz
    rw [Real.log_div (by positivity) hz.ne']
  have h4 := tendsto_abs_atBot_atTop.comp h3
  refine h4.congr fun z => ?_
  rw [Complex.norm_real, Real.norm_eq_abs]
  rfl

theorem inv_of_norm {f : ℝ → ℂ} (h : Tendsto (fun z => ‖f z‖) atTop atTop) :
    Tendsto (fun z => (f z)⁻¹) atTop (𝓝 0) := by
  rw [tendsto_zero_iff_norm_tendsto_zero]
  simp only [norm_inv]
  exact tendsto_inv_atTop_zero.comp h

theorem ne_of_norm {f : ℝ → ℂ} (h : Tendsto (fun z => ‖f z‖) atTop atTop) :
    ∀ᶠ z in atTop, f z ≠ 0 := by
  filter_upwards [h.eventually_gt_atTop 0] with z hz
  exact norm_pos_iff.1 hz

theorem geom_inv_tendsto {l : ℝ} (hl : 0 < l) (r d : ℝ) (g : ℂ) :
    Tendsto (fun z : ℝ => (Fdm.geom z d r l g)⁻¹) atTop (𝓝 0) := by
  have h1 := inv_of_norm (arm_norm_tendsto (r := r) hl d g)
  have h2 := inv_of_norm (log_norm_tendsto hl r d)
  have h3 := (h1.mul h2).const_mul ((Real.log (4 * l / r) : ℝ) : ℂ)
  rw [mul_zero, mul_zero] at h3
  refine h3.congr fun z => ?_
  unfold Fdm.geom
  rw [inv_div, ← mul_inv, ← div_eq_mul_inv]

theorem geom_ratio_tendsto {r l : ℝ} (hr : 0 < r) (hl : 0 < l) (hne : r ≠ 4 * l) (d0 d1 : ℝ) (g : ℂ) :
    Tendsto (fun z : ℝ => Fdm.geom z d0 r l g / Fdm.geom z d1 r l g) atTop (𝓝 1) := by
  have hlog : ((Real.log (4 * l / r) : ℝ) : ℂ) ≠ 0 := by exact_mod_cast Fdm.log_ne hr hl hne
  have hA := arm_norm_tendsto (r := r) hl d1 g
  have hB := log_norm_tendsto hl r d1
  have h1 : Tendsto (fun z : ℝ => 1 + (((d1 - d0) * r / (2 * l) : ℝ) : ℂ) *
      (g - ((r + 2 * z + d1 * r) / (2 * l) : ℝ))⁻¹) atTop (𝓝 (1 + (((d1 - d0) * r / (2 * l) : ℝ) : ℂ) * 0)) :=
    ((inv_of_norm hA).const_mul _).const_add 1
  have h2 : Tendsto (fun z : ℝ => ((Real.log (1 + 2 * (d1 - d0) * r / (r + 4 * z + 2 * d0 * r)) : ℝ) : ℂ))
      atTop (𝓝 0) := by
    have h3 : Tendsto (fun z : ℝ => 1 + 2 * (d1 - d0) * r / (r + 4 * z + 2 * d0 * r)) atTop (𝓝 (1 + 0)) :=
      (Tendsto.div_atTop tendsto_const_nhds (depth_tendsto r d0)).const_add 1
    rw [add_zero] at h3
    have h4 := (Real.continuousAt_log one_ne_zero).tendsto.comp h3
    rw [Real.log_one] at h4
    have h5 := (Complex.continuous_ofReal.tendsto 0).comp h4
    rwa [Complex.ofReal_zero] at h5
  have h6 : Tendsto (fun z : ℝ => 1 + ((Real.log (1 + 2 * (d1 - d0) * r / (r + 4 * z + 2 * d0 * r)) : ℝ) : ℂ) *
      ((Real.log (4 * l / (r + 4 * z + 2 * d1 * r)) : ℝ) : ℂ)⁻¹) atTop (𝓝 (1 + 0 * 0)) :=
    (h2.mul (inv_of_norm hB)).const_add 1
  have h7 := h1.mul h6
  simp only [mul_zero, add_zero, mul_one] at h7
  refine h7.congr' ?_
  filter_upwards [ne_of_norm hA, ne_of_norm hB, (depth_tendsto r d0).eventually_gt_atTop 0,
    (depth_tendsto r d1).eventually_gt_atTop 0] with z ha hb hd0 hd1
  unfold Fdm.geom
  have hb0 : Real.log (4 * l / (r + 4 * z + 2 * d0 * r)) =
      Real.log (4 * l / (r + 4 * z + 2 * d1 * r)) +
        Real.log (1 + 2 * (d1 - d0) * r / (r + 4 * z + 2 * d0 * r)) := by
    have h8 : 1 + 2 * (d1 - d0) * r / (r + 4 * z + 2 * d0 * r) =
        (r + 4 * z + 2 * d1 * r) / (r + 4 * z + 2 * d0 * r) := by
      rw [one_add_div hd0.ne']
      ring_nf
    rw [h8, ← Real.log_mul (by positivity) (by positivity)]
    congr 1
    generalize r + 4 * z + 2 * d0 * r = u at *
    generalize r + 4 * z + 2 * d1 * r = v at *
    field_simp
  have ha0 : g - (((r + 2 * z + d0 * r) / (2 * l) : ℝ) : ℂ) =
      g - (((r + 2 * z + d1 * r) / (2 * l) : ℝ) : ℂ) + (((d1 - d0) * r / (2 * l) : ℝ) : ℂ) := by
    push_cast
    ring
  rw [hb0, ha0]
  push_cast at *
  generalize (Real.log (4 * l / r) : ℂ) = c at *
  generalize (Real.log (4 * l / (r + 4 * z + 2 * d1 * r)) : ℂ) = b at *
  generalize (Real.log (1 + 2 * (d1 - d0) * r / (r + 4 * z + 2 * d0 * r)) : ℂ) = b' at *
  generalize g - (r + 2 * z + d1 * r) / (2 * l) = a at *
  generalize ((d1 - d0) * r / (2 * l) : ℂ) = k at *
  field_simp

/-- However far the tip is, half of the no-sample value `1` is missing (for any sample with `β ≠ 0`). -/
theorem C38_fdm (env : Env) (s : Stack (FP ℝ) (FP ℂ)) (hm : s.multilayer = false) (β : ℂ)
    (hβ : s.reflCoefQs = .ok (FP.num β)) (h0 : β ≠ 0) (r l : ℝ) (hr : 0 < r) (hl : 0 < l)
    (hne : r ≠ 4 * l) (g : ℂ) (d0 d1 dA : ℝ) (nLag : Option ℕ) :
    EvalTendsto (fun z : ℝ => Fdm.effPol env s (some (FP.num z)) (fdmTip r l g d0 d1 dA) nLag
      (some "bulk")) atTop (1 / 2) := by
  have hinv := geom_inv_tendsto hl r d1 g
  have hrat := geom_ratio_tendsto hr hl hne d0 d1 g
  have hf1 : ∀ᶠ z in atTop, Fdm.geom z d1 r l g ≠ 0 := by
    filter_upwards [hrat.eventually_ne one_ne_zero] with z hz h
    exact hz (by rw [h, div_zero])
  have hd : ∀ᶠ z in atTop, 1 - β * Fdm.geom z d1 r l g ≠ 0 := by
    filter_upwards [hf1, hinv.eventually_ne h0.symm] with z h1 h2 h3
    apply h2
    field_simp
    linear_combination h3
  refine ⟨fun z => 1 + β * Fdm.geom z d0 r l g / (2 * (1 - β * Fdm.geom z d1 r l g)), ?_, ?_⟩
  · filter_upwards [hd, (depth_tendsto r d0).eventually_gt_atTop 0,
      (depth_tendsto r d1).eventually_gt_atTop 0] with z h1 h2 h3
    exact effPol_val env s hm β hβ z r l g d0 d1 dA ⟨hr, hl, hne, h2⟩ ⟨hr, hl, hne, h3⟩ h1 nLag
  · have h1 : Tendsto (fun z : ℝ => 1 + β * (Fdm.geom z d0 r l g / Fdm.geom z d1 r l g) /
        (2 * ((Fdm.geom z d1 r l g)⁻¹ - β))) atTop (𝓝 (1 + β * 1 / (2 * (0 - β)))) :=
      (Tendsto.div (hrat.const_mul β) ((hinv.sub_const β).const_mul 2)
        (mul_ne_zero two_ne_zero (by simpa using h0))).const_add 1
    have h2 : (1 + β * 1 / (2 * (0 - β)) : ℂ) = 1 / 2 := by
      field_simp
      ring
    rw [h2] at h1
    refine h1.congr' ?_
    filter_upwards [hf1, hd] with z h3 h4
    generalize Fdm.geom z d0 r l g = f0 at *
    generalize Fdm.geom z d1 r l g = f1 at *
    have h5 : f1⁻¹ - β = (1 - β * f1) / f1 := by field_simp
    rw [h5]
    generalize 1 - β * f1 = D at *
    field_simp

example (env : Env) := C38_fdm env (bulk 1 2) rfl _ (C09_refl 1 2 none _ two_ne_zero (by norm_num))
  (by norm_num) 1 300 one_pos (by norm_num) (by norm_num) 0.7 1 (1 / 2) 1.4 none

theorem C38_fdm_not_one (env : Env) (s : Stack (FP ℝ) (FP ℂ)) (hm : s.multilayer = false) (β : ℂ)
    (hβ : s.reflCoefQs = .ok (FP.num β)) (h0 : β ≠ 0) (r l : ℝ) (hr : 0 < r) (hl : 0 < l)
    (hne : r ≠ 4 * l) (g : ℂ) (d0 d1 dA : ℝ) (nLag : Option ℕ) :
    ¬ EvalTendsto (fun z : ℝ => Fdm.effPol env s (some (FP.num z)) (fdmTip r l g d0 d1 dA) nLag
      (some "bulk")) atTop 1 := by
  rintro ⟨f, hf, h1⟩
  obtain ⟨f', hf', h2⟩ := C38_fdm env s hm β hβ h0 r l hr hl hne g d0 d1 dA nLag
  have : f =ᶠ[atTop] f' := by
    filter_upwards [hf, hf'] with z hz hz'
    rw [hz'] at hz
    simpa using hz.symm
  have h3 := tendsto_nhds_unique h1 (h2.congr' this.symm)
  norm_num at h3

example (env : Env) := C38_fdm_not_one env (bulk 1 2) rfl _ (C09_refl 1 2 none _ two_ne_zero (by norm_num))
  (by norm_num) 1 300 one_pos (by norm_num) (by norm_num) 0.7 1 (1 / 2) 1.4 none

/-! ## C46 The tip never goes below z_tip -/

/-- Both ends are sampled: a finite `eff_pol_n` means a finite `eff_pol` at `z`, and at `z + 2A` when
`n_trapz` is even. -/
theorem C46_ends_fdm (env : Env) (s : Stack (FP ℝ) (FP ℂ)) (a : FdmArgs (FP ℝ) (FP ℂ))
    (nLag : Option ℕ) (m : Option String) (z amp : ℝ) (n : FP ℝ) (N : ℕ) (v : ℂ)
    (h : Fdm.effPolN env s (FP.num amp) n (some (FP.num z)) (some N) a nLag m = .ok (FP.num v)) :
    (∃ w, Fdm.effPol env s (some (FP.num z)) a nLag m = .ok (FP.num w)) ∧
      (Even N → ∃ w, Fdm.effPol env s (some (FP.num (z + 2 * amp))) a nLag m = .ok (FP.num w)) :=
  sampled_ends (f := fun x => Fdm.effPol env s (some x) a nLag m) (n := n) (v := v) h

example (d : Defaults) := C46_ends_fdm _ _ _ _ _ _ _ _ _ _ (example_no_signal d)

end Snompy.Props
