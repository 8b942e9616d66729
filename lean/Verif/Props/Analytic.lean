import Verif.Lemmas.AnalyticTip
import Verif.Props.Continuity
import Verif.Props.FarPassive
import Mathlib.Analysis.Complex.OpenMapping

/-!
# C125: results are analytic functions of the inputs

`Spec/Analytic.lean` has the words.  In each theorem the call with the parameters `w` returns a number.  Then so do the calls with
parameters close enough to `w`, and the results are an analytic function of the parameters.
-/

namespace Snompy.Props

open Snompy Filter Topology

variable {𝕜 : Type} [NontriviallyNormedField 𝕜] [NormedAlgebra 𝕜 ℂ] {E : Type} [NormedAddCommGroup E] [NormedSpace 𝕜 E] {w : E}

/-! ## Permittivities

With `𝕜 = ℂ`, the results are holomorphic functions of the permittivities, of `g_factor`, of `eps_tip` and of `alpha_tip`. -/

section Permittivities

variable {e sub : E → ℂ} {L : List ((E → ℂ) × ℝ)} {nu : E → Option ℝ}

theorem C125_qs (he : AnalyticAt 𝕜 e w) (hL : ∀ l ∈ L, AnalyticAt 𝕜 l.1 w) (hs : AnalyticAt 𝕜 sub w) (q : FP ℝ) :
    (∀ r0, (layered (e w) (L.map fun l => (l.1 w, l.2)) (sub w) (nu w)).reflCoefQs q = .ok (FP.num r0) →
      IsAnalytic 𝕜 w fun a => (layered (e a) (L.map fun l => (l.1 a, l.2)) (sub a) (nu a)).reflCoefQs q) ∧
    ∀ t0, (layered (e w) (L.map fun l => (l.1 w, l.2)) (sub w) (nu w)).transCoefQs q = .ok (FP.num t0) →
      IsAnalytic 𝕜 w fun a => (layered (e a) (L.map fun l => (l.1 a, l.2)) (sub a) (nu a)).transCoefQs q := by
  have h := SAnalytic.layered (nu := nu) he hL hs
  exact ⟨fun r0 h0 => PyA.finite (h.reflCoefQs (q := fun _ => q) rfl) h0, fun t0 h0 => PyA.finite (h.transCoefQs (q := fun _ => q) rfl) h0⟩

theorem C125_above (env : Env) (he : AnalyticAt 𝕜 e w) (hL : ∀ l ∈ L, AnalyticAt 𝕜 l.1 w) (hs : AnalyticAt 𝕜 sub w) (z : FP ℝ)
    (nLag : Option ℕ) (b0 : ℂ)
    (h0 : (layered (e w) (L.map fun l => (l.1 w, l.2)) (sub w) (nu w)).reflCoefQsAboveSurf env z nLag = .ok (FP.num b0)) :
    IsAnalytic 𝕜 w fun a => (layered (e a) (L.map fun l => (l.1 a, l.2)) (sub a) (nu a)).reflCoefQsAboveSurf env z nLag :=
  PyA.finite ((SAnalytic.layered (nu := nu) he hL hs).reflCoefQsAboveSurf RealClass.constant env (z := fun _ => z) rfl nLag) h0

/-- Fixed real arguments and an analytic `g_factor`. -/
theorem fdm_fixed (p : FdmArgs (FP ℝ) (FP ℂ)) {g : E → Option (FP ℂ)} (hg : ArgAnalytic 𝕜 w g) :
    FdmArgsIn 𝕜 w (fun x x0 => x = fun _ => x0) (fun a => { p with gFactor := g a }) { p with gFactor := g w } :=
  ⟨.const (fun _ => rfl) _, .const (fun _ => rfl) _, hg.argIn, .const (fun _ => rfl) _, .const (fun _ => rfl) _, .const (fun _ => rfl) _⟩

theorem not_multi {m : Option String} {s : Stack (FP ℝ) (FP ℂ)} (hm : m = some "bulk" ∨ m = some "Q_ave" ∨ m = none ∧ s.multilayer = false) :
    m.getD (if s.multilayer then "multi" else "bulk") ≠ "multi" := by
  rcases hm with rfl | rfl | ⟨rfl, h⟩
  · simp
  · simp
  · simp [h]

theorem C125_fdm (env : Env) (he : AnalyticAt 𝕜 e w) (hL : ∀ l ∈ L, AnalyticAt 𝕜 l.1 w) (hs : AnalyticAt 𝕜 sub w) (z : Option (FP ℝ))
    (p : FdmArgs (FP ℝ) (FP ℂ)) {g : E → Option (FP ℂ)} (hg : ArgAnalytic 𝕜 w g) (nLag : Option ℕ) (m : Option String)
    (hm : m = some "bulk" ∨ m = some "Q_ave" ∨ m = none ∧ L = []) (x0 : ℂ)
    (h0 : Fdm.effPol env (layered (e w) (L.map fun l => (l.1 w, l.2)) (sub w) (nu w)) z { p with gFactor := g w } nLag m =
      .ok (FP.num x0)) :
    IsAnalytic 𝕜 w fun a =>
      Fdm.effPol env (layered (e a) (L.map fun l => (l.1 a, l.2)) (sub a) (nu a)) z { p with gFactor := g a } nLag m :=
  PyA.finite ((SAnalytic.layered (nu := nu) he hL hs).fdm RealClass.constant env (z := fun _ => z) rfl (fdm_fixed p hg) nLag m
    (not_multi (hm.imp_right (Or.imp_right (And.imp_right fun h => by subst h; exact layered_multilayer _ [] _ _))))) h0

theorem C125_fdm_n (env : Env) (he : AnalyticAt 𝕜 e w) (hL : ∀ l ∈ L, AnalyticAt 𝕜 l.1 w) (hs : AnalyticAt 𝕜 sub w) (A n : FP ℝ)
    (z : Option (FP ℝ)) (p : FdmArgs (FP ℝ) (FP ℂ)) {g : E → Option (FP ℂ)} (hg : ArgAnalytic 𝕜 w g) (nT nLag : Option ℕ)
    (m : Option String) (hm : m = some "bulk" ∨ m = some "Q_ave" ∨ m = none ∧ L = []) (x0 : ℂ)
    (h0 : Fdm.effPolN env (layered (e w) (L.map fun l => (l.1 w, l.2)) (sub w) (nu w)) A n z nT { p with gFactor := g w } nLag m =
      .ok (FP.num x0)) :
    IsAnalytic 𝕜 w fun a =>
      Fdm.effPolN env (layered (e a) (L.map fun l => (l.1 a, l.2)) (sub a) (nu a)) A n z nT { p with gFactor := g a } nLag m :=
  PyA.finite ((SAnalytic.layered (nu := nu) he hL hs).fdm_n RealClass.constant env (A := fun _ => A) rfl (n := fun _ => n) rfl
    (z := fun _ => z) (.const (fun _ => rfl) _) (fdm_fixed p hg) nT nLag m
    (not_multi (hm.imp_right (Or.imp_right (And.imp_right fun h => by subst h; exact layered_multilayer _ [] _ _))))) h0

theorem C125_fdm_taylor (env : Env) (he : AnalyticAt 𝕜 e w) (hL : ∀ l ∈ L, AnalyticAt 𝕜 l.1 w) (hs : AnalyticAt 𝕜 sub w) (A n : FP ℝ)
    (z : Option (FP ℝ)) (p : FdmArgs (FP ℝ) (FP ℂ)) {g : E → Option (FP ℂ)} (hg : ArgAnalytic 𝕜 w g) (nLag : Option ℕ)
    (m : Option String) (nT nTayl : Option ℕ) (x0 : ℂ)
    (h0 : Fdm.effPolNTaylor env (layered (e w) (L.map fun l => (l.1 w, l.2)) (sub w) (nu w)) A n z { p with gFactor := g w } nLag m nT
      nTayl = .ok (FP.num x0)) :
    IsAnalytic 𝕜 w fun a =>
      Fdm.effPolNTaylor env (layered (e a) (L.map fun l => (l.1 a, l.2)) (sub a) (nu a)) A n z { p with gFactor := g a } nLag m nT nTayl :=
  PyA.finite ((SAnalytic.layered (nu := nu) he hL hs).fdm_taylor RealClass.constant env (A := fun _ => A) rfl n
    (z := fun _ => z) (.const (fun _ => rfl) _) (fdm_fixed p hg) nLag m nT nTayl) h0

/-- A fixed radius and an analytic response of the tip. -/
theorem pdm_fixed (r : Option (FP ℝ)) {eT al : E → Option (FP ℂ)} (h1 : ArgAnalytic 𝕜 w eT) (h2 : ArgAnalytic 𝕜 w al) :
    PdmArgsIn 𝕜 w (fun x x0 => x = fun _ => x0) (fun a => ⟨r, eT a, al a⟩) ⟨r, eT w, al w⟩ :=
  ⟨.const (fun _ => rfl) _, h1.argIn, h2.argIn⟩

theorem C125_pdm (env : Env) (he : AnalyticAt 𝕜 e w) (hL : ∀ l ∈ L, AnalyticAt 𝕜 l.1 w) (hs : AnalyticAt 𝕜 sub w) (z r : Option (FP ℝ))
    {eT al : E → Option (FP ℂ)} (h1 : ArgAnalytic 𝕜 w eT) (h2 : ArgAnalytic 𝕜 w al) (x0 : ℂ)
    (h0 : Pdm.effPol env (layered (e w) (L.map fun l => (l.1 w, l.2)) (sub w) (nu w)) z ⟨r, eT w, al w⟩ = .ok (FP.num x0)) :
    IsAnalytic 𝕜 w fun a => Pdm.effPol env (layered (e a) (L.map fun l => (l.1 a, l.2)) (sub a) (nu a)) z ⟨r, eT a, al a⟩ :=
  PyA.finite ((SAnalytic.layered (nu := nu) he hL hs).pdm RealClass.constant env (z := fun _ => z) rfl (pdm_fixed r h1 h2)) h0

theorem C125_pdm_n (env : Env) (he : AnalyticAt 𝕜 e w) (hL : ∀ l ∈ L, AnalyticAt 𝕜 l.1 w) (hs : AnalyticAt 𝕜 sub w) (A n : FP ℝ)
    (z r : Option (FP ℝ)) {eT al : E → Option (FP ℂ)} (h1 : ArgAnalytic 𝕜 w eT) (h2 : ArgAnalytic 𝕜 w al) (nT : Option ℕ) (x0 : ℂ)
    (h0 : Pdm.effPolN env (layered (e w) (L.map fun l => (l.1 w, l.2)) (sub w) (nu w)) A n z nT ⟨r, eT w, al w⟩ = .ok (FP.num x0)) :
    IsAnalytic 𝕜 w fun a => Pdm.effPolN env (layered (e a) (L.map fun l => (l.1 a, l.2)) (sub a) (nu a)) A n z nT ⟨r, eT a, al a⟩ :=
  PyA.finite ((SAnalytic.layered (nu := nu) he hL hs).pdm_n RealClass.constant env (A := fun _ => A) rfl (n := fun _ => n) rfl
    (z := fun _ => z) (.const (fun _ => rfl) _) (pdm_fixed r h1 h2) nT) h0

theorem C125_pdm_taylor (env : Env) (he : AnalyticAt 𝕜 e w) (hL : ∀ l ∈ L, AnalyticAt 𝕜 l.1 w) (hs : AnalyticAt 𝕜 sub w) (A n : FP ℝ)
    (z r : Option (FP ℝ)) {eT al : E → Option (FP ℂ)} (h1 : ArgAnalytic 𝕜 w eT) (h2 : ArgAnalytic 𝕜 w al) (nT nTayl : Option ℕ) (x0 : ℂ)
    (h0 : Pdm.effPolNTaylor env (layered (e w) (L.map fun l => (l.1 w, l.2)) (sub w) (nu w)) A n z ⟨r, eT w, al w⟩ nT nTayl =
      .ok (FP.num x0)) :
    IsAnalytic 𝕜 w fun a =>
      Pdm.effPolNTaylor env (layered (e a) (L.map fun l => (l.1 a, l.2)) (sub a) (nu a)) A n z ⟨r, eT a, al a⟩ nT nTayl :=
  PyA.finite ((SAnalytic.layered (nu := nu) he hL hs).pdm_taylor RealClass.constant env (A := fun _ => A) rfl (n := fun _ => n) rfl
    (z := fun _ => z) (.const (fun _ => rfl) _) (pdm_fixed r h1 h2) nT nTayl) h0

end Permittivities

/-- The permittivity of a layer is a complex parameter. -/
example : IsAnalytic ℂ (2 : ℂ) fun x => (layered 1 [(x, 3)] 4).reflCoefQs (FP.num 5) := by
  obtain ⟨β, h, -⟩ := C16_bound 1 [(2, 3)] 4 none 5 one_pos (by simp) (by norm_num) (by norm_num)
  refine (C125_qs (e := fun _ => 1) (L := [(fun x => x, 3)]) (sub := fun _ => 4) (nu := fun _ => none) analyticAt_const ?_
    analyticAt_const (FP.num 5)).1 β (by simpa using h)
  intro l hl
  obtain rfl := List.mem_singleton.1 hl
  exact analyticAt_id

example (d : Defaults) : IsAnalytic ℂ (2 : ℂ) fun x => (layered 1 [] x none).reflCoefQsAboveSurf (rule2 d) (FP.num 1) (some 2) :=
  C125_above (L := []) (nu := fun _ => none) (rule2 d) analyticAt_const (by simp) analyticAt_id (FP.num 1) (some 2) _
    ((C28_average (rule2 d) 1 2 none (FP.num 1) (some 2) (rule2_ok d) two_ne_zero (by norm_num)).trans
      (C09_refl 1 2 none _ two_ne_zero (by norm_num)))

/-- Both the substrate and the factor `g` vary. -/
example (d : Defaults) : IsAnalytic ℂ (1 : ℂ) fun x => Fdm.effPol (rule2 d) (layered 1 [] x none) (some (FP.num 0))
    (fdmTip 1 300 (x * Complex.I) 1 (1 / 2) 1.4) (some 2) none :=
  C125_fdm (L := []) (nu := fun _ => none) (rule2 d) analyticAt_const (by simp) analyticAt_id (some (FP.num 0))
    (fdmTip 1 300 Complex.I 1 (1 / 2) 1.4) (g := fun x => some (FP.num (x * Complex.I))) (.given (analyticAt_id.mul analyticAt_const))
    (some 2) none (.inr (.inr ⟨rfl, rfl⟩)) 1 (C37_fdm (rule2 d) 1 none one_ne_zero
      (some 2) (rule2_ok d) 0 1 300 (1 * Complex.I) 1 (1 / 2) 1.4 example_geomOk.1 example_geomOk.2 none (.inl rfl))

example (d : Defaults) : IsAnalytic ℂ (1 : ℂ) fun x => Fdm.effPolN (rule2 d) (layered 1 [] x none) (FP.num 2)
    (FP.num ((3 : ℤ) : ℝ)) (some (FP.num 0)) (some 8) (fdmTip 1 300 Complex.I 1 (1 / 2) 1.4) (some 2) none :=
  C125_fdm_n (L := []) (nu := fun _ => none) (rule2 d) analyticAt_const (by simp) analyticAt_id (FP.num 2) _ (some (FP.num 0))
    (fdmTip 1 300 Complex.I 1 (1 / 2) 1.4) (g := fun _ => some (FP.num Complex.I)) (.fixed _) (some 8) (some 2) none
    (.inr (.inr ⟨rfl, rfl⟩)) 0 (example_no_signal d)

example (env : Env) : IsAnalytic ℂ (3 : ℂ) fun x => Fdm.effPolNTaylor env (bulk 1 x) (FP.num 30) (FP.num (15 : ℕ)) (some (FP.num 10))
    (fdmTip 20 300 (0.7 : ℝ) 1 0.5 1.4) none (some "bulk") (some 32) (some 15) := by
  obtain ⟨v, -, h, -⟩ := C73_fdm_taylor env (bulk 1 3) (some "bulk") (1 / 2) 20 300 0.7 1 0.5
    1.4 10 30 none (.inl ⟨le_rfl, .inr rfl, by rw [C09_refl] <;> norm_num⟩) (by norm_num) 15 32
    (by norm_num) 15 (by norm_num)
    ⟨by norm_num, by norm_num, by norm_num, by norm_num, by norm_num, by norm_num, by norm_num⟩
    ⟨by norm_num, by norm_num, by norm_num, by norm_num, by norm_num, by norm_num, by norm_num⟩ (by norm_num)
    (by norm_num)
  exact C125_fdm_taylor (L := []) (nu := fun _ => none) env analyticAt_const (by simp) analyticAt_id (FP.num 30) _ (some (FP.num 10))
    (fdmTip 20 300 (0.7 : ℝ) 1 0.5 1.4) (g := fun _ => some (FP.num ((0.7 : ℝ) : ℂ))) (.fixed _) none (some "bulk") (some 32) (some 15) v h

/-- The permittivities of the sample and of the tip vary. -/
example (env : Env) : IsAnalytic ℂ (1 : ℂ) fun x => Pdm.effPol env (layered 1 [] x none) (some (FP.num 0)) ⟨some (FP.num 1), none,
    some (FP.num (1 + x))⟩ :=
  C125_pdm (L := []) (nu := fun _ => none) env analyticAt_const (by simp) analyticAt_id (some (FP.num 0)) (some (FP.num 1))
    (eT := fun _ => none) (al := fun x => some (FP.num (1 + x))) (.fixed _) (.given (analyticAt_const.add analyticAt_id)) (1 + 1)
    (C37_pdm env 1 none 0 1 (1 + 1) one_ne_zero (by norm_num))

example (env : Env) : IsAnalytic ℂ (1 : ℂ) fun x => Pdm.effPolN env (layered 1 [] x none) (FP.num 1) (FP.num ((3 : ℤ) : ℝ))
    (some (FP.num 0)) (some 8) (tip 1 2) :=
  C125_pdm_n (L := []) (nu := fun _ => none) env analyticAt_const (by simp) analyticAt_id (FP.num 1) _ (some (FP.num 0)) (some (FP.num 1))
    (eT := fun _ => none) (al := fun _ => some (FP.num 2)) (.fixed _) (.fixed _) (some 8) 0
    (C37_pdm_n env 1 none 0 1 1 2 3 8 one_ne_zero one_pos le_rfl zero_le_one (by norm_num) (by norm_num))

example (env : Env) : IsAnalytic ℂ (3 : ℂ) fun x => Pdm.effPolNTaylor env (bulk 1 x) (FP.num 2) (FP.num (3 : ℕ)) (some (FP.num 0))
    (tip 1 (1 : ℝ)) (some 8) (some 15) := by
  obtain ⟨v, -, h, -⟩ := C73_pdm_taylor env (bulk 1 3) (1 / 2) (by rw [C09_refl] <;> norm_num) 1 1 0 2 two_pos 3 8 (by norm_num) 15
    (by norm_num) one_pos (by norm_num) (by norm_num)
  exact C125_pdm_taylor (L := []) (nu := fun _ => none) env analyticAt_const (by simp) analyticAt_id (FP.num 2) _ (some (FP.num 0))
    (some (FP.num 1)) (eT := fun _ => none) (al := fun _ => some (FP.num ((1 : ℝ) : ℂ))) (.fixed _) (.fixed _) (some 8) (some 15) v h

/-! ## All arguments

The results for bulk samples are analytic in all arguments, and those for samples with layers also in `q` and the thicknesses unless
the product is at the end of the interval to which it is clipped. -/

theorem C125_thickness {e sub : E → ℂ} {L : List ((E → ℂ) × (E → ℝ))} {nu : E → Option ℝ} {q : E → ℝ} (he : AnalyticAt 𝕜 e w)
    (hs : AnalyticAt 𝕜 sub w) (hq : AnalyticAt 𝕜 (fun a => (q a : ℂ)) w)
    (hL : ∀ l ∈ L, AnalyticAt 𝕜 l.1 w ∧ AnalyticAt 𝕜 (fun a => (l.2 a : ℂ)) w ∧ |q w * l.2 w| ≠ maxExpArg) :
    (∀ r0, (layered (e w) (L.map fun l => (l.1 w, l.2 w)) (sub w) (nu w)).reflCoefQs (FP.num (q w)) = .ok (FP.num r0) →
      IsAnalytic 𝕜 w fun a => (layered (e a) (L.map fun l => (l.1 a, l.2 a)) (sub a) (nu a)).reflCoefQs (FP.num (q a))) ∧
    ∀ t0, (layered (e w) (L.map fun l => (l.1 w, l.2 w)) (sub w) (nu w)).transCoefQs (FP.num (q w)) = .ok (FP.num t0) →
      IsAnalytic 𝕜 w fun a => (layered (e a) (L.map fun l => (l.1 a, l.2 a)) (sub a) (nu a)).transCoefQs (FP.num (q a)) := by
  have h := SAnalytic.thick (nu := nu) he hq hL hs
  exact ⟨fun r0 h0 => PyA.finite (h.reflCoefQs ⟨rfl, rfl⟩) h0, fun t0 h0 => PyA.finite (h.transCoefQs ⟨rfl, rfl⟩) h0⟩

/-- The thickness and the momentum are real parameters. -/
example : IsAnalytic ℝ (3 : ℝ) fun x => (layered 1 [(2, x)] 4).reflCoefQs (FP.num (2 * x)) := by
  obtain ⟨β, h, -⟩ := C16_bound 1 [(2, 3)] 4 none (2 * 3) one_pos (by simp) (by norm_num) (by norm_num)
  refine (C125_thickness (e := fun _ => 1) (L := [(fun _ => 2, fun x => x)]) (sub := fun _ => 4) (nu := fun _ => none)
    (q := fun x => 2 * x) analyticAt_const analyticAt_const ?_ ?_).1 β (by simpa using h)
  · have h : AnalyticAt ℝ (fun x : ℝ => (2 : ℂ) * (x : ℂ)) 3 := analyticAt_const.mul (Complex.ofRealCLM.analyticAt 3)
    simpa using h
  · intro l hl
    obtain rfl := List.mem_singleton.1 hl
    refine ⟨analyticAt_const, Complex.ofRealCLM.analyticAt 3, ?_⟩
    have h2 := maxExpArg_gt
    norm_num
    linarith

section Bulk

variable {e sub : E → ℂ} {nu : E → Option ℝ}

theorem fdm_varied {p : E → FdmArgs (FP ℝ) (FP ℂ)} (h : FdmArgsAnalytic 𝕜 w p) : FdmArgsIn 𝕜 w (FPA 𝕜 w) p (p w) :=
  ⟨h.rTip.argIn, h.lTip.argIn, h.gFactor.argIn, h.dQ0.argIn, h.dQ1.argIn, h.dQa.argIn⟩

theorem pdm_varied {p : E → PdmArgs (FP ℝ) (FP ℂ)} (h : PdmArgsAnalytic 𝕜 w p) : PdmArgsIn 𝕜 w (FPA 𝕜 w) p (p w) :=
  ⟨h.rTip.argIn, h.epsTip.argIn, h.alphaTip.argIn⟩

theorem C125_bulk_fdm (env : Env) (he : AnalyticAt 𝕜 e w) (hs : AnalyticAt 𝕜 sub w) {z : E → Option (FP ℝ)} (hz : ArgAnalytic 𝕜 w z)
    {p : E → FdmArgs (FP ℝ) (FP ℂ)} (hp : FdmArgsAnalytic 𝕜 w p) (nLag : Option ℕ) (m : Option String) (hm : m ≠ some "multi") (x0 : ℂ)
    (h0 : Fdm.effPol env (bulk (e w) (sub w) (nu w)) (z w) (p w) nLag m = .ok (FP.num x0)) :
    IsAnalytic 𝕜 w fun a => Fdm.effPol env (bulk (e a) (sub a) (nu a)) (z a) (p a) nLag m := by
  refine PyA.finite ((SAnalytic.bulk (nu := nu) he hs (FPA 𝕜 w)).fdm RealClass.analytic env (hz.argIn.getD (FPA.const _)) (fdm_varied hp)
    nLag m ?_) h0
  cases m with
  | none => exact not_multi (.inr (.inr ⟨rfl, layered_multilayer _ [] _ _⟩))
  | some m => simpa using hm

theorem C125_bulk_fdm_n (env : Env) (he : AnalyticAt 𝕜 e w) (hs : AnalyticAt 𝕜 sub w) {A n : E → ℝ}
    (hA : AnalyticAt 𝕜 (fun a => (A a : ℂ)) w) (hn : AnalyticAt 𝕜 (fun a => (n a : ℂ)) w) {z : E → Option (FP ℝ)}
    (hz : ArgAnalytic 𝕜 w z) {p : E → FdmArgs (FP ℝ) (FP ℂ)} (hp : FdmArgsAnalytic 𝕜 w p) (nT nLag : Option ℕ) (m : Option String)
    (hm : m ≠ some "multi") (x0 : ℂ)
    (h0 : Fdm.effPolN env (bulk (e w) (sub w) (nu w)) (FP.num (A w)) (FP.num (n w)) (z w) nT (p w) nLag m = .ok (FP.num x0)) :
    IsAnalytic 𝕜 w fun a => Fdm.effPolN env (bulk (e a) (sub a) (nu a)) (FP.num (A a)) (FP.num (n a)) (z a) nT (p a) nLag m := by
  refine PyA.finite ((SAnalytic.bulk (nu := nu) he hs (FPA 𝕜 w)).fdm_n RealClass.analytic env (FPA.num hA) (FPA.num hn) hz.argIn
    (fdm_varied hp) nT nLag m ?_) h0
  cases m with
  | none => exact not_multi (.inr (.inr ⟨rfl, layered_multilayer _ [] _ _⟩))
  | some m => simpa using hm

theorem C125_bulk_pdm (env : Env) (he : AnalyticAt 𝕜 e w) (hs : AnalyticAt 𝕜 sub w) {z : E → Option (FP ℝ)} (hz : ArgAnalytic 𝕜 w z)
    {p : E → PdmArgs (FP ℝ) (FP ℂ)} (hp : PdmArgsAnalytic 𝕜 w p) (x0 : ℂ)
    (h0 : Pdm.effPol env (bulk (e w) (sub w) (nu w)) (z w) (p w) = .ok (FP.num x0)) :
    IsAnalytic 𝕜 w fun a => Pdm.effPol env (bulk (e a) (sub a) (nu a)) (z a) (p a) :=
  PyA.finite ((SAnalytic.bulk (nu := nu) he hs (FPA 𝕜 w)).pdm RealClass.analytic env (hz.argIn.getD (FPA.const _)) (pdm_varied hp)) h0

theorem C125_bulk_pdm_n (env : Env) (he : AnalyticAt 𝕜 e w) (hs : AnalyticAt 𝕜 sub w) {A n : E → ℝ}
    (hA : AnalyticAt 𝕜 (fun a => (A a : ℂ)) w) (hn : AnalyticAt 𝕜 (fun a => (n a : ℂ)) w) {z : E → Option (FP ℝ)}
    (hz : ArgAnalytic 𝕜 w z) {p : E → PdmArgs (FP ℝ) (FP ℂ)} (hp : PdmArgsAnalytic 𝕜 w p) (nT : Option ℕ) (x0 : ℂ)
    (h0 : Pdm.effPolN env (bulk (e w) (sub w) (nu w)) (FP.num (A w)) (FP.num (n w)) (z w) nT (p w) = .ok (FP.num x0)) :
    IsAnalytic 𝕜 w fun a => Pdm.effPolN env (bulk (e a) (sub a) (nu a)) (FP.num (A a)) (FP.num (n a)) (z a) nT (p a) :=
  PyA.finite ((SAnalytic.bulk (nu := nu) he hs (FPA 𝕜 w)).pdm_n RealClass.analytic env (FPA.num hA) (FPA.num hn) hz.argIn (pdm_varied hp)
    nT) h0

end Bulk

theorem C125_inverse (env : Env) {x : E → ℂ} (hx : AnalyticAt 𝕜 x w) {z : E → Option (FP ℝ)} (hz : ArgAnalytic 𝕜 w z) :
    (∀ {p : E → FdmArgs (FP ℝ) (FP ℂ)}, FdmArgsAnalytic 𝕜 w p → ∀ b0,
      Fdm.reflCoefQsFromEffPol env (FP.num (x w)) (z w) (p w) = FP.num b0 →
      IsAnalytic 𝕜 w fun a => .ok (Fdm.reflCoefQsFromEffPol env (FP.num (x a)) (z a) (p a))) ∧
    ∀ {p : E → PdmArgs (FP ℝ) (FP ℂ)}, PdmArgsAnalytic 𝕜 w p → ∀ b0,
      Pdm.reflCoefQsFromEffPol env (FP.num (x w)) (z w) (p w) = .ok (FP.num b0) →
      IsAnalytic 𝕜 w fun a => Pdm.reflCoefQsFromEffPol env (FP.num (x a)) (z a) (p a) :=
  ⟨fun hp b0 h0 => PyA.finite (PyT.ok (FPA.fdm_inverse RealClass.analytic env (FPA.num hx) hz.argIn (fdm_varied hp))) (by rw [h0]),
    fun hp b0 h0 => PyA.finite (PyA.pdm_inverse RealClass.analytic env (FPA.num hx) hz.argIn (pdm_varied hp)) h0⟩

/-- Substrate, height, tip and amplitude all vary with a real parameter. -/
theorem example_varied : AnalyticAt ℝ (fun x : ℝ => (x : ℂ)) 1 ∧ AnalyticAt ℝ (fun x : ℝ => ((x - 1 : ℝ) : ℂ)) 1 ∧
    AnalyticAt ℝ (fun x : ℝ => ((2 * x : ℝ) : ℂ)) 1 := by
  have h : AnalyticAt ℝ (fun x : ℝ => (x : ℂ)) 1 := Complex.ofRealCLM.analyticAt 1
  refine ⟨h, ?_, ?_⟩
  · simp only [Complex.ofReal_sub]
    exact h.sub analyticAt_const
  · simp only [Complex.ofReal_mul]
    exact analyticAt_const.mul h

theorem example_varied_fdm : FdmArgsAnalytic ℝ (1 : ℝ) fun x => fdmTip x 300 Complex.I 1 (1 / 2) 1.4 :=
  ⟨.given example_varied.1, .fixed (some (FP.num 300)), .fixed (some (FP.num Complex.I)), .fixed (some (FP.num 1)),
    .fixed (some (FP.num (1 / 2))), .fixed (some (FP.num 1.4))⟩

theorem example_varied_pdm : PdmArgsAnalytic ℝ (1 : ℝ) fun x => tip x 2 :=
  ⟨.given example_varied.1, .fixed none, .fixed (some (FP.num 2))⟩

example (d : Defaults) : IsAnalytic ℝ (1 : ℝ) fun x => Fdm.effPol (rule2 d) (bulk 1 x none) (some (FP.num (x - 1)))
    (fdmTip x 300 Complex.I 1 (1 / 2) 1.4) (some 2) none :=
  C125_bulk_fdm (nu := fun _ => none) (rule2 d) analyticAt_const example_varied.1 (.given example_varied.2.1) example_varied_fdm
    (some 2) none (by simp) 1 (by
      simpa using C37_fdm (rule2 d) 1 none one_ne_zero (some 2) (rule2_ok d) 0 1 300 Complex.I 1 (1 / 2) 1.4 example_geomOk.1
        example_geomOk.2 none (.inl rfl))

example (d : Defaults) : IsAnalytic ℝ (1 : ℝ) fun x => Fdm.effPolN (rule2 d) (bulk 1 x none) (FP.num (2 * x)) (FP.num ((3 : ℤ) : ℝ))
    (some (FP.num (x - 1))) (some 8) (fdmTip x 300 Complex.I 1 (1 / 2) 1.4) (some 2) none :=
  C125_bulk_fdm_n (nu := fun _ => none) (rule2 d) analyticAt_const example_varied.1 example_varied.2.2 analyticAt_const
    (.given example_varied.2.1) example_varied_fdm (some 8) (some 2) none (by simp) 0 (by simpa using example_no_signal d)

example (env : Env) : IsAnalytic ℝ (1 : ℝ) fun x => Pdm.effPol env (bulk 1 x none) (some (FP.num (x - 1))) (tip x 2) :=
  C125_bulk_pdm (nu := fun _ => none) env analyticAt_const example_varied.1 (.given example_varied.2.1) example_varied_pdm 2
    (by simpa using C37_pdm env 1 none 0 1 2 one_ne_zero (by norm_num))

example (env : Env) : IsAnalytic ℝ (1 : ℝ) fun x => Pdm.effPolN env (bulk 1 x none) (FP.num (2 * x)) (FP.num ((3 : ℤ) : ℝ))
    (some (FP.num (x - 1))) (some 8) (tip x 2) :=
  C125_bulk_pdm_n (nu := fun _ => none) env analyticAt_const example_varied.1 example_varied.2.2 analyticAt_const
    (.given example_varied.2.1) example_varied_pdm (some 8) 0
    (by simpa using C37_pdm_n env 1 none 0 1 2 2 3 8 one_ne_zero one_pos le_rfl zero_le_two (by norm_num) (by norm_num))

example (env : Env) : IsAnalytic ℂ (1 : ℂ) fun x => .ok (Fdm.reflCoefQsFromEffPol env (FP.num x) (some (FP.num 0))
    (fdmTip 1 300 Complex.I 1 (1 / 2) 1.4)) := by
  obtain ⟨b0, h, -⟩ := C33_right env 0 1 300 Complex.I 1 (1 / 2) 1.4 example_geomOk.1 example_geomOk.2 example_geom_ne 1
    (by simpa using example_geom_ne) none
  exact (C125_inverse env analyticAt_id (.fixed (some (FP.num 0)))).1 (p := fun _ => fdmTip 1 300 Complex.I 1 (1 / 2) 1.4)
    ⟨.fixed _, .fixed _, .fixed _, .fixed _, .fixed _, .fixed _⟩ b0 h

example (env : Env) : IsAnalytic ℂ (2 : ℂ) fun x => Pdm.reflCoefQsFromEffPol env (FP.num x) (some (FP.num 0)) (tip 1 1) := by
  obtain ⟨b0, h, -⟩ := C34_right env 0 1 1 2 (by norm_num) one_ne_zero two_ne_zero
  exact (C125_inverse env analyticAt_id (.fixed (some (FP.num 0)))).2 (p := fun _ => tip 1 1) ⟨.fixed _, .fixed _, .fixed _⟩ b0 h

/-! ## Slopes -/

/-- How much the results change with the permittivity of the substrate. -/
theorem C125_slope (env : Env) (e w : ℂ) (hw : w ≠ 0) (h : w + e ≠ 0) :
    (∀ q, ∃ v : ℂ → ℂ, (∀ᶠ x in 𝓝 w, (bulk e x).reflCoefQs q = .ok (FP.num (v x))) ∧ HasDerivAt v (2 * e / (w + e) ^ 2) w) ∧
    (∀ (z r l : ℝ) (g : ℂ) (d0 d1 dA : ℝ) (nLag : Option ℕ), Fdm.GeomOk z d0 r l → Fdm.GeomOk z d1 r l →
      1 - (w - e) / (w + e) * Fdm.geom z d1 r l g ≠ 0 →
      ∃ v : ℂ → ℂ, (∀ᶠ x in 𝓝 w, Fdm.effPol env (bulk e x) (some (FP.num z)) (fdmTip r l g d0 d1 dA) nLag none = .ok (FP.num (v x))) ∧
        HasDerivAt v (Fdm.geom z d0 r l g * e / (w + e - (w - e) * Fdm.geom z d1 r l g) ^ 2) w) ∧
    ∀ (z r : ℝ) (α : ℂ), r + z ≠ 0 → 1 - Pdm.geom z r α * ((w - e) / (w + e)) ≠ 0 →
      ∃ v : ℂ → ℂ, (∀ᶠ x in 𝓝 w, Pdm.effPol env (bulk e x) (some (FP.num z)) (tip r α) = .ok (FP.num (v x))) ∧
        HasDerivAt v (2 * e * α * Pdm.geom z r α / (w + e - (w - e) * Pdm.geom z r α) ^ 2) w := by
  have hev : ∀ᶠ x in 𝓝 w, x ≠ 0 ∧ x + e ≠ 0 := by
    have c : ContinuousAt (fun x : ℂ => x + e) w := (continuous_id.add continuous_const).continuousAt
    filter_upwards [continuousAt_id.eventually_ne hw, c.eventually_ne h] with x h1 h2
    exact ⟨h1, h2⟩
  have hβ : HasDerivAt (fun x : ℂ => (x - e) / (x + e)) (2 * e / (w + e) ^ 2) w := by
    have := ((hasDerivAt_id w).sub_const e).div ((hasDerivAt_id w).add_const e) h
    refine this.congr_deriv ?_
    simp only [id]
    ring
  refine ⟨fun q => ⟨_, ?_, hβ⟩, fun z r l g d0 d1 dA nLag h0 h1 hd => ?_, fun z r α hr hd => ?_⟩
  · filter_upwards [hev] with x hx
    exact C09_refl e x none q hx.1 hx.2
  · have hc : ContinuousAt (fun x : ℂ => 1 - (x - e) / (x + e) * Fdm.geom z d1 r l g) w :=
      continuousAt_const.sub (hβ.continuousAt.mul continuousAt_const)
    refine ⟨fun x => 1 + (x - e) / (x + e) * Fdm.geom z d0 r l g / (2 * (1 - (x - e) / (x + e) * Fdm.geom z d1 r l g)), ?_, ?_⟩
    · filter_upwards [hev, hc.eventually_ne hd] with x hx hx'
      rw [Fdm.effPol_default]
      exact effPol_val env (bulk e x) rfl _ (C09_refl e x none _ hx.1 hx.2) z r l g d0 d1 dA h0 h1 hx' nLag
    · have := ((hβ.mul_const (Fdm.geom z d0 r l g)).div (((hβ.mul_const (Fdm.geom z d1 r l g)).const_sub 1).const_mul 2)
        (mul_ne_zero two_ne_zero hd)).const_add 1
      refine this.congr_deriv ?_
      have hd' : w + e - (w - e) * Fdm.geom z d1 r l g ≠ 0 := by
        intro h2
        apply hd
        field_simp
        linear_combination h2
      rw [div_eq_div_iff (pow_ne_zero 2 (mul_ne_zero two_ne_zero hd)) (pow_ne_zero 2 hd')]
      field_simp
      ring
  · have hc : ContinuousAt (fun x : ℂ => 1 - Pdm.geom z r α * ((x - e) / (x + e))) w :=
      continuousAt_const.sub (continuousAt_const.mul hβ.continuousAt)
    refine ⟨fun x => α / (1 - Pdm.geom z r α * ((x - e) / (x + e))), ?_, ?_⟩
    · filter_upwards [hev, hc.eventually_ne hd] with x hx hx'
      exact Pdm.effPol_val env _ _ z r α _ (pdm_tip env r α) (C09_refl e x none _ hx.1 hx.2) hr hx'
    · have := (hasDerivAt_const w α).div ((hβ.const_mul (Pdm.geom z r α)).const_sub 1) hd
      refine this.congr_deriv ?_
      have hd' : w + e - (w - e) * Pdm.geom z r α ≠ 0 := by
        intro h2
        apply hd
        field_simp
        linear_combination h2
      rw [div_eq_div_iff (pow_ne_zero 2 hd) (pow_ne_zero 2 hd')]
      field_simp
      ring

example (env : Env) := (C125_slope env 1 1 one_ne_zero (by norm_num)).2.1 0 1 300 Complex.I 1 (1 / 2) 1.4 none example_geomOk.1
  example_geomOk.2 (by simp)

example (env : Env) := (C125_slope env 1 1 one_ne_zero (by norm_num)).2.2 0 1 2 (by norm_num) (by simp)

/-! ## Light -/

/-- Entries of a matrix. -/
def MatAnalytic (𝕜 : Type) [NontriviallyNormedField 𝕜] [NormedAlgebra 𝕜 ℂ] {E : Type} [NormedAddCommGroup E] [NormedSpace 𝕜 E] (w : E)
    (M : E → Matrix (Fin 2) (Fin 2) ℂ) : Prop :=
  ∀ i j, AnalyticAt 𝕜 (fun a => M a i j) w

theorem MatAnalytic.mul {M N : E → Matrix (Fin 2) (Fin 2) ℂ} (h : MatAnalytic 𝕜 w M) (h' : MatAnalytic 𝕜 w N) :
    MatAnalytic 𝕜 w fun a => M a * N a := by
  intro i j
  simp only [Matrix.mul_apply, Fin.sum_univ_two]
  exact ((h i 0).mul (h' 0 j)).add ((h i 1).mul (h' 1 j))

theorem MatAnalytic.interface (pol : String) {a b : E → Medium} (h1 : AnalyticAt 𝕜 (fun x => (a x).eps) w)
    (h2 : AnalyticAt 𝕜 (fun x => (a x).k) w) (h3 : AnalyticAt 𝕜 (fun x => (b x).eps) w) (h4 : AnalyticAt 𝕜 (fun x => (b x).k) w)
    (ha : (a w).k ≠ 0) (hb : (b w).k ≠ 0) (hb' : (b w).eps ≠ 0) : MatAnalytic 𝕜 w fun x => (a x).interfaceMatrix pol (b x) := by
  have hr : AnalyticAt 𝕜 (fun x => (a x).ratio pol (b x)) w := by
    unfold Medium.ratio
    split_ifs
    · exact (h1.div h2 ha).div (h3.div h4 hb) (div_ne_zero hb' hb)
    · exact h4.div h2 ha
  have c : ∀ z : ℂ, AnalyticAt 𝕜 (fun _ : E => z) w := fun z => analyticAt_const
  intro i j
  fin_cases i <;> fin_cases j
  · exact ((c 1).add hr).div (c 2) two_ne_zero
  · exact ((c 1).sub hr).div (c 2) two_ne_zero
  · exact ((c 1).sub hr).div (c 2) two_ne_zero
  · exact ((c 1).add hr).div (c 2) two_ne_zero

theorem MatAnalytic.phase {a : E → Medium} {t : E → ℝ} (h2 : AnalyticAt 𝕜 (fun x => (a x).k) w)
    (ht : AnalyticAt 𝕜 (fun x => (t x : ℂ)) w) : MatAnalytic 𝕜 w fun x => (a x).phaseMatrix (t x) := by
  have c : ∀ z : ℂ, AnalyticAt 𝕜 (fun _ : E => z) w := fun z => analyticAt_const
  have e : ∀ f : E → ℂ, AnalyticAt 𝕜 f w → AnalyticAt 𝕜 (fun a => Complex.exp (f a)) w := fun f hf =>
    AnalyticAt.comp (g := Complex.exp) analyticAt_cexp.restrictScalars hf
  intro i j
  fin_cases i <;> fin_cases j
  · exact e _ ((c (-Complex.I)).mul (h2.mul ht))
  · exact c 0
  · exact c 0
  · exact e _ ((c Complex.I).mul (h2.mul ht))

theorem MatAnalytic.stack (pol : String) {b : E → Medium} (h3 : AnalyticAt 𝕜 (fun x => (b x).eps) w)
    (h4 : AnalyticAt 𝕜 (fun x => (b x).k) w) (hb : (b w).k ≠ 0) (hb' : (b w).eps ≠ 0) (L : List ((E → Medium) × (E → ℝ)))
    (hL : ∀ l ∈ L, AnalyticAt 𝕜 (fun x => (l.1 x).eps) w ∧ AnalyticAt 𝕜 (fun x => (l.1 x).k) w ∧ (l.1 w).k ≠ 0 ∧ (l.1 w).eps ≠ 0 ∧
      AnalyticAt 𝕜 (fun x => (l.2 x : ℂ)) w) {a : E → Medium} (h1 : AnalyticAt 𝕜 (fun x => (a x).eps) w)
    (h2 : AnalyticAt 𝕜 (fun x => (a x).k) w) (ha : (a w).k ≠ 0) :
    MatAnalytic 𝕜 w fun x => (a x).stackMatrix pol (L.map fun l => (l.1 x, l.2 x)) (b x) := by
  induction L generalizing a with
  | nil => exact .interface pol h1 h2 h3 h4 ha hb hb'
  | cons l L ih =>
    obtain ⟨g1, g2, g3, g4, g5⟩ := hL l (by simp)
    exact ((MatAnalytic.interface pol h1 h2 g1 g2 ha g3 g4).mul (.phase g2 g5)).mul (ih (fun l hl => hL l (by simp [hl])) g1 g2 g3)

/-- Away from the cut of the square root in the outer media.  The sign of the root in a layer has no effect, so its cut has none. -/
theorem C125_light {e sub : E → ℂ} {L : List ((E → ℂ) × (E → ℝ))} {snu : E → Option ℝ} {q nu : E → ℝ} (he : AnalyticAt 𝕜 e w)
    (hs : AnalyticAt 𝕜 sub w) (hq : AnalyticAt 𝕜 (fun a => (q a : ℂ)) w) (hnu : AnalyticAt 𝕜 (fun a => (nu a : ℂ)) w)
    (hL : ∀ l ∈ L, AnalyticAt 𝕜 l.1 w ∧ AnalyticAt 𝕜 (fun a => (l.2 a : ℂ)) w ∧ l.1 w ≠ 0 ∧ l.1 w * (nu w : ℂ) ^ 2 ≠ (q w : ℂ) ^ 2)
    (hs0 : sub w ≠ 0) (he1 : e w * (nu w : ℂ) ^ 2 - (q w : ℂ) ^ 2 ∈ Complex.slitPlane)
    (hs1 : sub w * (nu w : ℂ) ^ 2 - (q w : ℂ) ^ 2 ∈ Complex.slitPlane) (pol : String) (hpol : pol = "p" ∨ pol = "s") :
    (∀ r0, (layered (e w) (L.map fun l => (l.1 w, l.2 w)) (sub w) (snu w)).reflCoef (atQ (q w) (nu w) pol) = .ok (FP.num r0) →
      IsAnalytic 𝕜 w fun a => (layered (e a) (L.map fun l => (l.1 a, l.2 a)) (sub a) (snu a)).reflCoef (atQ (q a) (nu a) pol)) ∧
    ∀ t0, (layered (e w) (L.map fun l => (l.1 w, l.2 w)) (sub w) (snu w)).transCoef (atQ (q w) (nu w) pol) = .ok (FP.num t0) →
      IsAnalytic 𝕜 w fun a => (layered (e a) (L.map fun l => (l.1 a, l.2 a)) (sub a) (snu a)).transCoef (atQ (q a) (nu a) pol) := by
  have hx : ∀ {f : E → ℂ}, AnalyticAt 𝕜 f w → AnalyticAt 𝕜 (fun a => f a * (nu a : ℂ) ^ 2 - (q a : ℂ) ^ 2) w := fun h =>
    (h.mul (hnu.pow 2)).sub (hq.pow 2)
  have root : ∀ f : E → ℂ, ∃ k : E → ℂ, AnalyticAt 𝕜 f w → f w * (nu w : ℂ) ^ 2 ≠ (q w : ℂ) ^ 2 →
      AnalyticAt 𝕜 k w ∧ ∀ a, k a ^ 2 = f a * (nu a : ℂ) ^ 2 - (q a : ℂ) ^ 2 := by
    intro f
    by_cases hf : AnalyticAt 𝕜 f w ∧ f w * (nu w : ℂ) ^ 2 ≠ (q w : ℂ) ^ 2
    · obtain ⟨k, h⟩ := exists_root (hx hf.1) (sub_ne_zero.2 hf.2)
      exact ⟨k, fun _ _ => h⟩
    · exact ⟨0, fun h1 h2 => absurd ⟨h1, h2⟩ hf⟩
  choose κ hκ using root
  let a0 : E → Medium := fun x => ⟨e x, Complex.sqrt (e x * (nu x : ℂ) ^ 2 - (q x : ℂ) ^ 2)⟩
  let b0 : E → Medium := fun x => ⟨sub x, Complex.sqrt (sub x * (nu x : ℂ) ^ 2 - (q x : ℂ) ^ 2)⟩
  let L0 : List ((E → Medium) × (E → ℝ)) := L.map fun l => (fun x => ⟨l.1 x, κ l.1 x⟩, l.2)
  have sq : ∀ z : ℂ, Complex.sqrt z ^ 2 = z := fun z => by unfold Complex.sqrt; simp
  have sq0 : ∀ {z : ℂ}, z ∈ Complex.slitPlane → Complex.sqrt z ≠ 0 := fun {z} hz h => by
    have := sq z
    rw [h] at this
    exact Complex.slitPlane_ne_zero hz (by rw [← this]; simp)
  have ka : AnalyticAt 𝕜 (fun x => (a0 x).k) w := AnalyticAt.comp (g := Complex.sqrt) (csqrt_analytic he1) (hx he)
  have kb : AnalyticAt 𝕜 (fun x => (b0 x).k) w := AnalyticAt.comp (g := Complex.sqrt) (csqrt_analytic hs1) (hx hs)
  have hM : MatAnalytic 𝕜 w fun x => (a0 x).stackMatrix pol (L0.map fun l => (l.1 x, l.2 x)) (b0 x) := by
    refine MatAnalytic.stack pol hs kb (sq0 hs1) hs0 L0 ?_ he ka (sq0 he1)
    intro l hl
    obtain ⟨l', h1, rfl⟩ := List.mem_map.1 hl
    obtain ⟨g1, g2, g3, g4⟩ := hL l' h1
    obtain ⟨g5, g6⟩ := hκ l'.1 g1 g4
    refine ⟨g1, g5, fun h => ?_, g3, g2⟩
    have h6 := g6 w
    simp only at h
    rw [h] at h6
    exact g4 (sub_eq_zero.1 (by rw [← h6]; simp))
  -- the code computes this matrix near `w`
  have hL' : ∀ᶠ x in 𝓝 w, ∀ l ∈ L, l.1 x ≠ 0 ∧ l.1 x * (nu x : ℂ) ^ 2 ≠ (q x : ℂ) ^ 2 := by
    have : ∀ L' : List ((E → ℂ) × (E → ℝ)), (∀ l ∈ L', l ∈ L) →
        ∀ᶠ x in 𝓝 w, ∀ l ∈ L', l.1 x ≠ 0 ∧ l.1 x * (nu x : ℂ) ^ 2 ≠ (q x : ℂ) ^ 2 := by
      intro L' h
      induction L' with
      | nil => exact Eventually.of_forall fun _ => by simp
      | cons l L' ih =>
        obtain ⟨g1, -, g3, g4⟩ := hL l (h l (by simp))
        filter_upwards [ih fun l hl => h l (by simp [hl]), g1.continuousAt.eventually_ne g3,
          (hx g1).continuousAt.eventually_ne (sub_ne_zero.2 g4)] with x h1 h2 h3 l' hl'
        rcases List.mem_cons.1 hl' with rfl | hl'
        · exact ⟨h2, sub_ne_zero.1 h3⟩
        · exact h1 l' hl'
    exact this L fun _ h => h
  have key : ∀ᶠ x in 𝓝 w, (layered (e x) (L.map fun l => (l.1 x, l.2 x)) (sub x) (snu x)).transferMatrix (atQ (q x) (nu x) pol) =
      .ok (toFP ((a0 x).stackMatrix pol (L0.map fun l => (l.1 x, l.2 x)) (b0 x))) := by
    filter_upwards [hL', hs.continuousAt.eventually_ne hs0,
      (hx he).continuousAt.eventually_ne (Complex.slitPlane_ne_zero he1)] with x h1 h2 h3
    obtain ⟨M, h4, rfl⟩ := C21_branch (e x) (L0.map fun l => (l.1 x, l.2 x)) (sub x) (snu x) (nu x) (q x) pol hpol (sub_ne_zero.1 h3) (by
      intro l hl
      obtain ⟨l', h5, rfl⟩ := List.mem_map.1 hl
      obtain ⟨l'', h6, rfl⟩ := List.mem_map.1 h5
      exact ⟨(h1 l'' h6).1, (h1 l'' h6).2, (hκ l''.1 (hL l'' h6).1 (hL l'' h6).2.2.2).2 x⟩) h2
    rw [← h4]
    simp only [L0, List.map_map, Function.comp_def]
  have hw := key.self_of_nhds
  have fin : ∀ u : Mat2 (FP ℂ) → FP ℂ, FPA 𝕜 w (fun x => u (toFP ((a0 x).stackMatrix pol (L0.map fun l => (l.1 x, l.2 x)) (b0 x))))
      (u (toFP ((a0 w).stackMatrix pol (L0.map fun l => (l.1 w, l.2 w)) (b0 w)))) → ∀ r0,
      ((layered (e w) (L.map fun l => (l.1 w, l.2 w)) (sub w) (snu w)).transferMatrix (atQ (q w) (nu w) pol) >>= fun M => pure (u M)) =
        .ok (FP.num r0) →
      IsAnalytic 𝕜 w fun a => ((layered (e a) (L.map fun l => (l.1 a, l.2 a)) (sub a) (snu a)).transferMatrix (atQ (q a) (nu a) pol) >>=
        fun M => pure (u M)) := by
    intro u hu r0 h0
    rw [hw] at h0
    exact PyA.finite (PyT.congr (PyT.ok hu) (by filter_upwards [key] with x hx; rw [hx]; rfl)) h0
  exact ⟨fin (fun M => M.m10 / M.m00) ((FPA.num (hM 1 0)).cdiv (FPA.num (hM 0 0))),
    fin (fun M => clit 1 / M.m00) ((FPA.const _).cdiv (FPA.num (hM 0 0)))⟩

/-- In the layer the argument of the root is `-1`, on the cut. -/
example : IsAnalytic ℂ (3 : ℂ) fun x => (layered 5 [(x, 1)] 6 none).reflCoef (atQ 2 1 "p") := by
  obtain ⟨r, h, -⟩ := C65_reflect 5 [(3, 1)] 6 none 1 2 "p" (.inl rfl) (by norm_num)
    (by intro l hl; obtain rfl := List.mem_singleton.1 hl; exact ⟨.inr (by norm_num), zero_le_one, by norm_num⟩) (.inr (by norm_num))
  refine (C125_light (e := fun _ => 5) (sub := fun _ => 6) (L := [(fun x => x, fun _ => 1)]) (snu := fun _ => none) (q := fun _ => 2)
    (nu := fun _ => 1) analyticAt_const analyticAt_const analyticAt_const analyticAt_const ?_ (by norm_num) ?_ ?_ "p" (.inl rfl)).1 r
    (by simpa using h)
  · intro l hl
    obtain rfl := List.mem_singleton.1 hl
    exact ⟨analyticAt_id, analyticAt_const (v := (((1 : ℝ)) : ℂ)), by norm_num, by norm_num⟩
  · left; norm_num
  · left; norm_num

/-! ## Image charges

The depth of an image charge is a real number, so method `multi` is not holomorphic.  It is analytic in real parameters. -/

section Image

variable {E : Type} [NormedAddCommGroup E] [NormedSpace ℝ E] {w : E} {e sub : E → ℂ} {L : List ((E → ℂ) × ℝ)} {nu : E → Option ℝ}

/-- In no height is the image charge zero. -/
theorem C125_multi (env : Env) (he : AnalyticAt ℝ e w) (hL : ∀ l ∈ L, AnalyticAt ℝ l.1 w) (hs : AnalyticAt ℝ sub w) (z : Option (FP ℝ))
    (p : FdmArgs (FP ℝ) (FP ℂ)) {g : E → Option (FP ℂ)} (hg : ArgAnalytic ℝ w g) (nLag : Option ℕ)
    (hI : ∀ x d, (layered (e w) (L.map fun l => (l.1 w, l.2)) (sub w) (nu w)).imageDepthAndCharge env x nLag ≠ .ok (d, FP.num 0)) :
    (∀ x0, Fdm.effPol env (layered (e w) (L.map fun l => (l.1 w, l.2)) (sub w) (nu w)) z { p with gFactor := g w } nLag (some "multi") =
      .ok (FP.num x0) → IsAnalytic ℝ w fun a =>
        Fdm.effPol env (layered (e a) (L.map fun l => (l.1 a, l.2)) (sub a) (nu a)) z { p with gFactor := g a } nLag (some "multi")) ∧
    ∀ A n nT x0, Fdm.effPolN env (layered (e w) (L.map fun l => (l.1 w, l.2)) (sub w) (nu w)) A n z nT { p with gFactor := g w } nLag
      (some "multi") = .ok (FP.num x0) → IsAnalytic ℝ w fun a =>
        Fdm.effPolN env (layered (e a) (L.map fun l => (l.1 a, l.2)) (sub a) (nu a)) A n z nT { p with gFactor := g a } nLag
          (some "multi") := by
  have h := SAnalytic.layered (nu := nu) he hL hs
  exact ⟨fun x0 h0 => PyA.finite (h.fdm_multi RealClass.constant env (z := fun _ => z) rfl (fdm_fixed p hg) nLag hI) h0,
    fun A n nT x0 h0 => PyA.finite (h.fdm_n_multi RealClass.constant env (A := fun _ => A) rfl (n := fun _ => n) rfl (z := fun _ => z)
      (.const (fun _ => rfl) _) (fdm_fixed p hg) nT nLag hI) h0⟩

end Image

/-- The image charges of a bulk dielectric are not zero. -/
theorem example_charge (d : Defaults) (x : FP ℝ) (δ : FP ℝ) :
    (bulk 1 2 none).imageDepthAndCharge (rule2 d) x (some 2) ≠ .ok (δ, FP.num 0) := by
  have hr := rule2_ok d
  have h9 : ∀ q : FP ℝ, (bulk 1 2 none).reflCoefQs q = .ok (FP.num (1 / 3)) := fun q => by
    rw [C09_refl 1 2 none q two_ne_zero (by norm_num)]; norm_num
  intro h
  have key : ∀ v : FP ℂ × FP ℂ, (bulk 1 2 none).surfPotAndField (rule2 d) x (some 2) = .ok v → CplxOps.cpow v.1 2 / v.2 = FP.num 0 := by
    intro v hv
    unfold Stack.imageDepthAndCharge at h
    rw [hv] at h
    exact (Prod.mk.inj (Except.ok.inj h)).2
  by_cases hx : ∃ z : ℝ, x = FP.num z ∧ z ≠ 0
  · obtain ⟨z, rfl, hz⟩ := hx
    have hsurf := surf_num (rule2 d) (bulk 1 2 none) (fun _ => 1 / 3) z hz (some 2) hr.1 ⟨_, h9 _⟩ fun xw _ => h9 _
    rw [sum_const_mul _ (fun xw => xw.2), sum_const_mul _ (fun xw => xw.2 * xw.1), hr.2.sum_w hr.1, hr.2.sum_wx hr.1] at hsurf
    have hk := key _ hsurf
    have hzc : (z : ℂ) ≠ 0 := by exact_mod_cast hz
    have hne : ((1 : ℝ) : ℂ) * (1 / 3) / ((4 * z ^ 2 : ℝ) : ℂ) ≠ 0 := by
      push_cast
      exact div_ne_zero (by norm_num) (mul_ne_zero (by norm_num) (pow_ne_zero 2 hzc))
    rw [scpow, FP.num_div _ hne] at hk
    have h0 := FP.num.inj hk
    rw [div_eq_zero_iff, or_iff_left hne] at h0
    have h1 := pow_eq_zero_iff (two_ne_zero) |>.1 h0
    rw [div_eq_zero_iff] at h1
    rcases h1 with h1 | h1
    · norm_num at h1
    · push_cast at h1
      exact mul_ne_zero two_ne_zero hzc h1
  · have hn : ∀ u : FP ℂ, u / (ofR (lit 2 * x) : FP ℂ) = FP.nan := by
      intro u
      cases x with
      | nan => cases u <;> rfl
      | num z =>
        have hz : z = 0 := by by_contra h0; exact hx ⟨z, rfl, h0⟩
        subst hz
        have : (ofR (lit 2 * FP.num 0 : FP ℝ) : FP ℂ) = FP.num 0 := by rw [slit, FP.num_mul, sofR]; simp
        rw [this]
        cases u with
        | nan => rfl
        | num u => exact FP.num_div_zero u
    unfold Stack.imageDepthAndCharge Stack.surfPotAndField at h
    cases hL : (rule2 d).lagRule ((some 2).getD (rule2 d).defaults.nLag) with
    | error e => rw [hL] at h; cases h
    | ok rule =>
      rw [hL, PyM.ok_bind, h9, PyM.ok_bind] at h
      simp only [hn] at h
      have bind_num : ∀ (X Y : PyM (FP ℂ)) (f : FP ℂ → FP ℂ → FP ℝ) (g : FP ℂ → FP ℂ),
          (X >>= fun a => Y >>= fun b => pure (f a b, CplxOps.cpow FP.nan 2 / g b)) = (.ok (δ, FP.num 0) : PyM (FP ℝ × FP ℂ)) → False := by
        intro X Y f g h
        cases X with
        | error e => cases h
        | ok a =>
          cases Y with
          | error e => cases h
          | ok b => cases (Prod.mk.inj (Except.ok.inj h)).2
      simp only [bind_assoc] at h
      exact bind_num _ _ (fun _ b => CplxOps.cabs (FP.nan / (b / ofR (lit 4 * RealOps.npow x 2))) - x)
        (fun b => b / ofR (lit 4 * RealOps.npow x 2)) h

example (d : Defaults) : IsAnalytic ℝ (2 : ℂ) fun x => Fdm.effPol (rule2 d) (bulk 1 x none) (some (FP.num 0))
    (fdmTip 1 300 Complex.I 1 (1 / 2) 1.4) (some 2) (some "multi") := by
  have hd : 1 - (1 / 3 : ℂ) * Fdm.geom 0 (1 / 2) 1 300 Complex.I ≠ 0 := by
    intro h
    have h1 : Real.log (4 * 300 / (1 + 4 * 0 + 2 * (1 / 2) * 1)) ≠ 0 := Real.log_ne_zero_of_pos_of_ne_one (by norm_num) (by norm_num)
    have h2 : Real.log (4 * 300 / 1) ≠ 0 := Real.log_ne_zero_of_pos_of_ne_one (by norm_num) (by norm_num)
    have h3 : Fdm.geom 0 (1 / 2) 1 300 Complex.I = 3 := by linear_combination -3 * h
    unfold Fdm.geom at h3
    rw [div_eq_iff (by exact_mod_cast h2)] at h3
    have := congrArg Complex.im h3
    generalize Real.log (4 * 300 / (1 + 4 * 0 + 2 * (1 / 2) * 1)) = A at h1 this
    generalize Real.log (4 * 300 / 1) = B at this
    simp only [Complex.mul_im, Complex.sub_im, Complex.sub_re, Complex.I_im, Complex.I_re, Complex.ofReal_im, Complex.ofReal_re, mul_zero,
      zero_add, sub_zero, one_mul, Complex.im_ofNat, zero_mul, add_zero] at this
    exact h1 this
  have h9 : (bulk 1 2 none).reflCoefQs = .ok (FP.num (1 / 3)) := by
    rw [C09_refl 1 2 none _ two_ne_zero (by norm_num)]; norm_num
  have hv := effPol_val (rule2 d) (bulk 1 2 none) rfl (1 / 3) h9 0 1 300 Complex.I 1 (1 / 2) 1.4 example_geomOk.1 example_geomOk.2 hd (some 2)
  rw [C32_eff_pol (rule2 d) 1 2 none two_ne_zero (by norm_num) (by norm_num) (some 2) (rule2_ok d) 0 1 300 Complex.I 1 (1 / 2) 1.4
    (by norm_num) (by norm_num) (some "bulk") (some "multi") (.inr (.inl rfl)) (.inr (.inr (.inl rfl)))] at hv
  exact (C125_multi (L := []) (nu := fun _ => none) (rule2 d) analyticAt_const (by simp) (analyticAt_id (𝕜 := ℝ)) (some (FP.num 0))
    (fdmTip 1 300 Complex.I 1 (1 / 2) 1.4) (g := fun _ => some (FP.num Complex.I)) (.fixed _) (some 2) (example_charge d)).1 _ hv

/-- One layer of permittivity 2. -/
theorem example_film_refl {x q : ℝ} (hx : 2 ≤ x) (hq : 0 ≤ q) (hq' : q ≤ 709) :
    (layered 1 [(2, 1)] x none).reflCoefQs (FP.num q) =
      .ok (FP.num (((1 / 3 + (x - 2) / (x + 2) * Real.exp (-q) ^ 2) / (1 + 1 / 3 * ((x - 2) / (x + 2)) * Real.exp (-q) ^ 2) : ℝ) : ℂ)) := by
  have hc : clipped (q * 1) = q := by
    rw [mul_one]
    exact clipped_of_abs_le (by rw [abs_of_nonneg hq]; linarith [maxExpArg_gt])
  have hρ : 0 ≤ (x - 2) / (x + 2) := div_nonneg (by linarith) (by linarith)
  have h1 : (1 : ℝ) + 1 / 3 * ((x - 2) / (x + 2)) * Real.exp (-q) ^ 2 ≠ 0 := by positivity
  have h1' : (1 : ℂ) + 1 / 3 * (((x : ℂ) - 2) / (x + 2)) * (Real.exp (-q) : ℂ) ^ 2 ≠ 0 := by
    generalize Real.exp (-q) = u at h1 ⊢
    intro h
    exact h1 (Complex.ofReal_injective (by push_cast; linear_combination h))
  have hx0 : (x : ℂ) ≠ 0 := by exact_mod_cast (by linarith : x ≠ 0)
  have hx2 : (x : ℂ) + 2 ≠ 0 := by exact_mod_cast (by linarith : x + 2 ≠ 0)
  refine (C11_recursion 1 [(2, 1)] x none q (by simp) hx0 _ ((1 + 1 / 3) * (1 + ((x : ℂ) - 2) / (x + 2)) * (Real.exp (-q) : ℂ) /
    (1 + 1 / 3 * (((x : ℂ) - 2) / (x + 2)) * (Real.exp (-q) : ℂ) ^ 2)) ?_).1
  have a2 : ((2 : ℂ) - 1) / (2 + 1) = 1 / 3 := by norm_num
  have a3 : ¬ ((2 : ℂ) + 1 = 0 ∨ 1 + 1 / 3 * (((x : ℂ) - 2) / (x + 2)) * (Real.exp (-q) : ℂ) ^ 2 = 0) := by
    rw [not_or]; exact ⟨by norm_num, h1'⟩
  simp only [stackCoefs, hc, a2, if_neg a3, if_neg hx2]
  push_cast
  rfl

/-- A film of permittivity 2 on a substrate with permittivity `x` near 2: the depth of the image charge is a continuous function of `x`
but not a holomorphic one. -/
theorem C125_depth (d : Defaults) :
    (∃ (δ : ℂ → ℝ) (β : ℂ → ℂ), (∀ᶠ x in 𝓝 2, (layered 1 [(2, 1)] x none).imageDepthAndCharge (rule2 d) (FP.num 1) (some 2) =
      .ok (FP.num (δ x), FP.num (β x))) ∧ ContinuousAt δ 2) ∧
    ∀ δ : ℂ → ℝ, (∀ᶠ x in 𝓝 2, ∃ β, (layered 1 [(2, 1)] x none).imageDepthAndCharge (rule2 d) (FP.num 1) (some 2) =
      .ok (FP.num (δ x), β)) → ¬ AnalyticAt ℂ (fun x => (δ x : ℂ)) 2 := by
  have hs2 : (0 : ℝ) < √2 := by positivity
  have hq2 : √2 ^ 2 = 2 := Real.sq_sqrt (by norm_num)
  have hle : √2 ≤ 2 := by nlinarith
  set b : ℝ → ℝ → ℝ := fun x q => (1 / 3 + (x - 2) / (x + 2) * Real.exp (-q) ^ 2) / (1 + 1 / 3 * ((x - 2) / (x + 2)) * Real.exp (-q) ^ 2)
    with hb
  set q1 : ℝ := (2 - √2) / 2 with hq1
  set q2 : ℝ := (2 + √2) / 2 with hq2'
  have b_pos : ∀ x q, 2 ≤ x → 0 < b x q := fun x q hx => by
    have hρ : 0 ≤ (x - 2) / (x + 2) := div_nonneg (by linarith) (by linarith)
    positivity
  -- the depth for a real permittivity
  have depth : ∀ x : ℝ, 2 ≤ x → (layered 1 [(2, 1)] x none).imageDepthAndCharge (rule2 d) (FP.num 1) (some 2) = .ok
      (FP.num (2 * (((2 + √2) / 4 * b x q1 + (2 - √2) / 4 * b x q2) / (b x q1 / 2 + b x q2 / 2)) - 1),
      FP.num ((((2 + √2) / 4 * b x q1 + (2 - √2) / 4 * b x q2) ^ 2 / (b x q1 / 2 + b x q2 / 2) : ℝ) : ℂ)) := by
    intro x hx
    have p1 := b_pos x q1 hx
    have p2 := b_pos x q2 hx
    have hsurf := surf_num (rule2 d) (layered 1 [(2, 1)] x none) (fun q => (b x q : ℂ)) 1 one_ne_zero (some 2) two_ne_zero
      ⟨_, example_film_refl hx zero_le_one (by norm_num)⟩ (by
        intro xw hxw
        simp only [rule2, Option.getD_some, List.mem_cons, List.not_mem_nil, or_false] at hxw
        rcases hxw with rfl | rfl
        · exact example_film_refl hx (by norm_num; linarith) (by norm_num; linarith)
        · exact example_film_refl hx (by norm_num; linarith) (by norm_num; linarith))
    have e1 : (((rule2 d).laggauss ((some 2).getD (rule2 d).defaults.nLag)).map fun xw => (xw.2 : ℂ) * (b x (xw.1 / (2 * 1)) : ℂ)).sum =
        (((2 + √2) / 4 * b x q1 + (2 - √2) / 4 * b x q2 : ℝ) : ℂ) := by
      simp [rule2, hq1, hq2']
    have e2 : (((rule2 d).laggauss ((some 2).getD (rule2 d).defaults.nLag)).map fun xw =>
        ((xw.2 * xw.1 : ℝ) : ℂ) * (b x (xw.1 / (2 * 1)) : ℂ)).sum = ((b x q1 / 2 + b x q2 / 2 : ℝ) : ℂ) := by
      have a1 : (2 + √2) / 4 * (2 - √2) = 1 / 2 := by nlinarith
      have a2 : (2 - √2) / 4 * (2 + √2) = 1 / 2 := by nlinarith
      simp only [rule2, List.map_cons, List.map_nil, List.sum_cons, List.sum_nil, a1, a2, mul_one, ← hq1, ← hq2']
      push_cast
      ring
    rw [e1, e2] at hsurf
    set S := (2 + √2) / 4 * b x q1 + (2 - √2) / 4 * b x q2 with hS
    set T := b x q1 / 2 + b x q2 / 2 with hT
    have hS0 : 0 ≤ S := add_nonneg (by positivity) (mul_nonneg (by linarith) p2.le)
    have hT0 : 0 < T := by positivity
    have hTc : (T : ℂ) ≠ 0 := by exact_mod_cast hT0.ne'
    rw [(C31_image (rule2 d) _ 1 (some 2) _ _ hsurf).1 (div_ne_zero hTc (by norm_num))]
    have e3 : (S : ℂ) / ((2 * 1 : ℝ) : ℂ) / ((T : ℂ) / ((4 * 1 ^ 2 : ℝ) : ℂ)) = ((2 * (S / T) : ℝ) : ℂ) := by
      push_cast
      field_simp
      ring
    rw [e3, Complex.norm_real, Real.norm_of_nonneg (by positivity)]
    congr 3
    push_cast
    field_simp
  have at2 : ∀ q, b 2 q = 1 / 3 := fun q => by simp [hb]
  refine ⟨?_, fun δ hδ han => ?_⟩
  · have h2 := depth 2 le_rfl
    obtain ⟨δ, β, h1, h3, -⟩ := C122_image (F := 𝓝 (2 : ℂ)) (e := fun _ => 1) (L := fun _ => [(2, 1)]) (sub := fun x => x) (rule2 d)
      (fun _ => none) none tendsto_const_nhds tendsto_const_nhds tendsto_id tendsto_const_nhds (some 2) _ _ (by exact_mod_cast h2)
    refine ⟨δ, β, h1, ?_⟩
    have h4 := h1.self_of_nhds
    have h5 : (layered 1 [(2, 1)] ((2 : ℝ) : ℂ) none).imageDepthAndCharge (rule2 d) (FP.num 1) (some 2) = .ok (FP.num (δ 2), FP.num (β 2)) := by
      exact_mod_cast h4
    rw [h2] at h5
    have h6 := FP.num.inj (Prod.mk.inj (Except.ok.inj h5)).1
    rw [h6] at h3
    exact h3
  · -- a holomorphic function with real values is constant
    have hconst : ∀ᶠ x in 𝓝 (2 : ℂ), (δ x : ℂ) = δ 2 := by
      refine han.eventually_constant_or_nhds_le_map_nhds.resolve_right fun hop => ?_
      have hre : ∀ᶠ y in 𝓝 ((δ 2 : ℝ) : ℂ), y.im = 0 := hop (Filter.mem_map.2 (Filter.univ_mem' fun x => Complex.ofReal_im (δ x)))
      have hcont : Tendsto (fun r : ℝ => ((δ 2 : ℝ) : ℂ) + r * Complex.I) (𝓝 0) (𝓝 ((δ 2 : ℝ) : ℂ)) := by
        have : Continuous fun r : ℝ => ((δ 2 : ℝ) : ℂ) + r * Complex.I := by fun_prop
        simpa using this.tendsto 0
      have h0 : ∀ᶠ r in 𝓝 (0 : ℝ), r = 0 := by
        filter_upwards [hcont.eventually hre] with r hr
        simpa using hr
      obtain ⟨ε, hε, hball⟩ := Metric.eventually_nhds_iff.1 h0
      have := hball (y := ε / 2) (by rw [Real.dist_eq, sub_zero, abs_of_pos (by positivity)]; linarith)
      linarith
    obtain ⟨ε, hε, hball⟩ := Metric.eventually_nhds_iff.1 (hδ.and hconst)
    have key : ∀ x : ℝ, 2 ≤ x → x < 2 + ε →
        δ x = 2 * (((2 + √2) / 4 * b x q1 + (2 - √2) / 4 * b x q2) / (b x q1 / 2 + b x q2 / 2)) - 1 ∧ δ x = δ 2 := by
      intro x h1 h2
      obtain ⟨⟨β, h3⟩, h4⟩ := hball (y := (x : ℂ)) (by
        rw [dist_eq_norm, show ((x : ℂ) - 2) = ((x - 2 : ℝ) : ℂ) by push_cast; ring, Complex.norm_real,
          Real.norm_of_nonneg (by linarith)]
        linarith)
      rw [depth x h1] at h3
      exact ⟨(FP.num.inj (Prod.mk.inj (Except.ok.inj h3)).1).symm, by exact_mod_cast h4⟩
    have k2 := (key 2 le_rfl (by linarith)).1
    obtain ⟨k3, k4⟩ := key (2 + ε / 2) (by linarith) (by linarith)
    have hx : (2 : ℝ) ≤ 2 + ε / 2 := by linarith
    have p1 := b_pos (2 + ε / 2) q1 hx
    have p2 := b_pos (2 + ε / 2) q2 hx
    have d2 : δ 2 = 1 := by
      have : δ 2 = δ ((2 : ℝ) : ℂ) := by norm_num
      rw [this, k2, at2, at2]
      ring
    rw [k3, d2] at k4
    have hbb : b (2 + ε / 2) q1 = b (2 + ε / 2) q2 := by
      have hT : b (2 + ε / 2) q1 / 2 + b (2 + ε / 2) q2 / 2 ≠ 0 := by positivity
      have h5 : ((2 + √2) / 4 * b (2 + ε / 2) q1 + (2 - √2) / 4 * b (2 + ε / 2) q2) / (b (2 + ε / 2) q1 / 2 + b (2 + ε / 2) q2 / 2) = 1 := by
        linarith
      rw [div_eq_one_iff_eq hT] at h5
      have h6 : √2 * (b (2 + ε / 2) q1 - b (2 + ε / 2) q2) = 0 := by linarith
      exact sub_eq_zero.1 ((mul_eq_zero.1 h6).resolve_left hs2.ne')
    have hρ : 0 < (2 + ε / 2 - 2) / (2 + ε / 2 + 2) := div_pos (by linarith) (by linarith)
    have hu : Real.exp (-q2) < Real.exp (-q1) := Real.exp_lt_exp.2 (by rw [hq1, hq2']; linarith)
    have hu' := Real.exp_pos (-q2)
    simp only [hb] at hbb
    generalize (2 + ε / 2 - 2) / (2 + ε / 2 + 2) = ρ at hbb hρ
    generalize Real.exp (-q1) = u1 at hbb hu
    generalize Real.exp (-q2) = u2 at hbb hu hu'
    rw [div_eq_div_iff (by positivity) (by positivity)] at hbb
    have h7 : ρ * (u1 - u2) * (u1 + u2) = 0 := by linear_combination 9 / 8 * hbb
    have : 0 < ρ * (u1 - u2) * (u1 + u2) := mul_pos (mul_pos hρ (by linarith)) (by linarith)
    linarith

end Snompy.Props
