import Verif.Lemmas.Continuity
import Verif.Props.Fdm
import Verif.Props.Pdm
import Verif.Props.FarField
import Verif.Props.Harmonics

/-!
# C122: results depend continuously on the inputs

`Spec/Continuity.lean` has the words.  In each theorem the call with the limiting arguments returns a number.  Then so do the calls
with arguments close enough to them, and the results converge.
-/

namespace Snompy.Props

open Snompy Filter Topology

variable {α : Type} {F : Filter α}

/-! ## Electrostatics -/

section Static

variable {e sub : α → ℂ} {e0 sub0 : ℂ} {L : α → List (ℂ × ℝ)} {L0 : List (ℂ × ℝ)}

theorem C122_qs (nu : α → Option ℝ) (nu0 : Option ℝ) (he : Tendsto e F (𝓝 e0)) (hL : Tendsto L F (𝓝 L0)) (hs : Tendsto sub F (𝓝 sub0))
    {q : α → ℝ} {q0 : ℝ} (hq : Tendsto q F (𝓝 q0)) :
    (∀ r0, (layered e0 L0 sub0 nu0).reflCoefQs (FP.num q0) = .ok (FP.num r0) →
      Converges F (fun a => (layered (e a) (L a) (sub a) (nu a)).reflCoefQs (FP.num (q a))) r0) ∧
    ∀ t0, (layered e0 L0 sub0 nu0).transCoefQs (FP.num q0) = .ok (FP.num t0) →
      Converges F (fun a => (layered (e a) (L a) (sub a) (nu a)).transCoefQs (FP.num (q a))) t0 := by
  have h : STends F (fun a => layered (e a) (L a) (sub a) (nu a)) (layered e0 L0 sub0 nu0) := STends.layered he hL hs
  exact ⟨fun r0 h0 => (h.reflCoefQs (FPT.num hq)).finite h0, fun t0 h0 => (h.transCoefQs (FPT.num hq)).finite h0⟩

/-- The permittivity of the substrate tends to 2. -/
example : Converges (𝓝 (2 : ℂ)) (fun x => (layered 1 [] x none).reflCoefQs (FP.num 3)) ((2 - 1) / (2 + 1)) :=
  (C122_qs (fun _ => none) none tendsto_const_nhds tendsto_const_nhds tendsto_id tendsto_const_nhds).1 _
    (C09_refl 1 2 none (FP.num 3) two_ne_zero (by norm_num))

theorem C122_above (env : Env) (nu : α → Option ℝ) (nu0 : Option ℝ) (he : Tendsto e F (𝓝 e0)) (hL : Tendsto L F (𝓝 L0))
    (hs : Tendsto sub F (𝓝 sub0)) {z : α → ℝ} {z0 : ℝ} (hz : Tendsto z F (𝓝 z0)) (nLag : Option ℕ) (b0 : ℂ)
    (h0 : (layered e0 L0 sub0 nu0).reflCoefQsAboveSurf env (FP.num z0) nLag = .ok (FP.num b0)) :
    Converges F (fun a => (layered (e a) (L a) (sub a) (nu a)).reflCoefQsAboveSurf env (FP.num (z a)) nLag) b0 :=
  ((STends.layered he hL hs).reflCoefQsAboveSurf env (FPT.num hz) nLag).finite h0

example (d : Defaults) : Converges (𝓝 (2 : ℂ)) (fun x => (layered 1 [] x none).reflCoefQsAboveSurf (rule2 d) (FP.num 1) (some 2))
    ((2 - 1) / (2 + 1)) :=
  C122_above (rule2 d) (fun _ => none) none tendsto_const_nhds tendsto_const_nhds tendsto_id tendsto_const_nhds (some 2) _
    ((C28_average (rule2 d) 1 2 none (FP.num 1) (some 2) (rule2_ok d) two_ne_zero (by norm_num)).trans
      (C09_refl 1 2 none _ two_ne_zero (by norm_num)))

/-- The image charges. -/
theorem C122_image (env : Env) (nu : α → Option ℝ) (nu0 : Option ℝ) (he : Tendsto e F (𝓝 e0)) (hL : Tendsto L F (𝓝 L0))
    (hs : Tendsto sub F (𝓝 sub0)) {z : α → ℝ} {z0 : ℝ} (hz : Tendsto z F (𝓝 z0)) (nLag : Option ℕ) (d0 : ℝ) (b0 : ℂ)
    (h0 : (layered e0 L0 sub0 nu0).imageDepthAndCharge env (FP.num z0) nLag = .ok (FP.num d0, FP.num b0)) :
    ∃ (d : α → ℝ) (b : α → ℂ), (∀ᶠ a in F, (layered (e a) (L a) (sub a) (nu a)).imageDepthAndCharge env (FP.num (z a)) nLag =
      .ok (FP.num (d a), FP.num (b a))) ∧ Tendsto d F (𝓝 d0) ∧ Tendsto b F (𝓝 b0) := by
  have h : STends F (fun a => layered (e a) (L a) (sub a) (nu a)) (layered e0 L0 sub0 nu0) := STends.layered he hL hs
  obtain ⟨v, h1, h2, h3⟩ := h.imageDepthAndCharge env (FPT.num hz) nLag _ h0
  obtain ⟨d, h4, h5⟩ := h2 d0 rfl
  obtain ⟨b, h6, h7⟩ := h3 b0 rfl
  refine ⟨d, b, ?_, h5, h7⟩
  filter_upwards [h1, h4, h6] with a g1 g2 g3
  rw [g1, ← g2, ← g3]

example (d : Defaults) : ∃ (dIm : ℝ) (β : ℂ), (bulk 1 2).imageDepthAndCharge (rule2 d) (FP.num 1) (some 2) = .ok (FP.num dIm, FP.num β) ∧
    ∃ (d' : ℂ → ℝ) (b : ℂ → ℂ), (∀ᶠ x in 𝓝 2, (bulk 1 x).imageDepthAndCharge (rule2 d) (FP.num 1) (some 2) =
      .ok (FP.num (d' x), FP.num (b x))) ∧ Tendsto d' (𝓝 2) (𝓝 dIm) ∧ Tendsto b (𝓝 2) (𝓝 β) := by
  obtain ⟨dIm, β, h, -⟩ := example_image d
  exact ⟨dIm, β, h, C122_image (rule2 d) (fun _ => none) none tendsto_const_nhds tendsto_const_nhds tendsto_id tendsto_const_nhds
    (some 2) dIm β h⟩

/-! ## The finite dipole model -/

theorem C122_fdm (env : Env) (nu : α → Option ℝ) (nu0 : Option ℝ) (he : Tendsto e F (𝓝 e0)) (hL : Tendsto L F (𝓝 L0))
    (hs : Tendsto sub F (𝓝 sub0)) {z : α → Option (FP ℝ)} {z0 : Option (FP ℝ)} (hz : ArgTends F z z0)
    {p : α → FdmArgs (FP ℝ) (FP ℂ)} {p0 : FdmArgs (FP ℝ) (FP ℂ)} (hp : FdmArgsTend F p p0) (nLag : Option ℕ) (m : Option String) (x0 : ℂ)
    (h0 : Fdm.effPol env (layered e0 L0 sub0 nu0) z0 p0 nLag m = .ok (FP.num x0)) :
    Converges F (fun a => Fdm.effPol env (layered (e a) (L a) (sub a) (nu a)) (z a) (p a) nLag m) x0 :=
  ((STends.layered he hL hs).fdm env (hz.getD (FPT.const _)) hp nLag m).finite h0

theorem C122_fdm_n (env : Env) (nu : α → Option ℝ) (nu0 : Option ℝ) (he : Tendsto e F (𝓝 e0)) (hL : Tendsto L F (𝓝 L0))
    (hs : Tendsto sub F (𝓝 sub0)) {A n : α → ℝ} {A0 n0 : ℝ} (hA : Tendsto A F (𝓝 A0)) (hn : Tendsto n F (𝓝 n0))
    {z : α → Option (FP ℝ)} {z0 : Option (FP ℝ)} (hz : ArgTends F z z0) {p : α → FdmArgs (FP ℝ) (FP ℂ)} {p0 : FdmArgs (FP ℝ) (FP ℂ)}
    (hp : FdmArgsTend F p p0) (nT nLag : Option ℕ) (m : Option String) (x0 : ℂ)
    (h0 : Fdm.effPolN env (layered e0 L0 sub0 nu0) (FP.num A0) (FP.num n0) z0 nT p0 nLag m = .ok (FP.num x0)) :
    Converges F (fun a => Fdm.effPolN env (layered (e a) (L a) (sub a) (nu a)) (FP.num (A a)) (FP.num (n a)) (z a) nT (p a) nLag m) x0 :=
  ((STends.layered he hL hs).fdm_n env (FPT.num hA) (FPT.num hn) hz hp nT nLag m).finite h0

theorem fdmTip_tends {r l d0 d1 dA : α → ℝ} {g : α → ℂ} {r' l' d0' d1' dA' : ℝ} {g' : ℂ} (h1 : Tendsto r F (𝓝 r'))
    (h2 : Tendsto l F (𝓝 l')) (h3 : Tendsto g F (𝓝 g')) (h4 : Tendsto d0 F (𝓝 d0')) (h5 : Tendsto d1 F (𝓝 d1'))
    (h6 : Tendsto dA F (𝓝 dA')) : FdmArgsTend F (fun a => fdmTip (r a) (l a) (g a) (d0 a) (d1 a) (dA a)) (fdmTip r' l' g' d0' d1' dA') :=
  ⟨.given h1, .given h2, .given h3, .given h4, .given h5, .given h6⟩

/-- The contrast of the sample and the height of the tip tend to zero. -/
example (d : Defaults) : Converges (𝓝 (0 : ℝ)) (fun x => Fdm.effPol (rule2 d) (layered 1 [] (1 + x) none) (some (FP.num x))
    (fdmTip 1 300 Complex.I 1 (1 / 2) 1.4) (some 2) none) 1 :=
  C122_fdm (rule2 d) (fun _ => none) none tendsto_const_nhds tendsto_const_nhds
    (by simpa using (Complex.continuous_ofReal.tendsto (0 : ℝ)).const_add 1) (.given tendsto_id)
    (fdmTip_tends tendsto_const_nhds tendsto_const_nhds tendsto_const_nhds tendsto_const_nhds tendsto_const_nhds tendsto_const_nhds)
    (some 2) none 1 (C37_fdm (rule2 d) 1 none one_ne_zero (some 2) (rule2_ok d) 0 1 300 Complex.I 1 (1 / 2) 1.4 example_geomOk.1
      example_geomOk.2 none (.inl rfl))

example (d : Defaults) : Converges (𝓝 (0 : ℝ)) (fun x => Fdm.effPolN (rule2 d) (layered 1 [] (1 + x) none) (FP.num (2 + x))
    (FP.num ((3 : ℤ) : ℝ)) (some (FP.num x)) (some 8) (fdmTip 1 300 Complex.I 1 (1 / 2) 1.4) (some 2) none) 0 :=
  C122_fdm_n (rule2 d) (fun _ => none) none tendsto_const_nhds tendsto_const_nhds
    (by simpa using (Complex.continuous_ofReal.tendsto (0 : ℝ)).const_add 1)
    (by simpa using (tendsto_id (x := 𝓝 (0 : ℝ))).const_add 2) tendsto_const_nhds (.given tendsto_id)
    (fdmTip_tends tendsto_const_nhds tendsto_const_nhds tendsto_const_nhds tendsto_const_nhds tendsto_const_nhds tendsto_const_nhds)
    (some 8) (some 2) none 0 (example_no_signal d)

/-- The harmonic is fixed, since the first term of the series of the finite dipole model compares it with zero. -/
theorem C122_fdm_taylor (env : Env) (nu : α → Option ℝ) (nu0 : Option ℝ) (he : Tendsto e F (𝓝 e0)) (hL : Tendsto L F (𝓝 L0))
    (hs : Tendsto sub F (𝓝 sub0)) {A : α → ℝ} {A0 : ℝ} (hA : Tendsto A F (𝓝 A0)) (n : FP ℝ) {z : α → Option (FP ℝ)}
    {z0 : Option (FP ℝ)} (hz : ArgTends F z z0) {p : α → FdmArgs (FP ℝ) (FP ℂ)} {p0 : FdmArgs (FP ℝ) (FP ℂ)}
    (hp : FdmArgsTend F p p0) (nLag : Option ℕ) (m : Option String) (nT nTayl : Option ℕ) (x0 : ℂ)
    (h0 : Fdm.effPolNTaylor env (layered e0 L0 sub0 nu0) (FP.num A0) n z0 p0 nLag m nT nTayl = .ok (FP.num x0)) :
    Converges F (fun a => Fdm.effPolNTaylor env (layered (e a) (L a) (sub a) (nu a)) (FP.num (A a)) n (z a) (p a) nLag m nT nTayl) x0 :=
  ((STends.layered he hL hs).fdm_taylor env (FPT.num hA) n hz hp nLag m nT nTayl).finite h0

example (env : Env) : ∃ v, Converges (𝓝 (3 : ℂ)) (fun x => Fdm.effPolNTaylor env (bulk 1 x) (FP.num 30) (FP.num (15 : ℕ)) (some (FP.num 10))
    (fdmTip 20 300 (0.7 : ℝ) 1 0.5 1.4) none (some "bulk") (some 32) (some 15)) v := by
  obtain ⟨v, -, h, -⟩ := C73_fdm_taylor env (bulk 1 3) (some "bulk") (1 / 2) 20 300 0.7 1 0.5
    1.4 10 30 none (.inl ⟨le_rfl, .inr rfl, by rw [C09_refl] <;> norm_num⟩) (by norm_num) 15 32
    (by norm_num) 15 (by norm_num)
    ⟨by norm_num, by norm_num, by norm_num, by norm_num, by norm_num, by norm_num, by norm_num⟩
    ⟨by norm_num, by norm_num, by norm_num, by norm_num, by norm_num, by norm_num, by norm_num⟩ (by norm_num)
    (by norm_num)
  exact ⟨v, C122_fdm_taylor env (fun _ => none) none tendsto_const_nhds tendsto_const_nhds tendsto_id tendsto_const_nhds _
    (.given tendsto_const_nhds) (fdmTip_tends tendsto_const_nhds tendsto_const_nhds tendsto_const_nhds tendsto_const_nhds
      tendsto_const_nhds tendsto_const_nhds) none (some "bulk") (some 32) (some 15) v h⟩

end Static

theorem C122_fdm_inverse (env : Env) {x : α → ℂ} {x0 : ℂ} (hx : Tendsto x F (𝓝 x0)) {z : α → Option (FP ℝ)} {z0 : Option (FP ℝ)}
    (hz : ArgTends F z z0) {p : α → FdmArgs (FP ℝ) (FP ℂ)} {p0 : FdmArgs (FP ℝ) (FP ℂ)} (hp : FdmArgsTend F p p0) (b0 : ℂ)
    (h0 : Fdm.reflCoefQsFromEffPol env (FP.num x0) z0 p0 = FP.num b0) :
    ∃ b : α → ℂ, (∀ᶠ a in F, Fdm.reflCoefQsFromEffPol env (FP.num (x a)) (z a) (p a) = FP.num (b a)) ∧ Tendsto b F (𝓝 b0) :=
  FPT.fdm_inverse env (FPT.num hx) hz hp b0 h0

example (env : Env) : ∃ b0 : ℂ, ∃ b : ℂ → ℂ, (∀ᶠ x in 𝓝 (1 : ℂ), Fdm.reflCoefQsFromEffPol env (FP.num x) (some (FP.num 0))
    (fdmTip 1 300 Complex.I 1 (1 / 2) 1.4) = FP.num (b x)) ∧ Tendsto b (𝓝 1) (𝓝 b0) := by
  obtain ⟨b0, h, -⟩ := C33_right env 0 1 300 Complex.I 1 (1 / 2) 1.4 example_geomOk.1 example_geomOk.2 example_geom_ne 1
    (by simpa using example_geom_ne) none
  exact ⟨b0, C122_fdm_inverse env tendsto_id (.given tendsto_const_nhds) (fdmTip_tends tendsto_const_nhds tendsto_const_nhds
    tendsto_const_nhds tendsto_const_nhds tendsto_const_nhds tendsto_const_nhds) b0 h⟩

/-! ## The point dipole model -/

section Dipole

variable {e sub : α → ℂ} {e0 sub0 : ℂ} {L : α → List (ℂ × ℝ)} {L0 : List (ℂ × ℝ)}

theorem C122_pdm (env : Env) (nu : α → Option ℝ) (nu0 : Option ℝ) (he : Tendsto e F (𝓝 e0)) (hL : Tendsto L F (𝓝 L0))
    (hs : Tendsto sub F (𝓝 sub0)) {z : α → Option (FP ℝ)} {z0 : Option (FP ℝ)} (hz : ArgTends F z z0)
    {p : α → PdmArgs (FP ℝ) (FP ℂ)} {p0 : PdmArgs (FP ℝ) (FP ℂ)} (hp : PdmArgsTend F p p0) (x0 : ℂ)
    (h0 : Pdm.effPol env (layered e0 L0 sub0 nu0) z0 p0 = .ok (FP.num x0)) :
    Converges F (fun a => Pdm.effPol env (layered (e a) (L a) (sub a) (nu a)) (z a) (p a)) x0 :=
  ((STends.layered he hL hs).pdm env (hz.getD (FPT.const _)) hp).finite h0

theorem C122_pdm_n (env : Env) (nu : α → Option ℝ) (nu0 : Option ℝ) (he : Tendsto e F (𝓝 e0)) (hL : Tendsto L F (𝓝 L0))
    (hs : Tendsto sub F (𝓝 sub0)) {A n : α → ℝ} {A0 n0 : ℝ} (hA : Tendsto A F (𝓝 A0)) (hn : Tendsto n F (𝓝 n0))
    {z : α → Option (FP ℝ)} {z0 : Option (FP ℝ)} (hz : ArgTends F z z0) {p : α → PdmArgs (FP ℝ) (FP ℂ)} {p0 : PdmArgs (FP ℝ) (FP ℂ)}
    (hp : PdmArgsTend F p p0) (nT : Option ℕ) (x0 : ℂ)
    (h0 : Pdm.effPolN env (layered e0 L0 sub0 nu0) (FP.num A0) (FP.num n0) z0 nT p0 = .ok (FP.num x0)) :
    Converges F (fun a => Pdm.effPolN env (layered (e a) (L a) (sub a) (nu a)) (FP.num (A a)) (FP.num (n a)) (z a) nT (p a)) x0 :=
  ((STends.layered he hL hs).pdm_n env (FPT.num hA) (FPT.num hn) hz hp nT).finite h0

theorem C122_pdm_taylor (env : Env) (nu : α → Option ℝ) (nu0 : Option ℝ) (he : Tendsto e F (𝓝 e0)) (hL : Tendsto L F (𝓝 L0))
    (hs : Tendsto sub F (𝓝 sub0)) {A n : α → ℝ} {A0 n0 : ℝ} (hA : Tendsto A F (𝓝 A0)) (hn : Tendsto n F (𝓝 n0))
    {z : α → Option (FP ℝ)} {z0 : Option (FP ℝ)} (hz : ArgTends F z z0) {p : α → PdmArgs (FP ℝ) (FP ℂ)} {p0 : PdmArgs (FP ℝ) (FP ℂ)}
    (hp : PdmArgsTend F p p0) (nT nTayl : Option ℕ) (x0 : ℂ)
    (h0 : Pdm.effPolNTaylor env (layered e0 L0 sub0 nu0) (FP.num A0) (FP.num n0) z0 p0 nT nTayl = .ok (FP.num x0)) :
    Converges F (fun a => Pdm.effPolNTaylor env (layered (e a) (L a) (sub a) (nu a)) (FP.num (A a)) (FP.num (n a)) (z a) (p a) nT nTayl)
      x0 :=
  ((STends.layered he hL hs).pdm_taylor env (FPT.num hA) (FPT.num hn) hz hp nT nTayl).finite h0

theorem tip_tends {r : α → ℝ} {a : α → ℂ} {r' : ℝ} {a' : ℂ} (h1 : Tendsto r F (𝓝 r')) (h2 : Tendsto a F (𝓝 a')) :
    PdmArgsTend F (fun i => tip (r i) (a i)) (tip r' a') :=
  ⟨.given h1, .omitted, .given h2⟩

/-- The contrast of the sample tends to zero, and the radius of the tip varies. -/
example (d : Env) : Converges (𝓝 (0 : ℝ)) (fun x => Pdm.effPol d (layered 1 [] (1 + x) none) (some (FP.num 0)) (tip (1 + x) 2)) 2 :=
  C122_pdm d (fun _ => none) none tendsto_const_nhds tendsto_const_nhds
    (by simpa using (Complex.continuous_ofReal.tendsto (0 : ℝ)).const_add 1) (.given tendsto_const_nhds)
    (tip_tends (by simpa using (tendsto_id (x := 𝓝 (0 : ℝ))).const_add 1) tendsto_const_nhds) 2
    (C37_pdm d 1 none 0 1 2 one_ne_zero (by norm_num))

example (d : Env) : Converges (𝓝 (0 : ℝ)) (fun x => Pdm.effPolN d (layered 1 [] (1 + x) none) (FP.num (1 + x)) (FP.num ((3 : ℤ) : ℝ))
    (some (FP.num 0)) (some 8) (tip 1 2)) 0 :=
  C122_pdm_n d (fun _ => none) none tendsto_const_nhds tendsto_const_nhds
    (by simpa using (Complex.continuous_ofReal.tendsto (0 : ℝ)).const_add 1)
    (by simpa using (tendsto_id (x := 𝓝 (0 : ℝ))).const_add 1) tendsto_const_nhds (.given tendsto_const_nhds)
    (tip_tends tendsto_const_nhds tendsto_const_nhds) (some 8) 0
    (C37_pdm_n d 1 none 0 1 1 2 3 8 one_ne_zero one_pos le_rfl zero_le_one (by norm_num) (by norm_num))

example (env : Env) : ∃ v, Converges (𝓝 (3 : ℂ)) (fun x => Pdm.effPolNTaylor env (bulk 1 x) (FP.num 2) (FP.num (3 : ℕ)) (some (FP.num 0))
    (tip 1 (1 : ℝ)) (some 8) (some 15)) v := by
  obtain ⟨v, -, h, -⟩ := C73_pdm_taylor env (bulk 1 3) (1 / 2) (by rw [C09_refl] <;> norm_num) 1 1 0 2 two_pos 3 8 (by norm_num) 15
    (by norm_num) one_pos (by norm_num) (by norm_num)
  exact ⟨v, C122_pdm_taylor env (fun _ => none) none tendsto_const_nhds tendsto_const_nhds tendsto_id tendsto_const_nhds tendsto_const_nhds
    (.given tendsto_const_nhds) (tip_tends tendsto_const_nhds tendsto_const_nhds) (some 8) (some 15) v h⟩

end Dipole

theorem C122_pdm_inverse (env : Env) {x : α → ℂ} {x0 : ℂ} (hx : Tendsto x F (𝓝 x0)) {z : α → Option (FP ℝ)} {z0 : Option (FP ℝ)}
    (hz : ArgTends F z z0) {p : α → PdmArgs (FP ℝ) (FP ℂ)} {p0 : PdmArgs (FP ℝ) (FP ℂ)} (hp : PdmArgsTend F p p0) (b0 : ℂ)
    (h0 : Pdm.reflCoefQsFromEffPol env (FP.num x0) z0 p0 = .ok (FP.num b0)) :
    Converges F (fun a => Pdm.reflCoefQsFromEffPol env (FP.num (x a)) (z a) (p a)) b0 :=
  (PyT.pdm_inverse env (FPT.num hx) hz hp).finite h0

example (env : Env) : ∃ b0, Converges (𝓝 (2 : ℂ)) (fun x => Pdm.reflCoefQsFromEffPol env (FP.num x) (some (FP.num 0)) (tip 1 1)) b0 := by
  obtain ⟨b0, h, -⟩ := C34_right env 0 1 1 2 (by norm_num) one_ne_zero two_ne_zero
  exact ⟨b0, C122_pdm_inverse env tendsto_id (.given tendsto_const_nhds) (tip_tends tendsto_const_nhds tendsto_const_nhds) b0 h⟩

/-! ## Light -/

/-- The media do not amplify. -/
theorem C122_light {e sub : α → ℂ} {e0 sub0 : ℂ} {L : α → List (ℂ × ℝ)} {L0 : List (ℂ × ℝ)} {snu : α → Option ℝ} {snu0 : Option ℝ}
    (he : Tendsto e F (𝓝 e0)) (hL : Tendsto L F (𝓝 L0)) (hs : Tendsto sub F (𝓝 sub0))
    (hP : ∀ᶠ a in F, 0 ≤ (e a).im ∧ (∀ l ∈ L a, 0 ≤ l.1.im) ∧ 0 ≤ (sub a).im)
    (hsnu : ArgTends F (fun a => (snu a).map FP.num) (snu0.map FP.num)) {q θ nu : α → Option (FP ℝ)} {q0 θ0 nu0 : Option (FP ℝ)}
    (hq : ArgTends F q q0) (hθ : ArgTends F θ θ0) (hnu : ArgTends F nu nu0) (pol : String) :
    (∀ r0, (layered e0 L0 sub0 snu0).reflCoef ⟨q0, θ0, nu0, pol⟩ = .ok (FP.num r0) →
      Converges F (fun a => (layered (e a) (L a) (sub a) (snu a)).reflCoef ⟨q a, θ a, nu a, pol⟩) r0) ∧
    ∀ t0, (layered e0 L0 sub0 snu0).transCoef ⟨q0, θ0, nu0, pol⟩ = .ok (FP.num t0) →
      Converges F (fun a => (layered (e a) (L a) (sub a) (snu a)).transCoef ⟨q a, θ a, nu a, pol⟩) t0 := by
  obtain ⟨h1, h2⟩ := layered_lists (nu := snu) (nu0 := snu0) (fun v => 0 ≤ v.im) he hL hs hP
  have h := PassT.transferMatrix (s := fun a => layered (e a) (L a) (sub a) (snu a)) (s0 := layered e0 L0 sub0 snu0) h1 h2 hsnu hq hθ hnu pol
  exact ⟨fun r0 h0 => PyT.finite (h.bind fun _ _ hM => PyT.ok (hM.2.2.1.div hM.1)) h0,
    fun t0 h0 => PyT.finite (h.bind fun _ _ hM => PyT.ok ((FPT.const _).div hM.1)) h0⟩

theorem jump_bulk {k : ℂ} {sub : ℂ} (hk : kz 1 2 sub = k) (h1 : 1 + k ≠ 0) :
    (layered 5 [] sub none).reflCoef (atQ 2 1 "s") = .ok (FP.num ((1 - k) / (1 + k))) := by
  have h5 : kz 1 2 5 = 1 := by
    have := kz_real (nu := 1) (q := 2) (e := 5) (by norm_num)
    rw [show (5 : ℝ) * 1 ^ 2 - 2 ^ 2 = 1 by norm_num, Real.sqrt_one] at this
    simpa using this
  have hr : FarRegular "s" 1 2 5 [] sub := ⟨⟨by rw [h5]; exact one_ne_zero, by simp⟩, by simp⟩
  have hm : farMat "s" 1 2 5 [] sub = TM k := by
    simp [farMat, gen, adm, h5, hk]
  have h2 : (1 + k) / 2 ≠ 0 := div_ne_zero h1 two_ne_zero
  rw [reflCoef_eq "s" 5 [] sub none 1 2 (.inr rfl) hr, hm]
  simp only [TM, Matrix.of_apply, Matrix.cons_val', Matrix.cons_val_zero, Matrix.cons_val_one, Matrix.cons_val_fin_one]
  rw [FP.num_div _ h2, div_div_div_cancel_right₀ two_ne_zero]

theorem csqrt_neg_one : Complex.sqrt (-1) = Complex.I := by
  rw [Complex.sqrt_eq_real_add_ite]
  simp

/-- At an interface that reflects totally the condition on the media is needed: with a substrate that amplifies, however little, the
coefficients are near `i` and not near the value `-i` of the limiting sample. -/
theorem C122_jump : (layered 5 [] 3 none).reflCoef (atQ 2 1 "s") = .ok (FP.num (-Complex.I)) ∧
    Converges (𝓝[>] (0 : ℝ)) (fun δ => (layered 5 [] (3 - δ * Complex.I) none).reflCoef (atQ 2 1 "s")) Complex.I ∧
    ¬ Converges (𝓝[>] (0 : ℝ)) (fun δ => (layered 5 [] (3 - δ * Complex.I) none).reflCoef (atQ 2 1 "s")) (-Complex.I) := by
  have hI : Complex.I ≠ 0 := Complex.I_ne_zero
  have n1 : (1 : ℂ) + Complex.I ≠ 0 := fun h => by simpa using congrArg Complex.im h
  have n2 : (1 : ℂ) - Complex.I ≠ 0 := fun h => by simpa using congrArg Complex.im h
  have e1 : (1 - Complex.I) / (1 + Complex.I) = -Complex.I := by
    rw [div_eq_iff n1]
    linear_combination Complex.I_sq
  have e2 : (1 + Complex.I) / (1 - Complex.I) = Complex.I := by
    rw [div_eq_iff n2]
    linear_combination Complex.I_sq
  have h1 : (layered 5 [] 3 none).reflCoef (atQ 2 1 "s") = .ok (FP.num (-Complex.I)) := by
    have hk : kz 1 2 3 = Complex.I := by
      unfold kz
      rw [← csqrt_neg_one]
      norm_num
    rw [jump_bulk hk n1, e1]
  have hc : Converges (𝓝[>] (0 : ℝ)) (fun δ => (layered 5 [] (3 - δ * Complex.I) none).reflCoef (atQ 2 1 "s")) Complex.I := by
    have ev : ∀ δ : ℝ, 0 < δ → kz 1 2 (3 - δ * Complex.I) = (starRingEnd ℂ) (Complex.sqrt (-1 + δ * Complex.I)) := by
      intro δ hδ
      have : ((-1 : ℂ) + δ * Complex.I).arg ≠ Real.pi := by
        intro h
        rw [Complex.arg_eq_pi_iff] at h
        simp at h
        exact hδ.ne' h
      unfold kz Complex.sqrt
      rw [show (3 - δ * Complex.I) * ((1 : ℝ) : ℂ) ^ 2 - ((2 : ℝ) : ℂ) ^ 2 = (starRingEnd ℂ) (-1 + δ * Complex.I) by
        simp; ring]
      rw [Complex.conj_cpow _ _ this, show (starRingEnd ℂ) 2⁻¹ = (2⁻¹ : ℂ) by rw [map_inv₀, Complex.conj_ofNat]]
    have ht : Tendsto (fun δ : ℝ => Complex.sqrt (-1 + δ * Complex.I)) (𝓝[>] 0) (𝓝 Complex.I) := by
      have key : Tendsto (fun δ : ℝ => Complex.sqrt (-1 + δ * Complex.I)) (𝓝[>] 0) (𝓝 (Complex.sqrt (-1))) := by
        refine csqrt_tendsto ?_ ?_
        · have : Tendsto (fun δ : ℝ => (-1 : ℂ) + δ * Complex.I) (𝓝 0) (𝓝 (-1 + ((0 : ℝ) : ℂ) * Complex.I)) :=
            ((Complex.continuous_ofReal.tendsto (0 : ℝ)).mul_const _).const_add _
          simp only [Complex.ofReal_zero, zero_mul, add_zero] at this
          exact this.mono_left nhdsWithin_le_nhds
        · filter_upwards [self_mem_nhdsWithin] with δ hδ
          simpa using (le_of_lt (Set.mem_Ioi.1 hδ))
      rwa [csqrt_neg_one] at key
    have hk : Tendsto (fun δ : ℝ => (starRingEnd ℂ) (Complex.sqrt (-1 + δ * Complex.I))) (𝓝[>] 0) (𝓝 (-Complex.I)) := by
      rw [← Complex.conj_I]
      exact (Complex.continuous_conj.tendsto _).comp ht
    have hd : Tendsto (fun δ : ℝ => 1 + (starRingEnd ℂ) (Complex.sqrt (-1 + δ * Complex.I))) (𝓝[>] 0) (𝓝 (1 - Complex.I)) := by
      simpa [sub_eq_add_neg] using hk.const_add 1
    have hn : Tendsto (fun δ : ℝ => 1 - (starRingEnd ℂ) (Complex.sqrt (-1 + δ * Complex.I))) (𝓝[>] 0) (𝓝 (1 + Complex.I)) := by
      simpa [sub_neg_eq_add] using hk.const_sub 1
    refine ⟨_, ?_, by rw [← e2]; exact hn.div hd n2⟩
    filter_upwards [self_mem_nhdsWithin, hd.eventually_ne n2] with δ h1 h2
    exact jump_bulk (ev δ h1) h2
  refine ⟨h1, hc, fun h => ?_⟩
  obtain ⟨v, v1, v2⟩ := hc
  obtain ⟨w, w1, w2⟩ := h
  have : v =ᶠ[𝓝[>] (0 : ℝ)] w := by
    filter_upwards [v1, w1] with a g1 g2
    exact FP.num.inj (Except.ok.inj (g1.symm.trans g2))
  have := tendsto_nhds_unique (v2.congr' this) w2
  have := congrArg Complex.im this
  norm_num at this

/-- With absorption the values do tend to it. -/
example : Converges (𝓝[>] (0 : ℝ)) (fun δ => (layered 5 [] (3 + δ * Complex.I) none).reflCoef (atQ 2 1 "s")) (-Complex.I) :=
  (C122_light (F := 𝓝[>] (0 : ℝ)) (snu := fun _ => none) (snu0 := none) tendsto_const_nhds tendsto_const_nhds
    (by
      have : Tendsto (fun δ : ℝ => (3 : ℂ) + δ * Complex.I) (𝓝 0) (𝓝 (3 + ((0 : ℝ) : ℂ) * Complex.I)) :=
        ((Complex.continuous_ofReal.tendsto (0 : ℝ)).mul_const _).const_add _
      simp only [Complex.ofReal_zero, zero_mul, add_zero] at this
      exact this.mono_left nhdsWithin_le_nhds)
    (by
      filter_upwards [self_mem_nhdsWithin] with δ hδ
      have := (Set.mem_Ioi.1 hδ).le
      simpa using this)
    .omitted (.given tendsto_const_nhds) .omitted (.given tendsto_const_nhds) "s").1 _ C122_jump.1

end Snompy.Props
