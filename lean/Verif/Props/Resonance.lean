import Verif.Props.TaylorLayered
import Verif.Props.DemodFdm
import Verif.Props.Image
import Verif.Lemmas.LaguerreExists

/-!
# C108: passive samples and resonances of the finite dipole model

`eff_pol` has a pole where the reflection coefficient is `1 / f₁`.  A passive sample has a reflection coefficient in the upper
half plane.  The tip decides whether `1 / f₁` lies there: the sign of the imaginary part of `g_factor`, as long as the tip is
close enough for the logarithm in `f₁` to be positive.
-/

namespace Snompy.Props

open Snompy

/-- The imaginary part of the geometry function. -/
theorem geom_im (z d r l : ℝ) (g : ℂ) :
    (Fdm.geom z d r l g).im = g.im * (Real.log (4 * l / (r + 4 * z + 2 * d * r)) / Real.log (4 * l / r)) := by
  unfold Fdm.geom
  rw [mul_div_assoc, ← Complex.ofReal_div, Complex.im_mul_ofReal, Complex.sub_im, Complex.ofReal_im, sub_zero]

/-- Upper half planes do not contain the inverses of their points. -/
theorem not_resonant {β f : ℂ} (hβ : 0 ≤ β.im) (hf : 0 ≤ f.im) (h : 0 < β.im ∨ 0 < f.im) : β * f ≠ 1 := by
  intro h1
  have hf0 : f ≠ 0 := by
    rintro rfl
    simp at h1
  have hn : 0 < Complex.normSq f := Complex.normSq_pos.2 hf0
  rw [eq_inv_of_mul_eq_one_left h1, Complex.inv_im] at hβ h
  have h2 : 0 ≤ f.im / Complex.normSq f := by positivity
  rw [neg_div] at hβ h
  rcases h with h | h
  · linarith
  · have : 0 < f.im / Complex.normSq f := by positivity
    linarith

private theorem log_pos' {z d r l : ℝ} (h : Fdm.GeomOk z d r l) (hz : r + 4 * z + 2 * d * r < 4 * l) :
    0 < Real.log (4 * l / (r + 4 * z + 2 * d * r)) := Real.log_pos ((one_lt_div h.den).2 hz)

private theorem log_pos_r {z d r l : ℝ} (h : Fdm.GeomOk z d r l) (hl : r < 4 * l) : 0 < Real.log (4 * l / r) :=
  Real.log_pos ((one_lt_div h.r_pos).2 hl)

/-- Under a tip with `Im g > 0` no passive sample resonates, whatever its layers: the signals of method `Q_ave` are numbers at
every harmonic, with `beta` in the upper half plane at every height. -/
theorem C108_layered (env : Env) (e : ℝ) (L : List (ℂ × ℝ)) (sub : ℂ) (nu : Option ℝ) (h0 : 0 < e)
    (hL : ∀ l ∈ L, Passive l.1 ∧ 0 ≤ l.2) (hs : Passive sub) (nLag : Option ℕ) (hr : env.RuleOk nLag)
    (z r l : ℝ) (g : ℂ) (d0 d1 dA A : ℝ) (hg : 0 < g.im) (k0 : Fdm.GeomOk z d0 r l) (k1 : Fdm.GeomOk z d1 r l) (hl : r < 4 * l)
    (hA : 0 ≤ A) (hz : r + 4 * (z + 2 * A) + 2 * d1 * r < 4 * l) (hQ : 0 < z + r * dA) (n : ℝ) (N : ℕ) (hN : N ≠ 0) :
    ∃ B : ℝ → ℂ, (∀ x, z ≤ x → x ≤ z + 2 * A → 0 ≤ (B x).im ∧
        (layered e L sub nu).reflCoefQsAboveSurf env (FP.num (x + r * dA)) nLag = .ok (FP.num (B x)) ∧
        B x * Fdm.geom x d1 r l g ≠ 1) ∧
      Fdm.effPolN env (layered e L sub nu) (FP.num A) (FP.num n) (some (FP.num z)) (some N) (fdmTip r l g d0 d1 dA) nLag
          (some "Q_ave") =
        .ok (FP.num (demodSum
          (fun x => 1 + B x * Fdm.geom x d0 r l g / (2 * (1 - B x * Fdm.geom x d1 r l g))) (z + A) A n N)) := by
  have hB : ∀ x, ∃ b : ℂ, z ≤ x → 0 ≤ b.im ∧
      (layered e L sub nu).reflCoefQsAboveSurf env (FP.num (x + r * dA)) nLag = .ok (FP.num b) := fun x => by
    by_cases hx : z ≤ x
    · obtain ⟨b, h1, h2⟩ := C30_passive env e L sub nu h0 hL hs (x + r * dA) (by linarith) nLag hr
      exact ⟨b, fun _ => ⟨h2, h1⟩⟩
    · exact ⟨0, fun h => absurd h hx⟩
  choose B hB using hB
  have hne : ∀ x, z ≤ x → x ≤ z + 2 * A → B x * Fdm.geom x d1 r l g ≠ 1 := fun x hx hx' => by
    have hf : 0 < (Fdm.geom x d1 r l g).im := by
      rw [geom_im]
      have := log_pos' (k1.mono hx) (by linarith)
      have := log_pos_r k1 hl
      positivity
    exact not_resonant (hB x hx).1 hf.le (.inr hf)
  exact ⟨B, fun x hx hx' => ⟨(hB x hx).1, (hB x hx).2, hne x hx hx'⟩,
    effPolN_qave env _ B z r l g d0 d1 dA k0 k1 A hA nLag (fun x hx _ => (hB x hx).2) hne n N hN⟩

example (d : Defaults) := C108_layered (rule2 d) 1 [(⟨2, 1⟩, 3)] 5 none one_pos (by simp [Passive]) (by simp [Passive]) (some 2)
  (rule2_ok d) 0 1 10 ⟨0.7, 0.04⟩ 1 0.5 1.4 1 (by norm_num) ⟨by norm_num, by norm_num, by norm_num, by norm_num⟩
  ⟨by norm_num, by norm_num, by norm_num, by norm_num⟩ (by norm_num) (by norm_num) (by norm_num) (by norm_num) 3 32 (by norm_num)

/-- Reflection of an absorbing bulk sample. -/
theorem refl_absorbing (e : ℝ) (ε : ℂ) (he : 0 < e) (hε : 0 < ε.im) :
    ∃ β : ℂ, (bulk e ε).reflCoefQs = .ok (FP.num β) ∧ 0 < β.im := by
  have h1 : ε ≠ 0 := fun h => by simp [h] at hε
  have h2 : ε + e ≠ 0 := fun h => by
    have := congrArg Complex.im h
    simp only [Complex.add_im, Complex.ofReal_im, Complex.zero_im] at this
    linarith
  refine ⟨_, C09_refl (e : ℂ) ε none _ h1 h2, ?_⟩
  rw [show (ε - e) / (ε + e) = 1 - ((2 * e : ℝ) : ℂ) * (ε + e)⁻¹ by push_cast; field_simp; ring, Complex.sub_im, Complex.one_im,
    Complex.im_ofReal_mul, Complex.inv_im, Complex.add_im, Complex.ofReal_im, add_zero]
  have := Complex.normSq_pos.2 h2
  rw [neg_div, mul_neg, sub_neg_eq_add, zero_add]
  positivity

/-- The condition on the tip is exactly this: every absorbing bulk sample gives a number if and only if `Im f₁ ≥ 0`. -/
theorem C108_bulk_iff (env : Env) (e : ℝ) (he : 0 < e) (nLag : Option ℕ) (z r l : ℝ) (g : ℂ) (d0 d1 dA : ℝ)
    (k0 : Fdm.GeomOk z d0 r l) (k1 : Fdm.GeomOk z d1 r l) (hl : r < 4 * l) :
    (∀ ε : ℂ, 0 < ε.im → ∃ v : ℂ,
      Fdm.effPol env (bulk e ε) (some (FP.num z)) (fdmTip r l g d0 d1 dA) nLag none = .ok (FP.num v)) ↔
    0 ≤ g.im * Real.log (4 * l / (r + 4 * z + 2 * d1 * r)) := by
  have hlr := log_pos_r k1 hl
  have hdef : ∀ ε : ℂ, Fdm.effPol env (bulk e ε) (some (FP.num z)) (fdmTip r l g d0 d1 dA) nLag none =
      Fdm.effPol env (bulk e ε) (some (FP.num z)) (fdmTip r l g d0 d1 dA) nLag (some "bulk") := fun ε => by
    rw [Fdm.effPol_default, bulk_multilayer]
    rfl
  constructor
  · intro h
    by_contra hn
    have hf : (Fdm.geom z d1 r l g).im < 0 := by
      rw [geom_im, ← mul_div_assoc]
      exact div_neg_of_neg_of_pos (not_le.1 hn) hlr
    set f := Fdm.geom z d1 r l g with hfd
    have hf0 : f ≠ 0 := fun h0 => by rw [h0] at hf; simp at hf
    have hfi : 0 < (f⁻¹).im := by
      rw [Complex.inv_im]
      exact div_pos (by linarith) (Complex.normSq_pos.2 hf0)
    have h1 : 1 - f⁻¹ ≠ 0 := fun h0 => by
      have := congrArg Complex.im h0
      simp only [Complex.sub_im, Complex.one_im, Complex.zero_im] at this
      linarith
    set ε : ℂ := e * ((1 + f⁻¹) / (1 - f⁻¹)) with hεd
    have e0 : (e : ℂ) ≠ 0 := by exact_mod_cast he.ne'
    have hεi : 0 < ε.im := by
      rw [hεd, Complex.im_ofReal_mul, show (1 + f⁻¹) / (1 - f⁻¹) = ((2 : ℝ) : ℂ) * (1 - f⁻¹)⁻¹ - 1 by
        push_cast
        rw [div_eq_mul_inv, show (1 : ℂ) + f⁻¹ = 2 - (1 - f⁻¹) by ring, sub_mul, mul_inv_cancel₀ h1], Complex.sub_im,
        Complex.one_im, Complex.im_ofReal_mul, Complex.inv_im, Complex.sub_im, Complex.one_im]
      have := Complex.normSq_pos.2 h1
      rw [zero_sub, neg_neg, sub_zero]
      positivity
    have hsum : ε + e ≠ 0 := fun h0 => by
      have := congrArg Complex.im h0
      simp only [Complex.add_im, Complex.ofReal_im, Complex.zero_im] at this
      linarith
    have hε0 : ε ≠ 0 := fun h0 => by rw [h0] at hεi; simp at hεi
    have hβ : (ε - e) / (ε + e) = f⁻¹ := by
      rw [div_eq_iff hsum, hεd]
      have h2 : f - 1 ≠ 0 := fun h0 => h1 (by rw [sub_eq_zero.1 h0]; simp)
      field_simp
      ring
    obtain ⟨v, hv⟩ := h ε hεi
    rw [hdef, Fdm.effPol_bulk env _ (bulk_multilayer _ _ _), C09_refl (e : ℂ) ε none _ hε0 hsum, hβ, PyM.ok_bind, fdm_fdmTip] at hv
    simp only [Option.getD_some] at hv
    rw [Fdm.geomFunc_num k0, Fdm.geomFunc_num k1, ← hfd] at hv
    unfold Fdm.effPolFormula at hv
    simp only [sclit, FP.num_mul, FP.num_sub] at hv
    rw [inv_mul_cancel₀ hf0, sub_self, mul_zero, FP.num_div_zero] at hv
    cases hv
  · intro hg ε hε
    obtain ⟨β, hβ, hβi⟩ := refl_absorbing e ε he hε
    rw [hdef]
    refine ⟨_, effPol_val env _ (bulk_multilayer _ _ _) β hβ z r l g d0 d1 dA k0 k1 (sub_ne_zero.2 (not_resonant hβi.le ?_
      (.inl hβi)).symm) nLag⟩
    rw [geom_im, ← mul_div_assoc]
    exact div_nonneg hg hlr.le

example (d : Defaults) := C108_bulk_iff (rule2 d) 1 one_pos (some 2) 0 1 10 ⟨0.7, 0.04⟩ 1 0.5 1.4
  ⟨by norm_num, by norm_num, by norm_num, by norm_num⟩ ⟨by norm_num, by norm_num, by norm_num, by norm_num⟩ (by norm_num)

/-- The default tip: within 290 nm of the surface every passive sample gives numbers at every harmonic, bulk samples with the
default method and layered samples with `Q_ave`. -/
theorem C108_default (lag : ℕ → List (ℝ × ℝ)) (hlag : Env.RuleOk ⟨Defaults.initial, lag⟩ none) (e : ℝ) (L : List (ℂ × ℝ)) (sub : ℂ)
    (nu : Option ℝ) (h0 : 0 < e) (hL : ∀ l ∈ L, Passive l.1 ∧ 0 ≤ l.2) (hs : Passive sub) (A z : ℝ) (hA : 0 ≤ A) (hz : 0 ≤ z)
    (hz' : z + 2 * A < 290e-9) (n : ℝ) (m : Option String) (hm : m = some "Q_ave" ∨ L = [] ∧ m = none) :
    ∃ v : ℂ, Fdm.effPolN ⟨Defaults.initial, lag⟩ (layered e L sub nu) (FP.num A) (FP.num n) (some (FP.num z)) none {} none m =
      .ok (FP.num v) := by
  set env : Env := ⟨Defaults.initial, lag⟩ with henv
  obtain ⟨g0, g0'⟩ := d0_default
  set d0 : ℝ := 1.31 * 300e-9 / (300e-9 + 2 * 20e-9) with hd0
  have hgi : 0 < gDefault.im := by
    have := gDefault_im 0
    rw [Complex.sub_im, Complex.ofReal_im, sub_zero] at this
    rw [this]
    exact mul_pos (by norm_num) (Real.sin_pos_of_pos_of_lt_pi (by norm_num) (by linarith [Real.pi_gt_three]))
  have k0 := geomOk_default g0 hz
  have k1 := geomOk_default (d := 0.5) (by norm_num) hz
  have hdef : ∀ m, Fdm.effPolN env (layered e L sub nu) (FP.num A) (FP.num n) (some (FP.num z)) none {} none m =
      Fdm.effPolN env (layered e L sub nu) (FP.num A) (FP.num n) (some (FP.num z)) (some 32)
        (fdmTip 20e-9 300e-9 gDefault d0 0.5 1.4) none m := fun m => by
    have : env.defaults.fdm ({} : FdmArgs (FP ℝ) (FP ℂ)) = env.defaults.fdm (fdmTip 20e-9 300e-9 gDefault d0 0.5 1.4) :=
      fdm_default lag
    unfold Fdm.effPolN Fdm.effPol
    rw [this]
    rfl
  have key : ∃ v : ℂ, Fdm.effPolN env (layered e L sub nu) (FP.num A) (FP.num n) (some (FP.num z)) (some 32)
        (fdmTip 20e-9 300e-9 gDefault d0 0.5 1.4) none (some "Q_ave") = .ok (FP.num v) := by
    obtain ⟨B, -, h⟩ := C108_layered env e L sub nu h0 hL hs none hlag z 20e-9 300e-9 gDefault d0 0.5 1.4 A hgi k0 k1 (by norm_num) hA
      (by norm_num at hz' ⊢; linarith) (by norm_num; linarith) n 32 (by norm_num)
    exact ⟨_, h⟩
  rw [hdef]
  rcases hm with rfl | ⟨rfl, rfl⟩
  · exact key
  · have hsum : sub + (e : ℂ) ≠ 0 := fun h => by
      have h1 := congrArg Complex.im h
      have h2 := congrArg Complex.re h
      simp only [Complex.add_im, Complex.ofReal_im, Complex.zero_im, Complex.add_re, Complex.ofReal_re, Complex.zero_re] at h1 h2
      rcases hs with h3 | ⟨-, h3⟩ <;> linarith
    have hs0 : sub ≠ 0 := fun h => by
      rcases hs with h3 | ⟨-, h3⟩ <;> simp [h] at h3
    have hb : layered (e : ℂ) [] sub nu = bulk e sub nu := rfl
    rw [hb] at key ⊢
    have : ∀ x, Fdm.effPol env (bulk e sub nu) (some x) (fdmTip 20e-9 300e-9 gDefault d0 0.5 1.4) none none =
        Fdm.effPol env (bulk e sub nu) (some x) (fdmTip 20e-9 300e-9 gDefault d0 0.5 1.4) none (some "Q_ave") := fun x => by
      rw [Fdm.effPol_default, bulk_multilayer]
      rw [Fdm.effPol_Qave, C28_average env e sub nu _ none hlag hs0 hsum]
      exact Fdm.effPol_bulk env _ (bulk_multilayer _ _ _) _ _ _
    unfold Fdm.effPolN at key ⊢
    simp only [this]
    exact key

example := C108_default Laguerre.rule ⟨by norm_num [Defaults.initial], Laguerre.gaussLaguerre_rule (by norm_num [Defaults.initial])⟩
  1 [(⟨2, 1⟩, 3e-9)] 11.7 none one_pos (by simp [Passive]; norm_num) (by norm_num [Passive]) 20e-9 0 (by norm_num) le_rfl (by norm_num)
  3 (some "Q_ave") (.inl rfl)

end Snompy.Props
