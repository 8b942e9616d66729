import Verif.Lemmas.FarLimit
import Mathlib.Analysis.Calculus.MeanValue
import Mathlib.Analysis.SpecialFunctions.ExpDeriv

/-!
# Energy flux through an absorbing stack
-/

namespace Snompy

open Set

/-- The flux grows through an absorbing layer on the way up. -/
theorem flux_layer {k y : ℂ} (hy : y ≠ 0) (h1 : 0 ≤ (k * y).im) (h2 : 0 ≤ (k / y).im) (A B : ℂ) {t : ℝ} (ht : 0 ≤ t) :
    ((A + B) * star ((A - B) / y)).re ≤
      ((Complex.exp (-Complex.I * (k * t)) * A + Complex.exp (-(-Complex.I * (k * t))) * B) *
        star ((Complex.exp (-Complex.I * (k * t)) * A - Complex.exp (-(-Complex.I * (k * t))) * B) / y)).re := by
  set P : ℝ → ℂ := fun t => Complex.exp (-Complex.I * (k * t)) * A + Complex.exp (-(-Complex.I * (k * t))) * B with hP
  set Q : ℝ → ℂ := fun t => (Complex.exp (-Complex.I * (k * t)) * A - Complex.exp (-(-Complex.I * (k * t))) * B) / y
    with hQ
  have hlin : ∀ c : ℂ, ∀ t : ℝ, HasDerivAt (fun t : ℝ => Complex.exp (c * t)) (Complex.exp (c * t) * c) t := by
    intro c t
    have h0 : HasDerivAt (fun t : ℝ => c * (t : ℂ)) c t := by
      simpa using (Complex.ofRealCLM.hasDerivAt (x := t)).const_mul c
    exact h0.cexp
  have e1 : ∀ t : ℝ, -Complex.I * (k * t) = (-Complex.I * k) * t := fun t => by ring
  have e2 : ∀ t : ℝ, -(-Complex.I * k * t) = (Complex.I * k) * t := fun t => by ring
  have dP : ∀ t, HasDerivAt P (-Complex.I * k * y * Q t) t := by
    intro t
    simp only [hP, hQ, e1, e2]
    have := ((hlin (-Complex.I * k) t).mul_const A).fun_add ((hlin (Complex.I * k) t).mul_const B)
    refine this.congr_deriv ?_
    field_simp
    ring
  have dQ : ∀ t, HasDerivAt Q (-Complex.I * (k / y) * P t) t := by
    intro t
    simp only [hP, hQ, e1, e2]
    have := (((hlin (-Complex.I * k) t).mul_const A).fun_sub ((hlin (Complex.I * k) t).mul_const B)).div_const y
    refine this.congr_deriv ?_
    field_simp
    ring
  have dre : ∀ {f : ℝ → ℂ} {f' : ℂ} {t : ℝ}, HasDerivAt f f' t →
      HasDerivAt (fun t => (f t).re) f'.re t ∧ HasDerivAt (fun t => (f t).im) f'.im t := fun h =>
    ⟨Complex.reCLM.hasFDerivAt.comp_hasDerivAt _ h, Complex.imCLM.hasFDerivAt.comp_hasDerivAt _ h⟩
  have hφ : ∀ t, HasDerivAt (fun t => (P t * star (Q t)).re)
      ((k * y).im * Complex.normSq (Q t) + (k / y).im * Complex.normSq (P t)) t := by
    intro t
    have h := ((dre (dP t)).1.mul (dre (dQ t)).1).add ((dre (dP t)).2.mul (dre (dQ t)).2)
    have hfun : (fun t => (P t * star (Q t)).re) = fun t => (P t).re * (Q t).re + (P t).im * (Q t).im := by
      funext t
      simp [Complex.mul_re]
    rw [hfun]
    convert! h using 1
    rw [show -Complex.I * k * y * Q t = -Complex.I * (k * y) * Q t by ring]
    generalize k * y = a
    generalize k / y = c
    simp only [Complex.normSq_apply, Complex.mul_re, Complex.mul_im, Complex.neg_re, Complex.neg_im, Complex.I_re,
      Complex.I_im]
    ring
  have hmono : MonotoneOn (fun t => (P t * star (Q t)).re) (Ici 0) := by
    refine monotoneOn_of_deriv_nonneg (convex_Ici 0) (fun t _ => (hφ t).continuousAt.continuousWithinAt)
      (fun t _ => (hφ t).differentiableAt.differentiableWithinAt) fun t _ => ?_
    rw [(hφ t).deriv]
    exact add_nonneg (mul_nonneg h1 (Complex.normSq_nonneg _)) (mul_nonneg h2 (Complex.normSq_nonneg _))
  have := hmono self_mem_Ici ht ht
  simpa [hP, hQ] using this

/-- The flux at the top of a stack is at least the flux into its substrate. -/
theorem gen_flux (y0 : ℂ) (L : List (ℂ × ℂ × ℝ)) (ys : ℂ)
    (hL : ∀ l ∈ L, l.1 ≠ 0 ∧ 0 ≤ (l.2.1 * l.1).im ∧ 0 ≤ (l.2.1 / l.1).im ∧ 0 ≤ l.2.2) :
    ∃ G : ℂ, gen y0 (L.map fun l => (l.1, -Complex.I * (l.2.1 * l.2.2))) ys 0 0 -
        gen y0 (L.map fun l => (l.1, -Complex.I * (l.2.1 * l.2.2))) ys 1 0 = y0 * G ∧
      (1 / ys).re ≤ ((gen y0 (L.map fun l => (l.1, -Complex.I * (l.2.1 * l.2.2))) ys 0 0 +
        gen y0 (L.map fun l => (l.1, -Complex.I * (l.2.1 * l.2.2))) ys 1 0) * star G).re := by
  induction L generalizing y0 with
  | nil =>
    refine ⟨1 / ys, ?_, ?_⟩
    · simp [gen, TM]; ring
    · have : gen y0 [] ys 0 0 + gen y0 [] ys 1 0 = 1 := by simp [gen, TM]; ring
      simp only [List.map_nil]
      rw [this]
      simp
  | cons l L ih =>
    obtain ⟨y, k, t⟩ := l
    obtain ⟨hy, h1, h2, ht⟩ := hL (y, k, t) (by simp)
    simp only at hy h1 h2 ht
    obtain ⟨G', hG, hre⟩ := ih y fun l hl => hL l (by simp [hl])
    simp only [List.map_cons]
    rw [gen_cons_sum, gen_cons_diff]
    set A := gen y (L.map fun l => (l.1, -Complex.I * (l.2.1 * l.2.2))) ys 0 0
    set B := gen y (L.map fun l => (l.1, -Complex.I * (l.2.1 * l.2.2))) ys 1 0
    refine ⟨_, by rw [div_mul_eq_mul_div, mul_div_assoc], hre.trans ?_⟩
    have hG' : G' = (A - B) / y := by rw [hG]; field_simp
    rw [hG']
    exact flux_layer hy h1 h2 A B ht

/-- The waves above a stack do not both vanish. -/
theorem gen_ne_zero (y0 : ℂ) (L : List (ℂ × ℂ)) (ys : ℂ) (h0 : y0 ≠ 0) (hL : ∀ l ∈ L, l.1 ≠ 0) :
    ¬ (gen y0 L ys 0 0 = 0 ∧ gen y0 L ys 1 0 = 0) := by
  induction L generalizing y0 with
  | nil =>
    rintro ⟨h1, h2⟩
    have : gen y0 [] ys 0 0 + gen y0 [] ys 1 0 = 1 := by simp [gen, TM]; ring
    rw [h1, h2] at this
    norm_num at this
  | cons l L ih =>
    obtain ⟨y, x⟩ := l
    have hy : y ≠ 0 := hL (y, x) (by simp)
    rintro ⟨h1, h2⟩
    have hs := gen_cons_sum y0 y x ys L
    have hd := gen_cons_diff y0 y x ys L
    rw [h1, h2, add_zero] at hs
    rw [h1, h2, sub_zero] at hd
    have hd' := (mul_eq_zero.1 hd.symm).resolve_left (div_ne_zero h0 hy)
    have hu : Complex.exp x * gen y L ys 0 0 = 0 := by linear_combination (1 / 2 : ℂ) * (-hs) + (1 / 2 : ℂ) * hd'
    have hv : Complex.exp (-x) * gen y L ys 1 0 = 0 := by linear_combination (1 / 2 : ℂ) * (-hs) - (1 / 2 : ℂ) * hd'
    exact ih y hy (fun l hl => hL l (by simp [hl]))
      ⟨(mul_eq_zero.1 hu).resolve_left (Complex.exp_ne_zero _), (mul_eq_zero.1 hv).resolve_left (Complex.exp_ne_zero _)⟩

theorem csqrt_re_nonneg (z : ℂ) : 0 ≤ (Complex.sqrt z).re := by
  rw [Complex.sqrt_eq_real_add_ite]
  simp only [Complex.add_re, Complex.mul_re, Complex.ofReal_re, Complex.ofReal_im, Complex.I_re, Complex.I_im]
  split_ifs <;> simp <;> positivity

end Snompy
