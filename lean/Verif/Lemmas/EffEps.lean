import Verif.Lemmas.GenProps
import Mathlib.Analysis.SpecialFunctions.Trigonometric.DerivHyp

/-!
# Effective permittivity of what lies below an interface
-/

namespace Snompy

open Matrix

theorem gen_cons_sum (y0 y x ys : ℂ) (L : List (ℂ × ℂ)) :
    gen y0 ((y, x) :: L) ys 0 0 + gen y0 ((y, x) :: L) ys 1 0 =
      Complex.exp x * gen y L ys 0 0 + Complex.exp (-x) * gen y L ys 1 0 := by
  simp only [gen, TM, PM, Matrix.mul_apply, Fin.sum_univ_two]
  simp
  ring

theorem gen_cons_diff (y0 y x ys : ℂ) (L : List (ℂ × ℂ)) :
    gen y0 ((y, x) :: L) ys 0 0 - gen y0 ((y, x) :: L) ys 1 0 =
      y0 / y * (Complex.exp x * gen y L ys 0 0 - Complex.exp (-x) * gen y L ys 1 0) := by
  simp only [gen, TM, PM, Matrix.mul_apply, Fin.sum_univ_two]
  simp
  ring

/-- Effective permittivity of a stack of layers `(eps, x)` on a substrate. -/
noncomputable def effEps : List (ℂ × ℝ) → ℂ → ℂ
  | [], es => es
  | (e, x) :: L, es =>
    e * (e * Real.sinh x + effEps L es * Real.cosh x) /
      (e * Real.cosh x + effEps L es * Real.sinh x)

/-- A convex cone stable under addition of reciprocals. -/
structure PosCone (S : Set ℂ) : Prop where
  add : ∀ {z w}, z ∈ S → w ∈ S → z + w ∈ S
  smul : ∀ {c : ℝ} {z}, 0 < c → z ∈ S → (c : ℂ) * z ∈ S
  ne_zero : ∀ {z}, z ∈ S → z ≠ 0
  inv_add : ∀ {z w}, z ∈ S → w ∈ S → (z⁻¹ + w⁻¹)⁻¹ ∈ S

theorem posCone_re : PosCone {z : ℂ | 0 < z.re} where
  add hz hw := by simp only [Set.mem_ofPred_eq, Complex.add_re] at *; linarith
  smul hc hz := by simpa using mul_pos hc hz
  ne_zero hz h := by simp [h] at hz
  inv_add := by
    have inv : ∀ {z : ℂ}, 0 < z.re → 0 < (z⁻¹).re := fun {z} hz => by
      rw [Complex.inv_re]
      refine div_pos hz (Complex.normSq_pos.2 ?_)
      rintro rfl; simp at hz
    intro z w hz hw
    refine inv ?_
    rw [Complex.add_re]
    exact add_pos (inv hz) (inv hw)

theorem posCone_upper : PosCone {z : ℂ | 0 < z.im ∨ z.im = 0 ∧ 0 < z.re} where
  add hz hw := by
    simp only [Set.mem_ofPred_eq, Complex.add_re, Complex.add_im] at *
    rcases hz with hz | ⟨h1, h2⟩ <;> rcases hw with hw | ⟨h3, h4⟩
    · left; linarith
    · left; linarith
    · left; linarith
    · right; constructor <;> linarith
  smul {c z} hc hz := by
    have h1 : ((c : ℂ) * z).im = c * z.im := by simp
    have h2 : ((c : ℂ) * z).re = c * z.re := by simp
    simp only [Set.mem_ofPred_eq, h1, h2] at *
    rcases hz with hz | ⟨h3, h4⟩
    · exact Or.inl (mul_pos hc hz)
    · exact Or.inr ⟨by rw [h3, mul_zero], mul_pos hc h4⟩
  ne_zero hz h := by simp [h] at hz
  inv_add := by
    have inv : ∀ {z : ℂ}, (0 < z.im ∨ z.im = 0 ∧ 0 < z.re) →
        ((z⁻¹).im < 0 ∨ (z⁻¹).im = 0 ∧ 0 < (z⁻¹).re) := fun {z} hz => by
      have h0 : 0 < Complex.normSq z := Complex.normSq_pos.2 (by rintro rfl; simp at hz)
      rw [Complex.inv_re, Complex.inv_im]
      rcases hz with hz | ⟨h1, h2⟩
      · exact Or.inl (div_neg_of_neg_of_pos (by linarith) h0)
      · exact Or.inr ⟨by rw [h1]; simp, div_pos h2 h0⟩
    have inv' : ∀ {z : ℂ}, (z.im < 0 ∨ z.im = 0 ∧ 0 < z.re) →
        (0 < (z⁻¹).im ∨ (z⁻¹).im = 0 ∧ 0 < (z⁻¹).re) := fun {z} hz => by
      have h0 : 0 < Complex.normSq z := Complex.normSq_pos.2 (by rintro rfl; simp at hz)
      rw [Complex.inv_re, Complex.inv_im]
      rcases hz with hz | ⟨h1, h2⟩
      · exact Or.inl (div_pos (by linarith) h0)
      · exact Or.inr ⟨by rw [h1]; simp, div_pos h2 h0⟩
    intro z w hz hw
    refine inv' ?_
    have a := inv hz
    have b := inv hw
    simp only [Complex.add_re, Complex.add_im]
    rcases a with a | ⟨h1, h2⟩ <;> rcases b with b | ⟨h3, h4⟩
    · left; linarith
    · left; linarith
    · left; linarith
    · right; constructor <;> linarith

variable {S : Set ℂ}

/-- `y c + E s` with `c > 0`, `s ≥ 0` stays in the cone. -/
theorem PosCone.comb (hS : PosCone S) {y E : ℂ} (hy : y ∈ S) (hE : E ∈ S) {c s : ℝ} (hc : 0 < c)
    (hs : 0 ≤ s) : y * c + E * s ∈ S := by
  rcases hs.eq_or_lt with rfl | hs
  · rw [Complex.ofReal_zero, mul_zero, add_zero, mul_comm]; exact hS.smul hc hy
  · rw [mul_comm y, mul_comm E]; exact hS.add (hS.smul hc hy) (hS.smul hs hE)

theorem effEps_mem (hS : PosCone S) (L : List (ℂ × ℝ)) (es : ℂ) (hs : es ∈ S)
    (hL : ∀ l ∈ L, l.1 ∈ S ∧ 0 ≤ l.2) : effEps L es ∈ S := by
  induction L with
  | nil => exact hs
  | cons l L ih =>
    obtain ⟨e, x⟩ := l
    obtain ⟨he, hx⟩ := hL (e, x) (by simp)
    simp only at he hx
    have hE := ih fun l hl => hL l (by simp [hl])
    set E := effEps L es
    have hc : 0 < Real.cosh x := Real.cosh_pos x
    have hsh : 0 ≤ Real.sinh x := Real.sinh_nonneg_iff.2 hx
    have hN : e * Real.sinh x + E * Real.cosh x ∈ S := by
      rw [add_comm]; exact hS.comb hE he hc hsh
    have hD : e * Real.cosh x + E * Real.sinh x ∈ S := hS.comb he hE hc hsh
    have e0 := hS.ne_zero he
    have N0 := hS.ne_zero hN
    have D0 := hS.ne_zero hD
    show e * (e * Real.sinh x + E * Real.cosh x) / (e * Real.cosh x + E * Real.sinh x) ∈ S
    have hcc : (Real.cosh x : ℂ) ≠ 0 := by exact_mod_cast hc.ne'
    have hcs : (Real.cosh x : ℂ) ^ 2 = (Real.sinh x : ℂ) ^ 2 + 1 := by
      exact_mod_cast Real.cosh_sq x
    rcases hsh.eq_or_lt with h0 | h0
    · rw [← h0] at D0 N0 ⊢
      simp only [Complex.ofReal_zero, mul_zero, zero_add, add_zero] at D0 N0 ⊢
      rw [show e * (E * (Real.cosh x : ℂ)) / (e * Real.cosh x) = E by field_simp]
      exact hE
    · have hsc : (Real.sinh x : ℂ) ≠ 0 := by exact_mod_cast h0.ne'
      have h1 := hS.smul (div_pos hc h0) he
      have h2 := hS.smul hc hN
      have := hS.inv_add h1 h2
      convert this using 1
      rw [← inv_inv (e * (e * (Real.sinh x : ℂ) + E * (Real.cosh x : ℂ)) /
        (e * (Real.cosh x : ℂ) + E * (Real.sinh x : ℂ)))]
      congr 1
      push_cast at hN hD N0 D0 hcc hcs hsc ⊢
      rw [inv_div]
      have hr : (Complex.cosh x / Complex.sinh x * e)⁻¹ +
          (Complex.cosh x * (e * Complex.sinh x + E * Complex.cosh x))⁻¹ =
          (Complex.sinh x * (e * Complex.sinh x + E * Complex.cosh x) + e) /
            (Complex.cosh x * e * (e * Complex.sinh x + E * Complex.cosh x)) := by
        generalize e * Complex.sinh x + E * Complex.cosh x = N at N0 ⊢
        field_simp
      rw [hr, div_eq_div_iff (mul_ne_zero e0 N0) (mul_ne_zero (mul_ne_zero hcc e0) N0)]
      linear_combination (e * (e * Complex.sinh x + E * Complex.cosh x)) * e * hcs

/-- The matrix in terms of the effective permittivity. -/
theorem gen_effEps (hS : PosCone S) (y0 : ℂ) (L : List (ℂ × ℝ)) (es : ℂ) (h0 : y0 ≠ 0) (hs : es ∈ S)
    (hL : ∀ l ∈ L, l.1 ∈ S ∧ 0 ≤ l.2) :
    gen y0 (L.map fun l => (l.1, (l.2 : ℂ))) es 0 0 -
        gen y0 (L.map fun l => (l.1, (l.2 : ℂ))) es 1 0 ≠ 0 ∧
      y0 * (gen y0 (L.map fun l => (l.1, (l.2 : ℂ))) es 0 0 +
        gen y0 (L.map fun l => (l.1, (l.2 : ℂ))) es 1 0) =
      effEps L es * (gen y0 (L.map fun l => (l.1, (l.2 : ℂ))) es 0 0 -
        gen y0 (L.map fun l => (l.1, (l.2 : ℂ))) es 1 0) := by
  induction L generalizing y0 with
  | nil =>
    have he := hS.ne_zero hs
    simp only [List.map_nil, gen, TM, effEps, Matrix.of_apply, Matrix.cons_val', Matrix.cons_val_zero,
      Matrix.cons_val_one, Matrix.cons_val_fin_one]
    constructor
    · rw [show (1 + y0 / es) / 2 - (1 - y0 / es) / 2 = y0 / es by ring]
      exact div_ne_zero h0 he
    · field_simp; ring
  | cons l L ih =>
    obtain ⟨e, x⟩ := l
    obtain ⟨he, hx⟩ := hL (e, x) (by simp)
    simp only at he hx
    have hL' : ∀ l ∈ L, l.1 ∈ S ∧ 0 ≤ l.2 := fun l hl => hL l (by simp [hl])
    have hE := effEps_mem hS L es hs hL'
    obtain ⟨i1, i2⟩ := ih e (hS.ne_zero he) hL'
    simp only [List.map_cons]
    rw [gen_cons_sum, gen_cons_diff]
    simp only [effEps]
    set E := effEps L es
    set A := gen e (L.map fun l => (l.1, (l.2 : ℂ))) es 0 0
    set B := gen e (L.map fun l => (l.1, (l.2 : ℂ))) es 1 0
    have hc : 0 < Real.cosh x := Real.cosh_pos x
    have hsh : 0 ≤ Real.sinh x := Real.sinh_nonneg_iff.2 hx
    have D0 := hS.ne_zero (hS.comb he hE hc hsh)
    have e0 := hS.ne_zero he
    push_cast at D0 ⊢
    have ep : Complex.exp (x : ℂ) = Complex.cosh x + Complex.sinh x := (Complex.cosh_add_sinh _).symm
    have em : Complex.exp (-(x : ℂ)) = Complex.cosh x - Complex.sinh x :=
      (Complex.cosh_sub_sinh _).symm
    have hd : e * (Complex.exp x * A - Complex.exp (-x) * B) =
        (A - B) * (e * Complex.cosh x + E * Complex.sinh x) := by
      rw [ep, em]; linear_combination Complex.sinh (x : ℂ) * i2
    have hp : e * (Complex.exp x * A + Complex.exp (-x) * B) =
        (A - B) * (e * Complex.sinh x + E * Complex.cosh x) := by
      rw [ep, em]; linear_combination Complex.cosh (x : ℂ) * i2
    have hd0 : Complex.exp x * A - Complex.exp (-x) * B ≠ 0 := by
      intro h
      rw [h, mul_zero] at hd
      exact mul_ne_zero i1 D0 hd.symm
    refine ⟨mul_ne_zero (div_ne_zero h0 e0) hd0, ?_⟩
    have hd' : Complex.exp x * A - Complex.exp (-x) * B =
        (A - B) * (e * Complex.cosh x + E * Complex.sinh x) / e := by
      rw [← hd]; field_simp
    have hp' : Complex.exp x * A + Complex.exp (-x) * B =
        (A - B) * (e * Complex.sinh x + E * Complex.cosh x) / e := by
      rw [← hp]; field_simp
    rw [hd', hp']
    generalize e * Complex.cosh x + E * Complex.sinh x = D at D0 ⊢
    field_simp

theorem gen_refl (hS : PosCone S) (y0 : ℂ) (L : List (ℂ × ℝ)) (es : ℂ) (h0 : y0 ∈ S) (hs : es ∈ S)
    (hL : ∀ l ∈ L, l.1 ∈ S ∧ 0 ≤ l.2) :
    gen y0 (L.map fun l => (l.1, (l.2 : ℂ))) es 0 0 ≠ 0 ∧
      gen y0 (L.map fun l => (l.1, (l.2 : ℂ))) es 1 0 /
        gen y0 (L.map fun l => (l.1, (l.2 : ℂ))) es 0 0 =
      (effEps L es - y0) / (effEps L es + y0) := by
  obtain ⟨h1, h2⟩ := gen_effEps hS y0 L es (hS.ne_zero h0) hs hL
  have hE := effEps_mem hS L es hs hL
  have hE0 := hS.ne_zero (hS.add hE h0)
  set A := gen y0 (L.map fun l => (l.1, (l.2 : ℂ))) es 0 0
  set B := gen y0 (L.map fun l => (l.1, (l.2 : ℂ))) es 1 0
  have y00 := hS.ne_zero h0
  have hA : 2 * y0 * A = (A - B) * (effEps L es + y0) := by linear_combination h2
  have hB : 2 * y0 * B = (A - B) * (effEps L es - y0) := by linear_combination h2
  have hA0 : A ≠ 0 := by
    intro h
    rw [h, mul_zero] at hA
    rw [h] at h1
    exact mul_ne_zero h1 hE0 (by rw [← hA])
  refine ⟨hA0, ?_⟩
  rw [div_eq_div_iff hA0 hE0]
  have : 2 * y0 * (B * (effEps L es + y0)) = 2 * y0 * ((effEps L es - y0) * A) := by
    calc 2 * y0 * (B * (effEps L es + y0)) = (2 * y0 * B) * (effEps L es + y0) := by ring
      _ = (2 * y0 * A) * (effEps L es - y0) := by rw [hA, hB]; ring
      _ = _ := by ring
  exact mul_left_cancel₀ (mul_ne_zero two_ne_zero y00) this

end Snompy
