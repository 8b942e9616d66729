import Verif.Lemmas.FarPassive
import Verif.Lemmas.GenProps
import Verif.Spec.Bounces

/-!
# Lemmas for the classical results on plane waves in stacks
-/

namespace Snompy

/-- Adding one layer on top of a stack whose coefficients are known. -/
theorem gen_step (y0 y x ys : ℂ) (L : List (ℂ × ℂ)) (ρ τ : ℂ) (hA : gen y L ys 0 0 ≠ 0)
    (hB : gen y L ys 1 0 = ρ * gen y L ys 0 0) (hτ : τ * gen y L ys 0 0 = 1) (h1 : 1 + y0 / y ≠ 0)
    (hD : 1 + (1 - y0 / y) / (1 + y0 / y) * ρ * Complex.exp (-x) ^ 2 ≠ 0) :
    gen y0 ((y, x) :: L) ys 0 0 ≠ 0 ∧
    gen y0 ((y, x) :: L) ys 1 0 =
      ((1 - y0 / y) / (1 + y0 / y) + ρ * Complex.exp (-x) ^ 2) /
        (1 + (1 - y0 / y) / (1 + y0 / y) * ρ * Complex.exp (-x) ^ 2) * gen y0 ((y, x) :: L) ys 0 0 ∧
    (1 + (1 - y0 / y) / (1 + y0 / y)) * τ * Complex.exp (-x) /
        (1 + (1 - y0 / y) / (1 + y0 / y) * ρ * Complex.exp (-x) ^ 2) * gen y0 ((y, x) :: L) ys 0 0 = 1 := by
  have es := gen_cons_sum y0 y x ys L
  have ed := gen_cons_diff y0 y x ys L
  have huv : Complex.exp x * Complex.exp (-x) = 1 := by
    rw [← Complex.exp_add, add_neg_cancel, Complex.exp_zero]
  rw [hB] at es ed
  generalize gen y0 ((y, x) :: L) ys 0 0 = A at *
  generalize gen y0 ((y, x) :: L) ys 1 0 = B at *
  generalize gen y L ys 0 0 = A' at *
  generalize Complex.exp (-x) = u at *
  generalize Complex.exp x = v at *
  generalize y0 / y = a at *
  have hv : v ≠ 0 := left_ne_zero_of_mul_eq_one huv
  have hu : u ≠ 0 := right_ne_zero_of_mul_eq_one huv
  have e1 : A = (1 + a) / 2 * v * A' * (1 + (1 - a) / (1 + a) * ρ * u ^ 2) := by
    have hvu : v * u ^ 2 = u := by rw [sq, ← mul_assoc, huv, one_mul]
    have : A = (1 + a) / 2 * v * A' + (1 - a) / 2 * u * ρ * A' := by
      linear_combination es / 2 + ed / 2
    rw [this]
    have e : (1 + a) / 2 * v * A' * (1 + (1 - a) / (1 + a) * ρ * u ^ 2) =
        (1 + a) / 2 * v * A' + (1 + a) / 2 * ((1 - a) / (1 + a)) * (v * u ^ 2) * ρ * A' := by ring
    rw [e, hvu]
    field_simp
  have e2 : B = (1 + a) / 2 * v * A' * ((1 - a) / (1 + a) + ρ * u ^ 2) := by
    have hvu : v * u ^ 2 = u := by rw [sq, ← mul_assoc, huv, one_mul]
    have : B = (1 - a) / 2 * v * A' + (1 + a) / 2 * u * ρ * A' := by
      linear_combination es / 2 - ed / 2
    rw [this]
    have e : (1 + a) / 2 * v * A' * ((1 - a) / (1 + a) + ρ * u ^ 2) =
        (1 + a) / 2 * ((1 - a) / (1 + a)) * v * A' + (1 + a) / 2 * (v * u ^ 2) * ρ * A' := by ring
    rw [e, hvu]
    field_simp
  have e3 : 1 + (1 - a) / (1 + a) = 2 / (1 + a) := by field_simp; ring
  generalize (1 + (1 - a) / (1 + a) * ρ * u ^ 2) = D at *
  refine ⟨?_, ?_, ?_⟩
  · rw [e1]
    exact mul_ne_zero (mul_ne_zero (mul_ne_zero (div_ne_zero h1 two_ne_zero) hv) hA) hD
  · rw [e2, e1]
    field_simp
  · rw [e1, e3]
    have : 2 / (1 + a) * τ * u / D * ((1 + a) / 2 * v * A' * D) = (v * u) * (τ * A') := by
      field_simp
    rw [this, huv, hτ, one_mul]

/-- The interface factors as Fresnel coefficients. -/
theorem adm_ratio (pol : String) (nu q : ℝ) (e0 e1 : ℂ) (hk : kz nu q e0 ≠ 0) (he : pol = "p" → e1 ≠ 0) :
    (1 + adm pol nu q e0 / adm pol nu q e1 ≠ 0 ↔ (Medium.at nu q e0).fresnelDen pol (Medium.at nu q e1) ≠ 0) ∧
    (1 - adm pol nu q e0 / adm pol nu q e1) / (1 + adm pol nu q e0 / adm pol nu q e1) =
      (Medium.at nu q e0).fresnel pol (Medium.at nu q e1) := by
  simp only [Medium.fresnel, Medium.fresnelDen, Medium.fresnelNum, adm, Medium.at]
  change (_ ↔ (if pol = "p" then e1 * kz nu q e0 + e0 * kz nu q e1 else kz nu q e0 + kz nu q e1) ≠ 0) ∧
    _ = (if pol = "p" then e1 * kz nu q e0 - e0 * kz nu q e1 else kz nu q e0 - kz nu q e1) /
      (if pol = "p" then e1 * kz nu q e0 + e0 * kz nu q e1 else kz nu q e0 + kz nu q e1)
  generalize kz nu q e0 = k0 at *
  generalize kz nu q e1 = k1 at *
  split_ifs with hp
  · have he := he hp
    have h : e0 / k0 / (e1 / k1) = (e0 * k1) / (e1 * k0) := by
      by_cases hk1 : k1 = 0
      · simp [hk1]
      · field_simp
    have hd : e1 * k0 ≠ 0 := mul_ne_zero he hk
    rw [h, show 1 + e0 * k1 / (e1 * k0) = (e1 * k0 + e0 * k1) / (e1 * k0) by field_simp,
      show 1 - e0 * k1 / (e1 * k0) = (e1 * k0 - e0 * k1) / (e1 * k0) by field_simp]
    refine ⟨?_, div_div_div_cancel_right₀ hd _ _⟩
    simp [div_eq_zero_iff, he, hk]
  · have h : 1 / k0 / (1 / k1) = k1 / k0 := by
      by_cases hk1 : k1 = 0
      · simp [hk1]
      · field_simp
    rw [h, show 1 + k1 / k0 = (k0 + k1) / k0 by field_simp, show 1 - k1 / k0 = (k0 - k1) / k0 by field_simp]
    refine ⟨?_, div_div_div_cancel_right₀ hk _ _⟩
    simp [hk]

theorem FarRegular.tail {pol : String} {nu q : ℝ} {env e sub : ℂ} {t : ℝ} {L : List (ℂ × ℝ)}
    (h : FarRegular pol nu q env ((e, t) :: L) sub) : FarRegular pol nu q e L sub :=
  ⟨⟨h.1.2 (e, t) (by simp), fun l hl => h.1.2 l (by simp [hl])⟩, fun hp =>
    ⟨fun l hl => (h.2 hp).1 l (by simp [hl]), (h.2 hp).2⟩⟩

theorem farMat_stackCoefs (pol : String) (nu q : ℝ) (env : ℂ) (L : List (ℂ × ℝ)) (sub : ℂ)
    (hr : FarRegular pol nu q env L sub) (r t : ℂ)
    (h : (Medium.at nu q env).stackCoefs pol (L.map fun l => (Medium.at nu q l.1, l.2)) (Medium.at nu q sub) =
      some (r, t)) :
    farMat pol nu q env L sub 0 0 ≠ 0 ∧
      farMat pol nu q env L sub 1 0 = r * farMat pol nu q env L sub 0 0 ∧
      t * farMat pol nu q env L sub 0 0 = 1 := by
  induction L generalizing env r t with
  | nil =>
    simp only [List.map_nil, Medium.stackCoefs] at h
    split_ifs at h with h0
    simp only [Option.some.injEq, Prod.mk.injEq] at h
    obtain ⟨rfl, rfl⟩ := h
    obtain ⟨i1, i2⟩ := adm_ratio pol nu q env sub hr.1.1 fun hp => (hr.2 hp).2
    have h1 := i1.2 h0
    rw [← i2]
    simp only [farMat, gen, TM, List.map_nil, Matrix.of_apply, Matrix.cons_val', Matrix.cons_val_zero,
      Matrix.cons_val_one, Matrix.cons_val_fin_one]
    generalize adm pol nu q env / adm pol nu q sub = a at *
    refine ⟨div_ne_zero h1 two_ne_zero, by field_simp, by field_simp; ring⟩
  | cons l L ih =>
    obtain ⟨e, s⟩ := l
    simp only [List.map_cons, Medium.stackCoefs] at h
    cases hc : (Medium.at nu q e).stackCoefs pol (L.map fun l => (Medium.at nu q l.1, l.2)) (Medium.at nu q sub) with
    | none => rw [hc] at h; simp at h
    | some p =>
      obtain ⟨ρ, τ⟩ := p
      rw [hc] at h
      simp only at h
      split_ifs at h with h0
      rw [not_or] at h0
      obtain ⟨h0, h1⟩ := h0
      simp only [Option.some.injEq, Prod.mk.injEq] at h
      obtain ⟨rfl, rfl⟩ := h
      obtain ⟨i1, i2, i3⟩ := ih e hr.tail ρ τ hc
      obtain ⟨j1, j2⟩ := adm_ratio pol nu q env e hr.1.1 fun hp => (hr.2 hp).1 (e, s) (by simp)
      have hu : Complex.exp (Complex.I * ((Medium.at nu q e).k * s)) =
          Complex.exp (-(-Complex.I * (kz nu q e * s))) := by
        rw [neg_mul, neg_neg]; rfl
      rw [hu] at h1 ⊢
      rw [← j2] at h1 ⊢
      exact gen_step (adm pol nu q env) (adm pol nu q e) (-Complex.I * (kz nu q e * s)) (adm pol nu q sub) _ ρ τ
        i1 i2 i3 (j1.2 h0) h1

/-- A layer of an integer number of half waves only changes the sign of the matrix. -/
theorem gen_half (y0 : ℂ) (L₁ L₂ : List (ℂ × ℂ)) (y x ys : ℂ) (hy : y ≠ 0) (s : ℂ) (h1 : Complex.exp x = s)
    (h2 : Complex.exp (-x) = s) : gen y0 (L₁ ++ (y, x) :: L₂) ys = s • gen y0 (L₁ ++ L₂) ys := by
  induction L₁ generalizing y0 with
  | nil =>
    have : PM x = s • 1 := by
      ext i j; fin_cases i <;> fin_cases j <;> simp [PM, h1, h2]
    rw [List.nil_append, List.nil_append, gen, this, Matrix.smul_mul, Matrix.one_mul, Matrix.mul_smul,
      ← gen_top y y0 _ _ hy]
  | cons l L₁ ih => simp only [List.cons_append, gen, ih, Matrix.mul_smul]

/-- The flux through a lossless layer is conserved. -/
theorem flux_layer_eq {k y : ℂ} (hy : y ≠ 0) (h1 : (k * y).im = 0) (h2 : (k / y).im = 0) (A B : ℂ) {t : ℝ}
    (ht : 0 ≤ t) :
    ((A + B) * star ((A - B) / y)).re =
      ((Complex.exp (-Complex.I * (k * t)) * A + Complex.exp (-(-Complex.I * (k * t))) * B) *
        star ((Complex.exp (-Complex.I * (k * t)) * A - Complex.exp (-(-Complex.I * (k * t))) * B) / y)).re := by
  refine le_antisymm (flux_layer hy h1.ge h2.ge A B ht) ?_
  have h := flux_layer (k := -k) hy (by rw [neg_mul, Complex.neg_im, h1, neg_zero])
    (by rw [neg_div, Complex.neg_im, h2, neg_zero]) (Complex.exp (-Complex.I * (k * t)) * A)
    (Complex.exp (-(-Complex.I * (k * t))) * B) ht
  have e : ∀ C : ℂ, Complex.exp (-Complex.I * (-k * t)) * (Complex.exp (-Complex.I * (k * t)) * C) = C := by
    intro C
    rw [← mul_assoc, ← Complex.exp_add, show -Complex.I * (-k * t) + -Complex.I * (k * t) = 0 by ring,
      Complex.exp_zero, one_mul]
  have e' : ∀ C : ℂ, Complex.exp (-(-Complex.I * (-k * t))) * (Complex.exp (-(-Complex.I * (k * t))) * C) = C := by
    intro C
    rw [← mul_assoc, ← Complex.exp_add, show -(-Complex.I * (-k * t)) + -(-Complex.I * (k * t)) = 0 by ring,
      Complex.exp_zero, one_mul]
  rwa [e, e'] at h

/-- The flux at the top of a lossless stack is the flux into its substrate. -/
theorem gen_flux_eq (y0 : ℂ) (L : List (ℂ × ℂ × ℝ)) (ys : ℂ)
    (hL : ∀ l ∈ L, l.1 ≠ 0 ∧ (l.2.1 * l.1).im = 0 ∧ (l.2.1 / l.1).im = 0 ∧ 0 ≤ l.2.2) :
    ∃ G : ℂ, gen y0 (L.map fun l => (l.1, -Complex.I * (l.2.1 * l.2.2))) ys 0 0 -
        gen y0 (L.map fun l => (l.1, -Complex.I * (l.2.1 * l.2.2))) ys 1 0 = y0 * G ∧
      (1 / ys).re = ((gen y0 (L.map fun l => (l.1, -Complex.I * (l.2.1 * l.2.2))) ys 0 0 +
        gen y0 (L.map fun l => (l.1, -Complex.I * (l.2.1 * l.2.2))) ys 1 0) * star G).re := by
  induction L generalizing y0 with
  | nil =>
    refine ⟨1 / ys, ?_, ?_⟩
    · simp [gen, TM]; ring
    · have : gen y0 [] ys 0 0 + gen y0 [] ys 1 0 = 1 := by simp [gen, TM]; ring
      simp only [List.map_nil]
      rw [this]
      simp
  | cons l L ih =>
    obtain ⟨y, k, t⟩ := l
    obtain ⟨hy, h1, h2, ht⟩ := hL (y, k, t) (by simp)
    simp only at hy h1 h2 ht
    obtain ⟨G', hG, hre⟩ := ih y fun l hl => hL l (by simp [hl])
    simp only [List.map_cons]
    rw [gen_cons_sum, gen_cons_diff]
    set A := gen y (L.map fun l => (l.1, -Complex.I * (l.2.1 * l.2.2))) ys 0 0
    set B := gen y (L.map fun l => (l.1, -Complex.I * (l.2.1 * l.2.2))) ys 1 0
    refine ⟨_, by rw [div_mul_eq_mul_div, mul_div_assoc], hre.trans ?_⟩
    have hG' : G' = (A - B) / y := by rw [hG]; field_simp
    rw [hG']
    exact flux_layer_eq hy h1 h2 A B ht

end Snompy
