import Verif.Lemmas.DoubleTrip

/-!
# C100: permittivities and reflection coefficients in double precision

`C128 L` is the double-precision reading of the model (`Verif/Double.lean`). The bounds are against the identity: what comes
back is compared with what was put in.
-/

namespace Snompy.Props

open Snompy

variable {L : Libm}

seal uro eta maxDouble

/-! ## C100 Round trips in double precision -/

/-- `permitivitty` of a reflection coefficient has fourteen correct digits. -/
theorem C100_permittivity (e β : ℂ) (he1 : (1 / 2) ^ 40 ≤ ‖e‖) (he2 : ‖e‖ ≤ 2 ^ 40) (hm : (1 / 2) ^ 40 ≤ ‖1 - β‖)
    (hp : (1 / 2) ^ 40 ≤ ‖1 + β‖) (hβ : ‖β‖ ≤ 10 ^ 6) :
    ∃ z : ℂ, permitivitty (⟨.fin β.re, .fin β.im⟩ : C128 L) ⟨.fin e.re, .fin e.im⟩ = ⟨.fin z.re, .fin z.im⟩ ∧
      ‖z - e * (1 + β) / (1 - β)‖ ≤ 1 / 10 ^ 14 * ‖e * (1 + β) / (1 - β)‖ := by
  obtain ⟨z, h1, h2⟩ := permitivitty_near (L := L) he1 he2 hm hp hβ
  refine ⟨z, h1, h2.trans (mul_le_mul_of_nonneg_right ?_ (norm_nonneg _))⟩
  have := uro_le
  norm_num at this ⊢
  linarith

/-- From a reflection coefficient to the permittivity and back. -/
theorem C100_beta (e β : ℂ) (he1 : (1 / 2) ^ 40 ≤ ‖e‖) (he2 : ‖e‖ ≤ 2 ^ 40) (hm : (1 / 2) ^ 40 ≤ ‖1 - β‖)
    (hp : (1 / 2) ^ 40 ≤ ‖1 + β‖) (hβ : ‖β‖ ≤ 10 ^ 6) :
    ∃ b : ℂ, reflCoefQsSingle (⟨.fin e.re, .fin e.im⟩ : C128 L)
        (permitivitty ⟨.fin β.re, .fin β.im⟩ ⟨.fin e.re, .fin e.im⟩) = ⟨.fin b.re, .fin b.im⟩ ∧
      ‖b - β‖ ≤ 2 / 10 ^ 14 * (1 + ‖β‖) ^ 2 :=
  beta_trip he1 he2 hm hp hβ

/-- From a permittivity to the reflection coefficient and back. -/
theorem C100_eps (e ε : ℂ) (he1 : (1 / 2) ^ 40 ≤ ‖e‖) (he2 : ‖e‖ ≤ 2 ^ 40) (hε1 : (1 / 2) ^ 40 ≤ ‖ε‖) (hε2 : ‖ε‖ ≤ 2 ^ 40)
    (hd : (1 / 2) ^ 200 ≤ ‖ε + e‖) (hγ : ‖ε - e‖ * (1 / ‖ε‖ + 1 / ‖e‖) ≤ 10 ^ 12) :
    ∃ z : ℂ, permitivitty (reflCoefQsSingle (⟨.fin e.re, .fin e.im⟩ : C128 L) ⟨.fin ε.re, .fin ε.im⟩)
        ⟨.fin e.re, .fin e.im⟩ = ⟨.fin z.re, .fin z.im⟩ ∧
      ‖z - ε‖ ≤ 1 / 10 ^ 14 * (1 + ‖ε - e‖ * (1 / ‖ε‖ + 1 / ‖e‖)) * ‖ε‖ :=
  eps_trip he1 he2 hε1 hε2 hd hγ

theorem norm_two_add_I : ‖(2 + Complex.I : ℂ)‖ ^ 2 = 5 := by
  rw [Complex.sq_norm, Complex.normSq_apply]
  simp
  norm_num

/-- The first half of `test_eps_beta_single_conversion_reversible`, for every environment between 0.9 and 1.1. -/
theorem C100_test_eps (e : ℝ) (h1 : 9 / 10 ≤ e) (h2 : e ≤ 11 / 10) :
    ∃ z : ℂ, permitivitty (reflCoefQsSingle (⟨.fin e, .fin 0⟩ : C128 L) ⟨.fin 2, .fin 1⟩) ⟨.fin e, .fin 0⟩ =
        ⟨.fin z.re, .fin z.im⟩ ∧ ‖z - (2 + Complex.I)‖ ≤ 1 / 10 ^ 7 * ‖(2 + Complex.I : ℂ)‖ := by
  have he : ‖(e : ℂ)‖ = e := by rw [Complex.norm_real, Real.norm_of_nonneg (by linarith)]
  have hε := norm_two_add_I
  have hε0 := norm_nonneg (2 + Complex.I : ℂ)
  have hεa : 2 ≤ ‖(2 + Complex.I : ℂ)‖ := by nlinarith
  have hεb : ‖(2 + Complex.I : ℂ)‖ ≤ 3 := by nlinarith
  have hs := norm_sub_le (2 + Complex.I : ℂ) e
  have ha := norm_sub_norm_le (2 + Complex.I : ℂ) (-e)
  rw [norm_neg, sub_neg_eq_add] at ha
  rw [he] at hs ha
  have hγ : ‖2 + Complex.I - e‖ * (1 / ‖2 + Complex.I‖ + 1 / ‖(e : ℂ)‖) ≤ 10 := by
    have k1 : 1 / ‖(2 + Complex.I : ℂ)‖ ≤ 1 / 2 := one_div_le_one_div_of_le (by norm_num) hεa
    have k2 : 1 / ‖(e : ℂ)‖ ≤ 1 / (9 / 10) := by
      rw [he]
      exact one_div_le_one_div_of_le (by norm_num) h1
    have k3 : (0 : ℝ) ≤ 1 / ‖(2 + Complex.I : ℂ)‖ + 1 / ‖(e : ℂ)‖ := by positivity
    refine (mul_le_mul (hs.trans (by linarith : _ ≤ (41 / 10 : ℝ))) (add_le_add k1 k2) k3 (by norm_num)).trans (by norm_num)
  obtain ⟨z, hz1, hz2⟩ := C100_eps (L := L) e (2 + Complex.I) (by rw [he]; norm_num; linarith) (by rw [he]; norm_num; linarith)
    (by norm_num; linarith) (by norm_num; linarith)
    ((pow_le_of_le_one (by norm_num) (by norm_num) (by norm_num)).trans (by linarith : (1 / 2 : ℝ) ≤ _)) (by norm_num at hγ ⊢; linarith)
  refine ⟨z, ?_, hz2.trans (mul_le_mul_of_nonneg_right ?_ hε0)⟩
  · rw [← hz1]
    simp
  · norm_num at hγ ⊢
    linarith

/-- The second half. -/
theorem C100_test_beta (e : ℝ) (h1 : 9 / 10 ≤ e) (h2 : e ≤ 11 / 10) :
    ∃ b : ℂ, reflCoefQsSingle (⟨.fin e, .fin 0⟩ : C128 L) (permitivitty ⟨.fin (1 / 2), .fin (1 / 2)⟩ ⟨.fin e, .fin 0⟩) =
        ⟨.fin b.re, .fin b.im⟩ ∧ ‖b - (1 + Complex.I) / 2‖ ≤ 1 / 10 ^ 7 * ‖((1 + Complex.I) / 2 : ℂ)‖ := by
  have he : ‖(e : ℂ)‖ = e := by rw [Complex.norm_real, Real.norm_of_nonneg (by linarith)]
  have hβ : ‖((1 + Complex.I) / 2 : ℂ)‖ ^ 2 = 1 / 2 := by
    rw [Complex.sq_norm, Complex.normSq_apply]
    simp
    norm_num
  have hβ0 := norm_nonneg ((1 + Complex.I) / 2 : ℂ)
  have hβa : 1 / 2 ≤ ‖((1 + Complex.I) / 2 : ℂ)‖ := by nlinarith
  have hβb : ‖((1 + Complex.I) / 2 : ℂ)‖ ≤ 3 / 4 := by nlinarith
  have hm := norm_sub_norm_le (1 : ℂ) ((1 + Complex.I) / 2)
  have hp := norm_sub_norm_le (1 : ℂ) (-((1 + Complex.I) / 2))
  rw [norm_neg, sub_neg_eq_add] at hp
  rw [norm_one] at hm hp
  obtain ⟨b, hb1, hb2⟩ := C100_beta (L := L) e ((1 + Complex.I) / 2) (by rw [he]; norm_num; linarith)
    (by rw [he]; norm_num; linarith) ((by norm_num : (1 / 2 : ℝ) ^ 40 ≤ 1 / 4).trans (by linarith))
    ((by norm_num : (1 / 2 : ℝ) ^ 40 ≤ 1 / 4).trans (by linarith)) (hβb.trans (by norm_num))
  refine ⟨b, ?_, hb2.trans ?_⟩
  · rw [← hb1]
    simp
  · nlinarith

/-- A silicon-like permittivity in air. -/
example := C100_eps (L := Libm.exact) 1 12 (by rw [norm_one]; norm_num) (by rw [norm_one]; norm_num)
  (by rw [Complex.norm_ofNat]; norm_num) (by rw [Complex.norm_ofNat]; norm_num)
  (by rw [show (12 + 1 : ℂ) = 13 by norm_num, Complex.norm_ofNat]; norm_num)
  (by rw [show (12 - 1 : ℂ) = 11 by norm_num, Complex.norm_ofNat, Complex.norm_ofNat, norm_one]; norm_num)

/-- `β = 2`, that of a plasmonic sample of permittivity `-3`. -/
example := C100_beta (L := Libm.exact) 1 2 (by rw [norm_one]; norm_num) (by rw [norm_one]; norm_num)
  (by rw [show (1 - 2 : ℂ) = -1 by norm_num, norm_neg, norm_one]; norm_num)
  (by rw [show (1 + 2 : ℂ) = 3 by norm_num, Complex.norm_ofNat]; norm_num) (by rw [Complex.norm_ofNat]; norm_num)

example := C100_permittivity (L := Libm.exact) 1 2 (by rw [norm_one]; norm_num) (by rw [norm_one]; norm_num)
  (by rw [show (1 - 2 : ℂ) = -1 by norm_num, norm_neg, norm_one]; norm_num)
  (by rw [show (1 + 2 : ℂ) = 3 by norm_num, Complex.norm_ofNat]; norm_num) (by rw [Complex.norm_ofNat]; norm_num)

example := C100_test_eps (L := Libm.exact) 1 (by norm_num) (by norm_num)
example := C100_test_beta (L := Libm.exact) 1 (by norm_num) (by norm_num)

end Snompy.Props
