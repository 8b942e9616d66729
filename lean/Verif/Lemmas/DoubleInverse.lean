import Verif.Lemmas.DoubleTrip
import Verif.Lemmas.DoublePol
import Verif.Lemmas.DoubleFdmPol

/-!
# Rounding errors of `refl_coef_qs_from_eff_pol`
-/

namespace Snompy

variable {L : Libm}

seal uro eta maxDouble

/-! ## Point dipole model -/

theorem Pdm.inv_arith {u β A x y q : ℝ} (hu : 0 ≤ u) (hu' : u ≤ 1 / 10 ^ 15) (hβ : 0 ≤ β) (hA : 0 ≤ A) (hy : 0 ≤ y)
    (hx : x ≤ 100 * u * A + 2 * u * (β + 100 * u * A) + y) (hy' : y ≤ 1 / 10 * q) :
    (102 / 100 * (606 * u) + 66 * u) * (β + x) + q + x ≤ 700 * u * β + 102 * u * A + 2 * q := by
  have a1 := mul_nonneg hu hβ
  have a2 := mul_nonneg hu hA
  have a3 : u * (u * A) ≤ 1 / 10 ^ 15 * (u * A) := mul_le_mul_of_nonneg_right hu' a2
  have a4 : u * (u * β) ≤ 1 / 10 ^ 15 * (u * β) := mul_le_mul_of_nonneg_right hu' a1
  have a5 : u * y ≤ 1 / 10 ^ 15 * y := mul_le_mul_of_nonneg_right hu' hy
  have a6 : u * (u * (u * A)) ≤ 1 / 10 ^ 15 * (u * (u * A)) := mul_le_mul_of_nonneg_right hu' (by positivity)
  have h1 := mul_le_mul_of_nonneg_left hx (by positivity : 0 ≤ 102 / 100 * (606 * u) + 66 * u + 1)
  linarith

/-- Numerator, product and quotient of the inverse. -/
theorem Pdm.inv_quot {a α fh f w : ℂ} (ha : ‖a - α‖ ≤ 100 * uro * ‖α‖) (hf : ‖fh - f‖ ≤ 600 * uro * ‖f‖)
    (hα2 : ‖α‖ ≤ 2 ^ 300) (hw1 : (1 / 2) ^ 200 ≤ ‖w‖) (hw2 : ‖w‖ ≤ 2 ^ 400) (hf1 : (1 / 2) ^ 100 ≤ ‖f‖) (hf2 : ‖f‖ ≤ 2 ^ 100) :
    ∃ b, ((C128.mk' L w - C128.mk' L a) / (C128.mk' L fh * C128.mk' L w) : C128 L) = C128.mk' L b ∧
      ‖b - (w - α) / (f * w)‖ ≤ 700 * uro * ‖(w - α) / (f * w)‖ + 102 * uro * (‖α‖ / ‖f * w‖) + 2 * uro ^ 3 := by
  have hu := uro_pos
  have hu' := uro_lt
  have hwp : 0 < ‖w‖ := lt_of_lt_of_le (by positivity) hw1
  have hfp : 0 < ‖f‖ := lt_of_lt_of_le (by positivity) hf1
  have hQ1 : (1 / 2) ^ 300 ≤ ‖f * w‖ := by
    rw [norm_mul, show 300 = 100 + 200 from rfl, pow_add]
    exact mul_le_mul hf1 hw1 (by positivity) hfp.le
  have hQ2 : ‖f * w‖ ≤ 2 ^ 500 := by
    rw [norm_mul, show 500 = 100 + 400 from rfl, pow_add]
    exact mul_le_mul hf2 hw2 hwp.le (by positivity)
  have hsQ : Sized ‖f * w‖ := sized_of (a := 300) (b := 500) (by norm_num) (by norm_num) hQ1 hQ2
  have hQp := hsQ.pos
  have hQe := hsQ.eta_le
  have hQm := hsQ.le_max
  have hN : ‖w - α‖ ≤ 2 ^ 401 := by
    refine (norm_sub_le _ _).trans ((add_le_add hw2 (hα2.trans (pow_le_pow_right₀ one_le_two (show 300 ≤ 400 by norm_num)))).trans_eq ?_)
    rw [pow_succ _ 400, mul_two]
  have hA2 : ‖α‖ ≤ 2 ^ 401 := hα2.trans (pow_le_pow_right₀ one_le_two (by norm_num))
  have hS : Sized ((2 : ℝ) ^ 401) := sized_of (a := 0) (b := 401) (by norm_num) (by norm_num)
    (by rw [pow_zero]; exact one_le_pow₀ one_le_two) le_rfl
  have hSm := hS.le_max
  have hR : Sized ((2 : ℝ) ^ (402 + 300)) := sized_of (a := 0) (b := 702) (by norm_num) (by norm_num)
    (by rw [pow_zero]; exact one_le_pow₀ one_le_two) le_rfl
  have hRm := hR.le_max
  have hY1 : (1 : ℝ) ≤ 2 ^ (402 + 300) := one_le_pow₀ one_le_two
  have h402 : (2 : ℝ) ^ 402 = 2 * 2 ^ 401 := by rw [pow_succ]; ring
  have hr : ∀ x : ℝ, x ≤ 2 * 2 ^ 401 → x / ‖f * w‖ ≤ 2 ^ (402 + 300) := fun x hx => ratio_le (by rw [h402]; exact hx) hQ1
  have hee : eta ≤ uro ^ 3 / 100 * ‖f * w‖ := by
    refine eta_tiny.trans ?_
    have h1 : (1 / 2 : ℝ) ^ 400 ≤ 1 / 100 * (1 / 2) ^ 300 := by
      rw [show 400 = 100 + 300 from rfl, pow_add]
      refine mul_le_mul_of_nonneg_right ?_ (by positivity)
      exact (pow_le_pow_of_le_one (by norm_num) (by norm_num) (show 7 ≤ 100 by norm_num)).trans (by norm_num)
    have h2 : (1 / 2 : ℝ) ^ 400 ≤ 1 / 100 * ‖f * w‖ := h1.trans (mul_le_mul_of_nonneg_left hQ1 (by norm_num))
    exact (mul_le_mul_of_nonneg_left h2 (pow_pos hu 3).le).trans_eq (by ring)
  generalize (2 : ℝ) ^ 401 = Z at *
  generalize (2 : ℝ) ^ (402 + 300) = Y at *
  clear hw1 hw2 hf1 hf2 hα2 hQ1 hQ2 h402
  have hA := norm_nonneg α
  have huA : uro * ‖α‖ ≤ 1 / 10 ^ 15 * ‖α‖ := mul_le_mul_of_nonneg_right hu'.le hA
  have hNn := norm_nonneg (w - α)
  have hwa : ‖w - a‖ ≤ ‖w - α‖ + 100 * uro * ‖α‖ := by
    have := norm_sub_le (w - α) (a - α)
    rw [show w - α - (a - α) = w - a by ring] at this
    linarith
  obtain ⟨n, hne, en⟩ := C128.sub_rel (L := L) (v := w) (w := a) (by linarith)
  have hfn : ‖fh‖ ≤ 11 / 10 * ‖f‖ := by
    have := norm_sub_norm_le fh f
    have := mul_le_mul_of_nonneg_right hu'.le hfp.le
    linarith
  have hfw : ‖fh‖ * ‖w‖ ≤ 11 / 10 * ‖f * w‖ := by
    rw [norm_mul]
    have := mul_le_mul_of_nonneg_right hfn hwp.le
    linarith
  obtain ⟨q, hqe, eq⟩ := C128.mul_err (L := L) (v := fh) (w := w) (by linarith)
  have huQ := mul_pos hu hQp
  have eq' : ‖q - f * w‖ ≤ 606 * uro * ‖f * w‖ := by
    have h1 := norm_sub_le_norm_sub_add_norm_sub q (fh * w) (f * w)
    have h2 : ‖fh * w - f * w‖ ≤ 600 * uro * ‖f * w‖ := by
      rw [← sub_mul, norm_mul, norm_mul]
      have := mul_le_mul_of_nonneg_right hf hwp.le
      linarith
    have h3 := mul_le_mul_of_nonneg_left hfw hu.le
    linarith
  have en' : ‖n - (w - α)‖ ≤ 100 * uro * ‖α‖ + 2 * uro * (‖w - α‖ + 100 * uro * ‖α‖) + 2 * eta := by
    have h1 := norm_add_le (n - (w - a)) (α - a)
    rw [show n - (w - a) + (α - a) = n - (w - α) by ring, norm_sub_rev α a] at h1
    have h2 := mul_le_mul_of_nonneg_left hwa hu.le
    linarith
  have he1 : eta ≤ 1 / 1000 := by have := eta_lt; linarith
  have huN : uro * ‖w - α‖ ≤ 1 / 10 ^ 15 * ‖w - α‖ := mul_le_mul_of_nonneg_right hu'.le hNn
  have hmm := F64.one_le_max
  have hnn : ‖n‖ ≤ 11 / 10 * (‖w - α‖) + 1 / 10 * ‖α‖ + 2 * eta := by
    have h1 := norm_sub_norm_le n (w - α)
    have h2 : uro * (uro * ‖α‖) ≤ 1 * (uro * ‖α‖) := mul_le_mul_of_nonneg_right (by linarith) (by positivity)
    linarith
  have hu30 : 0 ≤ uro ^ 3 := by positivity
  have hu3 := uro3_tiny
  have hnq : ‖n‖ / ‖f * w‖ * 8 ≤ maxDouble := by
    have k1 := hr (11 / 10 * (‖w - α‖) + 1 / 10 * ‖α‖) (by linarith)
    have k2 : 2 * eta / ‖f * w‖ ≤ 1 := by
      rw [div_le_one hQp]
      have : uro ^ 3 / 100 * ‖f * w‖ ≤ 1 / 100 * ‖f * w‖ := mul_le_mul_of_nonneg_right (by linarith) hQp.le
      linarith
    have k3 := div_le_div_of_nonneg_right hnn hQp.le
    rw [add_div] at k3
    linarith
  obtain ⟨b, hb, eb⟩ := C128.div_num (L := L) (x := n) (y := q) (w := f * w) (by positivity) (by linarith) eq' (by linarith) hsQ hnq
  refine ⟨b, by rw [hne, hqe, hb], ?_⟩
  have h1 := norm_sub_le_norm_sub_add_norm_sub b (n / (f * w)) ((w - α) / (f * w))
  have hx : ‖n / (f * w) - (w - α) / (f * w)‖ ≤ 100 * uro * (‖α‖ / ‖f * w‖) +
      2 * uro * (‖(w - α) / (f * w)‖ + 100 * uro * (‖α‖ / ‖f * w‖)) + 2 * eta / ‖f * w‖ := by
    rw [← sub_div, norm_div, norm_div]
    refine (div_le_div_of_nonneg_right en' hQp.le).trans_eq (by ring)
  have hy : 2 * eta / ‖f * w‖ ≤ 1 / 10 * uro ^ 3 := by
    rw [div_le_iff₀ hQp]
    have : 0 ≤ uro ^ 3 * ‖f * w‖ := by positivity
    linarith
  have h2 : ‖n / (f * w)‖ ≤ ‖(w - α) / (f * w)‖ + ‖n / (f * w) - (w - α) / (f * w)‖ := by
    have := norm_sub_norm_le (n / (f * w)) ((w - α) / (f * w))
    linarith
  have h3 := mul_le_mul_of_nonneg_left h2 (by positivity : 0 ≤ 102 / 100 * (606 * uro) + 66 * uro)
  have h4 := Pdm.inv_arith hu.le hu'.le (norm_nonneg ((w - α) / (f * w))) (by positivity : 0 ≤ ‖α‖ / ‖f * w‖)
    (by have := eta_pos; positivity) hx hy
  linarith

/-- The inverse of the point dipole model. -/
theorem Pdm.inverse_near (cfg : Env) {a : PdmArgs (F64 L) (C128 L)} {rT zT : F64 L}
    {αh : C128 L} {r x ks ka : ℝ} {α w : ℂ} (ha : cfg.defaults.pdm a = .ok (rT, αh))
    (hs : (rT + zT).Near (r + x) ks) (hα : αh.Near α ka) (hs1 : (1 / 2) ^ 100 ≤ r + x) (hs2 : r + x ≤ 2 ^ 100)
    (hα2 : ‖α‖ ≤ 2 ^ 300) (hks0 : 0 ≤ ks) (hks : ks ≤ 140) (hka0 : 0 ≤ ka) (hka : ka ≤ 100)
    (hw1 : (1 / 2) ^ 200 ≤ ‖w‖) (hw2 : ‖w‖ ≤ 2 ^ 400) (hf1 : (1 / 2) ^ 100 ≤ ‖Pdm.geom x r α‖) (hf2 : ‖Pdm.geom x r α‖ ≤ 2 ^ 100) :
    ∃ b, Pdm.reflCoefQsFromEffPol cfg (C128.mk' L w) (some zT) a = .ok (C128.mk' L b) ∧
      ‖b - (w - α) / (Pdm.geom x r α * w)‖ ≤ 700 * uro * ‖(w - α) / (Pdm.geom x r α * w)‖ +
        102 * uro * (‖α‖ / ‖Pdm.geom x r α * w‖) + 2 * uro ^ 3 := by
  have hu := uro_pos
  obtain ⟨g, hg, eg⟩ := Pdm.geom_near (L := L) hs hα hs1 hs2 hα2 hks0 hks hka0 hka
  have hgeom : α / (16 * Real.pi * ((r + x : ℝ) : ℂ) ^ 3) = Pdm.geom x r α := by
    unfold Pdm.geom
    push_cast
    ring
  rw [hgeom] at eg
  obtain ⟨a', rfl, ha'⟩ := hα
  have hfp : 0 < ‖Pdm.geom x r α‖ := lt_of_lt_of_le (by positivity) hf1
  have h3 : uro ^ 3 ≤ uro * ‖Pdm.geom x r α‖ := by
    rw [uro3_eq]
    exact mul_le_mul_of_nonneg_left ((pow_le_pow_of_le_one (by norm_num) (by norm_num) (by norm_num)).trans hf1) hu.le
  obtain ⟨b, hb, eb⟩ := Pdm.inv_quot (L := L) (a := a') (α := α) (fh := g) (f := Pdm.geom x r α) (w := w)
    (ha'.trans (mul_le_mul_of_nonneg_right (mul_le_mul_of_nonneg_right hka hu.le) (norm_nonneg _)))
    (eg.trans (by
      have h4 := mul_le_mul_of_nonneg_right (by linarith : ka + 3 * ks + 74 + 1 ≤ 600) (mul_pos hu hfp).le
      linarith)) hα2 hw1 hw2 hf1 hf2
  refine ⟨b, ?_, eb⟩
  unfold Pdm.reflCoefQsFromEffPol
  rw [ha, PyM.ok_bind]
  simp only [Option.getD_some, hg, hb]
  rfl

/-- Inverting a polarisability which is only nearly right. -/
theorem Pdm.inverse_lip {α f β w v : ℂ} {θ : ℝ} (hf : f ≠ 0) (hα : α ≠ 0) (h0 : 1 - f * β ≠ 0) (hv : v = α / (1 - f * β))
    (hθ0 : 0 ≤ θ) (hθ : θ ≤ 1 / 100) (hw : ‖w - v‖ ≤ θ * ‖v‖) :
    ‖(w - α) / (f * w) - β‖ ≤ 102 / 100 * θ * (‖1 - f * β‖ / ‖f‖) ∧ ‖α‖ / ‖f * w‖ ≤ 102 / 100 * (‖1 - f * β‖ / ‖f‖) ∧
      99 / 100 * ‖v‖ ≤ ‖w‖ ∧ ‖w‖ ≤ 101 / 100 * ‖v‖ := by
  have hv0 : v ≠ 0 := by
    rw [hv]
    exact div_ne_zero hα h0
  have hvp : 0 < ‖v‖ := norm_pos_iff.2 hv0
  have hfp : 0 < ‖f‖ := norm_pos_iff.2 hf
  have hθv := mul_le_mul_of_nonneg_right hθ hvp.le
  have hw1 : 99 / 100 * ‖v‖ ≤ ‖w‖ := by
    have := norm_sub_norm_le v w
    rw [norm_sub_rev] at this
    linarith
  have hw2 : ‖w‖ ≤ 101 / 100 * ‖v‖ := by
    have := norm_sub_norm_le w v
    linarith
  have hwp : 0 < ‖w‖ := by linarith
  have hw0 : w ≠ 0 := norm_pos_iff.1 hwp
  have hαv : α = v * (1 - f * β) := by
    rw [hv, div_mul_cancel₀ _ h0]
  have hρ := norm_nonneg (1 - f * β)
  refine ⟨?_, ?_, hw1, hw2⟩
  · have e : (w - α) / (f * w) - β = (1 - f * β) / f * ((w - v) / w) := by
      rw [hαv]
      field_simp
      ring
    rw [e, norm_mul, norm_div, norm_div]
    have : ‖w - v‖ / ‖w‖ ≤ 102 / 100 * θ := by
      rw [div_le_iff₀ hwp]
      have := mul_le_mul_of_nonneg_left hw1 hθ0
      nlinarith
    have := mul_le_mul_of_nonneg_left this (div_nonneg hρ hfp.le)
    linarith
  · rw [hαv, norm_mul, norm_mul, div_le_iff₀ (by positivity)]
    have e : 102 / 100 * (‖1 - f * β‖ / ‖f‖) * (‖f‖ * ‖w‖) = 102 / 100 * (‖1 - f * β‖ * ‖w‖) := by
      field_simp
    rw [e]
    have := mul_le_mul_of_nonneg_left hw1 hρ
    nlinarith [mul_nonneg hρ hvp.le]

theorem Pdm.trip_arith {u F B b A θ ρ X e1 e2 e3 : ℝ} (hu : 0 ≤ u) (hu' : u ≤ 1111 / 10 ^ 19) (hF : 0 < F) (hB : 1 ≤ B)
    (hb : b ≤ B) (hX : X = 1 / F + B ^ 2) (hθ : θ * ρ ≤ 21 / 10 ^ 14 * (1 + F * B ^ 2))
    (hρ : ρ ≤ 1 + F * B ^ 2) (hA : A ≤ 102 / 100 * (ρ / F)) (h1 : e1 ≤ 102 / 100 * θ * (ρ / F))
    (h2 : e2 ≤ 700 * u * (b + e1) + 102 * u * A + 2 * e3) (h3 : e3 ≤ 1 / 10 ^ 20) :
    e2 + e1 ≤ 4 / 10 ^ 13 * X := by
  have hXF : X = (1 + F * B ^ 2) / F := by
    rw [hX]
    field_simp
  have k1 : θ * (ρ / F) ≤ 21 / 10 ^ 14 * X := by
    rw [hXF, ← mul_div_assoc, ← mul_div_assoc]
    exact div_le_div_of_nonneg_right hθ hF.le
  have k2 : ρ / F ≤ X := by
    rw [hXF]
    exact div_le_div_of_nonneg_right hρ hF.le
  have hF1 : 0 < 1 / F := by positivity
  have hXB : B ≤ X := by nlinarith
  have k3 : e1 ≤ 22 / 10 ^ 14 * X := by linarith
  have k4 : b + e1 ≤ 101 / 100 * X := by linarith
  have k5 := mul_le_mul_of_nonneg_left k4 hu
  have k6 := mul_le_mul_of_nonneg_left (hA.trans (mul_le_mul_of_nonneg_left k2 (by norm_num))) hu
  have hX0 : 0 ≤ X := by linarith
  have k7 := mul_le_mul_of_nonneg_right hu' hX0
  linarith

/-- From a reflection coefficient to the polarisability and back. -/
theorem Pdm.trip (cfg : Env) {S : Stack (F64 L) (C128 L)} {a : PdmArgs (F64 L) (C128 L)} {rT zT : F64 L}
    {αh : C128 L} {r x ks ka : ℝ} {α b β : ℂ} (ha : cfg.defaults.pdm a = .ok (rT, αh))
    (hb : S.reflCoefQs = .ok (C128.mk' L b)) (hbe : ‖b - β‖ ≤ 1 / 10 ^ 13 * (1 + ‖β‖) ^ 2) (hβ : 1 + ‖β‖ ≤ 10 ^ 12)
    (hs : (rT + zT).Near (r + x) ks) (hα : αh.Near α ka) (hs1 : (1 / 2) ^ 100 ≤ r + x) (hs2 : r + x ≤ 2 ^ 100)
    (hα1 : (1 / 2) ^ 100 ≤ ‖α‖) (hα2 : ‖α‖ ≤ 2 ^ 300) (hks0 : 0 ≤ ks) (hks : ks ≤ 140) (hka0 : 0 ≤ ka) (hka : ka ≤ 100)
    (hf1 : (1 / 2) ^ 100 ≤ ‖Pdm.geom x r α‖) (hf2 : ‖Pdm.geom x r α‖ ≤ 2 ^ 10)
    (h0 : 1 - Pdm.geom x r α * β ≠ 0) (hκ : Pdm.condition x r α β ≤ 10 ^ 10) :
    ∃ w c, Pdm.effPol cfg S (some zT) a = .ok (C128.mk' L w) ∧
      Pdm.reflCoefQsFromEffPol cfg (C128.mk' L w) (some zT) a = .ok (C128.mk' L c) ∧
      ‖c - β‖ ≤ 4 / 10 ^ 13 * (1 / ‖Pdm.geom x r α‖ + (1 + ‖β‖) ^ 2) := by
  have hu := uro_pos
  obtain ⟨w, hw, ew⟩ := Pdm.effPol_near (L := L) cfg ha hb hbe hβ hs hα hs1 hs2 hα2 hks0 hks hka0 hka h0 hκ
  have hαp : 0 < ‖α‖ := lt_of_lt_of_le (by positivity) hα1
  have hfp : 0 < ‖Pdm.geom x r α‖ := lt_of_lt_of_le (by positivity) hf1
  have hρ0 : 0 < ‖1 - Pdm.geom x r α * β‖ := norm_pos_iff.2 h0
  have hβ0 := norm_nonneg β
  have hρ1 : ‖1 - Pdm.geom x r α * β‖ ≤ 1 + ‖Pdm.geom x r α‖ * (1 + ‖β‖) := by
    refine (norm_sub_le _ _).trans ?_
    rw [norm_one, norm_mul]
    have := mul_nonneg hfp.le hβ0
    linarith
  have hvn : ‖α / (1 - Pdm.geom x r α * β)‖ = ‖α‖ / ‖1 - Pdm.geom x r α * β‖ := norm_div _ _
  have hvp : 0 < ‖α / (1 - Pdm.geom x r α * β)‖ := by rw [hvn]; positivity
  have hκ1 := (Pdm.one_le_condition h0).1.trans hκ
  have hκρ : Pdm.condition x r α β * ‖1 - Pdm.geom x r α * β‖ = 1 + ‖Pdm.geom x r α‖ * (1 + ‖β‖) ^ 2 := by
    unfold Pdm.condition
    rw [div_mul_cancel₀ _ hρ0.ne']
  have hκ0 : 0 ≤ Pdm.condition x r α β := by
    unfold Pdm.condition
    positivity
  have hρ2 : ‖1 - Pdm.geom x r α * β‖ ≤ 2 ^ 60 := by
    have h1 := mul_le_mul hf2 hβ (by positivity) (by positivity)
    norm_num at h1 ⊢
    linarith
  -- the size of the absolute error
  have hu3 : uro ^ 3 ≤ 2 / 10 ^ 18 * ‖1 - Pdm.geom x r α * β‖ * ‖α / (1 - Pdm.geom x r α * β)‖ := by
    rw [hvn, mul_assoc, mul_div_cancel₀ _ hρ0.ne', uro3_pow]
    have h1 : (1 / 2 : ℝ) ^ 159 ≤ 2 / 10 ^ 18 * (1 / 2) ^ 100 := by norm_num
    exact h1.trans (mul_le_mul_of_nonneg_left hα1 (by norm_num))
  have hθ : 2 / 10 ^ 13 * Pdm.condition x r α β + 2 / 10 ^ 18 * ‖1 - Pdm.geom x r α * β‖ ≤ 1 / 100 := by
    have h1 := mul_le_mul hf2 hβ (by positivity) (by positivity)
    norm_num at h1 hκ ⊢
    linarith
  obtain ⟨c1, c2, c3, c4⟩ := Pdm.inverse_lip (θ := 2 / 10 ^ 13 * Pdm.condition x r α β + 2 / 10 ^ 18 * ‖1 - Pdm.geom x r α * β‖)
    (norm_pos_iff.1 hfp) (norm_pos_iff.1 hαp) h0 rfl (by positivity) hθ (w := w) (by linarith)
  have hv1 : (1 / 2 : ℝ) ^ (100 + 60) ≤ ‖α / (1 - Pdm.geom x r α * β)‖ := by
    rw [hvn]
    exact ratio_ge hα1 hρ2 hρ0
  have hv2 : ‖α / (1 - Pdm.geom x r α * β)‖ ≤ 2 ^ (300 + 40) := by
    rw [hvn]
    refine ratio_le hα2 ?_
    rw [div_le_iff₀ hρ0] at hκ1
    norm_num at hκ1 ⊢
    linarith
  have l200 : (1 / 2 : ℝ) ^ 200 ≤ 99 / 100 * (1 / 2) ^ (100 + 60) := by
    rw [show 200 = 40 + (100 + 60) from rfl, pow_add]
    refine mul_le_mul_of_nonneg_right ?_ (by positivity)
    norm_num
  have h400 : 101 / 100 * (2 : ℝ) ^ (300 + 40) ≤ 2 ^ 400 := by
    rw [show 400 = 60 + (300 + 40) from rfl, pow_add (2 : ℝ) 60 (300 + 40)]
    refine mul_le_mul_of_nonneg_right ?_ (by positivity)
    norm_num
  obtain ⟨c, hc, ec⟩ := Pdm.inverse_near (L := L) cfg (w := w) ha hs hα hs1 hs2 hα2 hks0 hks hka0 hka
    (l200.trans ((mul_le_mul_of_nonneg_left hv1 (by norm_num)).trans c3))
    (c4.trans ((mul_le_mul_of_nonneg_left hv2 (by norm_num)).trans h400)) hf1
    (hf2.trans (pow_le_pow_right₀ one_le_two (by norm_num)))
  refine ⟨w, c, hw, hc, ?_⟩
  have t1 := norm_sub_le_norm_sub_add_norm_sub c ((w - α) / (Pdm.geom x r α * w)) β
  refine t1.trans ?_
  have hu3' : uro ^ 3 ≤ 1 / 10 ^ 20 := by
    rw [uro3_pow]
    norm_num
  have hbn : ‖(w - α) / (Pdm.geom x r α * w)‖ ≤ ‖β‖ + ‖(w - α) / (Pdm.geom x r α * w) - β‖ := by
    have := norm_sub_norm_le ((w - α) / (Pdm.geom x r α * w)) β
    linarith
  have ec' := ec.trans (add_le_add_left (add_le_add_left (mul_le_mul_of_nonneg_left hbn (by positivity : 0 ≤ 700 * uro)) _) _)
  refine Pdm.trip_arith hu.le uro_le hfp (by linarith : 1 ≤ 1 + ‖β‖) (by linarith : ‖β‖ ≤ 1 + ‖β‖) rfl ?_ ?_ c2 c1 ec' hu3'
  · rw [add_mul, mul_assoc, hκρ]
    have h1 : ‖1 - Pdm.geom x r α * β‖ * ‖1 - Pdm.geom x r α * β‖ ≤ 2048 * (1 + ‖Pdm.geom x r α‖ * (1 + ‖β‖) ^ 2) := by
      have k1 := mul_le_mul hρ1 hρ1 hρ0.le (by positivity)
      have k2 : ‖Pdm.geom x r α‖ * (‖Pdm.geom x r α‖ * (1 + ‖β‖) ^ 2) ≤ 2 ^ 10 * (‖Pdm.geom x r α‖ * (1 + ‖β‖) ^ 2) :=
        mul_le_mul_of_nonneg_right hf2 (by positivity)
      nlinarith [sq_nonneg (1 - ‖Pdm.geom x r α‖ * (1 + ‖β‖))]
    have h2 : 0 ≤ ‖Pdm.geom x r α‖ * (1 + ‖β‖) ^ 2 := by positivity
    linarith
  · refine hρ1.trans ?_
    have : ‖Pdm.geom x r α‖ * (1 + ‖β‖) ≤ ‖Pdm.geom x r α‖ * (1 + ‖β‖) ^ 2 :=
      mul_le_mul_of_nonneg_left (by nlinarith) hfp.le
    linarith

/-! ## Finite dipole model -/

theorem Fdm.inv_arith {u K β c e x : ℝ} (hu : 0 ≤ u) (hu' : u ≤ 1 / 10 ^ 15) (hK : 1 / 2 ≤ K) (huK : u * K ≤ 1 / 1000)
    (hβ : 0 ≤ β) (hc : 0 ≤ c) (hx : x ≤ 13 / 2 * u * β + 1 / 10 * c)
    (he : e ≤ (102 / 100 * (4600 * u * K) + 66 * u) * (β + (13 / 2 * u * β + 1 / 10 * c)) + c) :
    e + x ≤ 5000 * u * K * β + 2 * c := by
  have hK0 : 0 ≤ u * K := mul_nonneg hu (by linarith)
  have h4 : u * (u * K * β) ≤ 1 / 10 ^ 15 * (u * K * β) := mul_le_mul_of_nonneg_right hu' (mul_nonneg hK0 hβ)
  have h5 : u * K * c ≤ 1 / 1000 * c := mul_le_mul_of_nonneg_right huK hc
  have h6 : 1 / 2 * (u * β) ≤ K * (u * β) := mul_le_mul_of_nonneg_right hK (mul_nonneg hu hβ)
  have h7 := mul_nonneg hK0 hβ
  have h8 : u * (u * β) ≤ 1 / 10 ^ 15 * (u * β) := mul_le_mul_of_nonneg_right hu' (mul_nonneg hu hβ)
  have h9 : u * c ≤ 1 / 10 ^ 15 * c := mul_le_mul_of_nonneg_right hu' hc
  linarith

/-- Numerator, denominator and quotient of the inverse. -/
theorem Fdm.inv_quot {f0 f1 G0 G1 w : ℂ} {W K : ℝ} (hf0 : ‖f0 - G0‖ ≤ 1501 * uro * W) (hf1 : ‖f1 - G1‖ ≤ 1501 * uro * W)
    (hG0 : ‖G0‖ ≤ W) (hG1 : ‖G1‖ ≤ W) (hW1 : 1 ≤ W) (hW2 : W ≤ 2 ^ 300) (hA2 : 1 + ‖w - 1‖ ≤ 2 ^ 200)
    (hD : G0 + 2 * G1 * (w - 1) ≠ 0) (hK : W * (1 + ‖w - 1‖) ≤ K * ‖G0 + 2 * G1 * (w - 1)‖) (hK2 : K ≤ 10 ^ 10) :
    ∃ b, (clit 2 * (C128.mk' L w - clit 1) / (C128.mk' L f0 + clit 2 * C128.mk' L f1 * (C128.mk' L w - clit 1)) : C128 L) =
        C128.mk' L b ∧
      ‖b - 2 * (w - 1) / (G0 + 2 * G1 * (w - 1))‖ ≤
        5000 * uro * K * ‖2 * (w - 1) / (G0 + 2 * G1 * (w - 1))‖ + 2 * uro ^ 3 := by
  have hu := uro_pos
  have hu' := uro_le
  have he0 := eta_pos
  have he := eta_lt
  have hDp : 0 < ‖G0 + 2 * G1 * (w - 1)‖ := norm_pos_iff.2 hD
  obtain ⟨Y, hY⟩ : ∃ Y, Y = W * (1 + ‖w - 1‖) := ⟨_, rfl⟩
  have hA0 := norm_nonneg (w - 1)
  have hY1 : 1 + ‖w - 1‖ ≤ Y := by rw [hY]; nlinarith
  have hWY : W ≤ Y := by rw [hY]; nlinarith
  have hY2 : Y ≤ 2 ^ 500 := by
    rw [hY, show 500 = 300 + 200 from rfl, pow_add]
    exact mul_le_mul hW2 hA2 (by positivity) (by positivity)
  have hDY : ‖G0 + 2 * G1 * (w - 1)‖ ≤ 2 * Y := by
    refine (norm_add_le _ _).trans ?_
    rw [norm_mul, norm_mul, Complex.norm_ofNat, hY]
    nlinarith [norm_nonneg G1, norm_nonneg (w - 1)]
  rw [← hY] at hK
  have hKp : 1 / 2 ≤ K := by
    by_contra hc
    have hc := not_le.1 hc
    have : K * ‖G0 + 2 * G1 * (w - 1)‖ < 1 / 2 * ‖G0 + 2 * G1 * (w - 1)‖ := mul_lt_mul_of_pos_right hc hDp
    linarith
  have hD1 : (1 / 2 : ℝ) ^ 40 ≤ ‖G0 + 2 * G1 * (w - 1)‖ := by
    have h1 : K * ‖G0 + 2 * G1 * (w - 1)‖ ≤ 10 ^ 10 * ‖G0 + 2 * G1 * (w - 1)‖ := mul_le_mul_of_nonneg_right hK2 hDp.le
    norm_num at h1 ⊢
    linarith
  have hsD : Sized ‖G0 + 2 * G1 * (w - 1)‖ := by
    refine sized_of (a := 40) (b := 501) (by norm_num) (by norm_num) hD1 (hDY.trans ?_)
    rw [pow_succ, mul_comm]
    exact mul_le_mul_of_nonneg_right hY2 (by norm_num)
  have hYm : Y * 1000 ≤ maxDouble := by
    have : Sized ((2 : ℝ) ^ 500) := sized_of (a := 0) (b := 500) (by norm_num) (by norm_num)
      (by rw [pow_zero]; exact one_le_pow₀ one_le_two) le_rfl
    exact (mul_le_mul_of_nonneg_right hY2 (by norm_num)).trans this.le_max
  have hAm : (1 + ‖w - 1‖) / ‖G0 + 2 * G1 * (w - 1)‖ * 1000 ≤ maxDouble := by
    have h1 : (1 + ‖w - 1‖) / ‖G0 + 2 * G1 * (w - 1)‖ ≤ 2 ^ (200 + 40) := ratio_le hA2 hD1
    have : Sized ((2 : ℝ) ^ (200 + 40)) := sized_of (a := 0) (b := 240) (by norm_num) (by norm_num)
      (by rw [pow_zero]; exact one_le_pow₀ one_le_two) le_rfl
    exact (mul_le_mul_of_nonneg_right h1 (by norm_num)).trans this.le_max
  clear hY2 hW2 hA2
  have huY := mul_nonneg hu.le (by linarith : 0 ≤ Y)
  have huW := mul_nonneg hu.le (by linarith : 0 ≤ W)
  have huA := mul_nonneg hu.le hA0
  have heu : eta ≤ uro / 10 ^ 6 := he.le
  -- the numerator
  obtain ⟨a, hae, ea⟩ := C128.sub_rel (L := L) (v := w) (w := 1) (by linarith)
  have huA' : uro * ‖w - 1‖ ≤ 1 / 10 ^ 15 * ‖w - 1‖ := mul_le_mul_of_nonneg_right (by linarith) hA0
  have han : ‖a‖ ≤ 101 / 100 * ‖w - 1‖ + 2 * eta := by
    have := norm_sub_norm_le a (w - 1)
    linarith
  have ha0 := norm_nonneg a
  obtain ⟨n, hne, en⟩ := C128.mul_err (L := L) (v := 2) (w := a) (by rw [Complex.norm_ofNat]; linarith)
  rw [Complex.norm_ofNat] at en
  have hue : uro * eta ≤ 1 * eta := mul_le_mul_of_nonneg_right (by linarith) he0.le
  have en' : ‖n - 2 * (w - 1)‖ ≤ 13 * uro * ‖w - 1‖ + 30 * eta := by
    have h1 := norm_sub_le_norm_sub_add_norm_sub n (2 * a) (2 * (w - 1))
    rw [← mul_sub, norm_mul, Complex.norm_ofNat] at h1
    have h2 := mul_le_mul_of_nonneg_left han hu.le
    linarith
  -- the denominator
  have hG10 := norm_nonneg G1
  have huW' : uro * W ≤ 1 / 10 ^ 15 * W := mul_le_mul_of_nonneg_right (by linarith) (by linarith)
  have hf1n : ‖f1‖ ≤ 101 / 100 * W := by
    have := norm_sub_norm_le f1 G1
    linarith
  have hf0n : ‖f0‖ ≤ 101 / 100 * W := by
    have := norm_sub_norm_le f0 G0
    linarith
  obtain ⟨p, hpe, ep⟩ := C128.mul_err (L := L) (v := 2) (w := f1) (by rw [Complex.norm_ofNat]; linarith)
  rw [Complex.norm_ofNat] at ep
  have ep' : ‖p - 2 * G1‖ ≤ 3012 * uro * W := by
    have h1 := norm_sub_le_norm_sub_add_norm_sub p (2 * f1) (2 * G1)
    rw [← mul_sub, norm_mul, Complex.norm_ofNat] at h1
    have h2 := mul_le_mul_of_nonneg_left hf1n hu.le
    have h3 : uro ≤ uro * W := le_mul_of_one_le_right hu.le hW1
    linarith
  have hpn : ‖p‖ ≤ 202 / 100 * W := by
    have h1 := norm_sub_norm_le p (2 * G1)
    rw [norm_mul, Complex.norm_ofNat] at h1
    linarith
  have han' : ‖a‖ ≤ 101 / 100 * (1 + ‖w - 1‖) := by linarith
  have hpa : ‖p‖ * ‖a‖ ≤ 205 / 100 * Y := by
    have := mul_le_mul hpn han' ha0 (by linarith)
    rw [hY]
    nlinarith
  obtain ⟨q, hqe, eq⟩ := C128.mul_err (L := L) (v := p) (w := a) (by linarith)
  have hu1 : uro ≤ uro * Y := le_mul_of_one_le_right hu.le (by linarith)
  have eq' : ‖q - 2 * G1 * (w - 1)‖ ≤ 3070 * uro * Y := by
    have h1 := norm_sub_le_norm_sub_add_norm_sub q (p * a) (2 * G1 * (w - 1))
    have h2 : ‖p * a - 2 * G1 * (w - 1)‖ ≤ ‖p - 2 * G1‖ * ‖a‖ + 2 * ‖G1‖ * ‖a - (w - 1)‖ := by
      rw [show p * a - 2 * G1 * (w - 1) = (p - 2 * G1) * a + 2 * G1 * (a - (w - 1)) by ring]
      refine (norm_add_le _ _).trans ?_
      rw [norm_mul, norm_mul, norm_mul, Complex.norm_ofNat]
    have h3 := mul_le_mul ep' han' ha0 (by positivity)
    have h3' : 3012 * uro * W * (101 / 100 * (1 + ‖w - 1‖)) = 304212 / 100 * (uro * Y) := by rw [hY]; ring
    have h4 : ‖a - (w - 1)‖ ≤ 3 * uro * (1 + ‖w - 1‖) := by linarith
    have h5 := mul_le_mul hG1 h4 (norm_nonneg _) (by linarith)
    have h5' : W * (3 * uro * (1 + ‖w - 1‖)) = 3 * (uro * Y) := by rw [hY]; ring
    have h6 := mul_le_mul_of_nonneg_left hpa hu.le
    linarith
  have hqn : ‖f0 + q‖ ≤ 4 * Y := by
    have h1 := norm_add_le (f0 - G0 + (q - 2 * G1 * (w - 1))) (G0 + 2 * G1 * (w - 1))
    rw [show f0 - G0 + (q - 2 * G1 * (w - 1)) + (G0 + 2 * G1 * (w - 1)) = f0 + q by ring] at h1
    have h2 := norm_add_le (f0 - G0) (q - 2 * G1 * (w - 1))
    have h3 : uro * Y ≤ 1 / 10 ^ 15 * Y := mul_le_mul_of_nonneg_right (by linarith) (by linarith)
    linarith
  obtain ⟨d, hde, ed⟩ := C128.add_rel (L := L) (v := f0) (w := q) (by linarith)
  have huWY := mul_le_mul_of_nonneg_left hWY hu.le
  have ed' : ‖d - (G0 + 2 * G1 * (w - 1))‖ ≤ 4600 * uro * K * ‖G0 + 2 * G1 * (w - 1)‖ := by
    have h1 := norm_add_le (d - (f0 + q)) (f0 - G0 + (q - 2 * G1 * (w - 1)))
    rw [show d - (f0 + q) + (f0 - G0 + (q - 2 * G1 * (w - 1))) = d - (G0 + 2 * G1 * (w - 1)) by ring] at h1
    have h2 := norm_add_le (f0 - G0) (q - 2 * G1 * (w - 1))
    have h3 := mul_le_mul_of_nonneg_left hqn hu.le
    have h4 := mul_le_mul_of_nonneg_left hK hu.le
    linarith
  have hEK : 4600 * uro * K ≤ 1 / 100 := by
    have := mul_le_mul hu' hK2 (by linarith) (by norm_num)
    norm_num at this ⊢
    linarith
  -- the quotient
  have hnn : ‖n‖ ≤ 3 * (1 + ‖w - 1‖) := by
    have h1 := norm_sub_norm_le n (2 * (w - 1))
    rw [norm_mul, Complex.norm_ofNat] at h1
    linarith
  obtain ⟨b, hbe, eb⟩ := C128.div_num (L := L) (x := n) (y := d) (w := G0 + 2 * G1 * (w - 1)) (by positivity) hEK ed'
    (by linarith) hsD (by
      have := div_le_div_of_nonneg_right hnn hDp.le
      rw [mul_div_assoc] at this
      have h0 : 0 ≤ (1 + ‖w - 1‖) / ‖G0 + 2 * G1 * (w - 1)‖ := by positivity
      linarith)
  refine ⟨b, ?_, ?_⟩
  · rw [C128.clit_two, C128.clit_one, hae, hne, hpe, hqe, hde, hbe]
  · have h1 := norm_sub_le_norm_sub_add_norm_sub b (n / (G0 + 2 * G1 * (w - 1))) (2 * (w - 1) / (G0 + 2 * G1 * (w - 1)))
    obtain ⟨β, hβ⟩ : ∃ β, β = ‖2 * (w - 1) / (G0 + 2 * G1 * (w - 1))‖ := ⟨_, rfl⟩
    have hβ0 : 0 ≤ β := hβ ▸ norm_nonneg _
    have hx : ‖n / (G0 + 2 * G1 * (w - 1)) - 2 * (w - 1) / (G0 + 2 * G1 * (w - 1))‖ ≤ 13 / 2 * uro * β + 1 / 10 * uro ^ 3 := by
      rw [← sub_div, norm_div, div_le_iff₀ hDp, hβ, norm_div, norm_mul, Complex.norm_ofNat]
      refine en'.trans ?_
      have k1 : 30 * eta ≤ 1 / 10 * uro ^ 3 * ‖G0 + 2 * G1 * (w - 1)‖ := by
        have j1 : 30 * ((1 / 2 : ℝ) ^ 400) ≤ 1 / 10 * (1 / 2) ^ 40 := by
          rw [show 400 = 360 + 40 from rfl, pow_add, ← mul_assoc]
          refine mul_le_mul_of_nonneg_right ?_ (by positivity)
          have : (1 / 2 : ℝ) ^ 360 ≤ (1 / 2) ^ 10 := pow_le_pow_of_le_one (by norm_num) (by norm_num) (by norm_num)
          generalize (1 / 2 : ℝ) ^ 360 = T at *
          norm_num at this ⊢
          linarith
        have j2 := mul_le_mul_of_nonneg_left eta_tiny (by norm_num : (0 : ℝ) ≤ 30)
        have j3 := mul_le_mul_of_nonneg_left j1 (pow_pos hu 3).le
        have j4 := mul_le_mul_of_nonneg_left hD1 (pow_pos hu 3).le
        generalize (1 / 2 : ℝ) ^ 400 = T at *
        linarith
      have k2 : (13 / 2 * uro * (2 * ‖w - 1‖ / ‖G0 + 2 * G1 * (w - 1)‖) + 1 / 10 * uro ^ 3) * ‖G0 + 2 * G1 * (w - 1)‖ =
          13 * uro * ‖w - 1‖ + 1 / 10 * uro ^ 3 * ‖G0 + 2 * G1 * (w - 1)‖ := by
        rw [add_mul, mul_assoc, div_mul_cancel₀ _ hDp.ne']
        ring
      rw [k2]
      linarith
    have h2 : ‖n / (G0 + 2 * G1 * (w - 1))‖ ≤ β + (13 / 2 * uro * β + 1 / 10 * uro ^ 3) := by
      have := norm_sub_norm_le (n / (G0 + 2 * G1 * (w - 1))) (2 * (w - 1) / (G0 + 2 * G1 * (w - 1)))
      rw [← hβ] at this
      linarith
    rw [← hβ]
    have hu30 : 0 ≤ uro ^ 3 := by positivity
    have h3 := mul_le_mul_of_nonneg_left h2 (by positivity : 0 ≤ 102 / 100 * (4600 * uro * K) + 66 * uro)
    exact h1.trans (Fdm.inv_arith hu.le (by linarith) hKp (by linarith) hβ0 hu30 hx (eb.trans (add_le_add_left h3 _)))

/-- The inverse of the finite dipole model. -/
theorem Fdm.inverse_near (cfg : Env) {a : FdmArgs (F64 L) (C128 L)} {zT : F64 L} {z d0 d1 r l K : ℝ} {g w : ℂ}
    (ha : Fdm.TipNear (cfg.defaults.fdm a) d0 d1 r l g) (R0 : Fdm.Range z d0 r l g) (R1 : Fdm.Range z d1 r l g)
    (hz : ∃ x, zT = .fin x ∧ |x - z| ≤ 130 * uro * (r + z)) (hA2 : 1 + ‖w - 1‖ ≤ 2 ^ 200)
    (hD : Fdm.geom z d0 r l g + 2 * Fdm.geom z d1 r l g * (w - 1) ≠ 0)
    (hK : (1 + Fdm.size z d0 r l g + Fdm.size z d1 r l g) * (1 + ‖w - 1‖) ≤
      K * ‖Fdm.geom z d0 r l g + 2 * Fdm.geom z d1 r l g * (w - 1)‖) (hK2 : K ≤ 10 ^ 10) :
    ∃ b, Fdm.reflCoefQsFromEffPol cfg (C128.mk' L w) (some zT) a = C128.mk' L b ∧
      ‖b - 2 * (w - 1) / (Fdm.geom z d0 r l g + 2 * Fdm.geom z d1 r l g * (w - 1))‖ ≤
        5000 * uro * K * ‖2 * (w - 1) / (Fdm.geom z d0 r l g + 2 * Fdm.geom z d1 r l g * (w - 1))‖ + 2 * uro ^ 3 := by
  have hu := uro_pos
  have hu3 := uro3_tiny
  obtain ⟨f0, hf0, e0, n0, m0⟩ := Fdm.geom_near (L := L) R0 ha.r ha.l ha.g hz ha.d0 (by norm_num) le_rfl
  obtain ⟨f1, hf1, e1, n1, m1⟩ := Fdm.geom_near (L := L) R1 ha.r ha.l ha.g hz ha.d1 (by norm_num) le_rfl
  have hH0 := (norm_nonneg _).trans n0
  have hH1 := (norm_nonneg _).trans n1
  have hW : 1 + Fdm.size z d0 r l g + Fdm.size z d1 r l g ≤ 2 ^ 300 := by
    have h1 : (1 : ℝ) ≤ 2 ^ 290 := one_le_pow₀ one_le_two
    rw [show 300 = 10 + 290 from rfl, pow_add]
    clear hK hA2
    generalize (2 : ℝ) ^ 290 = P at *
    norm_num
    linarith
  clear m0 m1
  obtain ⟨b, hb, eb⟩ := Fdm.inv_quot (L := L) (f0 := f0) (f1 := f1) (w := w)
    (W := 1 + Fdm.size z d0 r l g + Fdm.size z d1 r l g)
    (e0.trans (by have := mul_nonneg hu.le hH0; have := mul_nonneg hu.le hH1; linarith))
    (e1.trans (by have := mul_nonneg hu.le hH0; have := mul_nonneg hu.le hH1; linarith))
    (n0.trans (by linarith)) (n1.trans (by linarith)) (by linarith) hW hA2 hD hK hK2
  refine ⟨b, ?_, eb⟩
  unfold Fdm.reflCoefQsFromEffPol
  simp only [Option.getD_some]
  rw [hf0, hf1, hb]

/-- Inverting a polarisability which is only nearly right. -/
theorem Fdm.inverse_lip {G0 G1 β w : ℂ} {W B κ δ R : ℝ} (hG0 : ‖G0‖ ≤ W) (hG1 : ‖G1‖ ≤ W) (hW1 : 1 ≤ W)
    (hB : B = 1 + ‖β‖) (hG : G0 ≠ 0) (h0 : 1 - β * G1 ≠ 0) (hκ : κ * ‖1 - β * G1‖ = B ^ 2 * W)
    (hR : R * ‖G0‖ = B ^ 3 * W ^ 2) (hκR : κ * R ≤ 10 ^ 9)
    (hδ : δ ≤ 4 / 10 ^ 13 * κ * (1 + ‖β * G0 / (2 * (1 - β * G1))‖)) (hw : ‖w - (1 + β * G0 / (2 * (1 - β * G1)))‖ ≤ δ) :
    G0 + 2 * G1 * (w - 1) ≠ 0 ∧ 1 + ‖w - 1‖ ≤ 10 ^ 10 ∧
      ‖2 * (w - 1) / (G0 + 2 * G1 * (w - 1)) - β‖ ≤ 24 / 10 ^ 13 * R ∧
      W * (1 + ‖w - 1‖) ≤ 31 / 10 * R / B ^ 2 * ‖G0 + 2 * G1 * (w - 1)‖ ∧ R ≤ 10 ^ 9 := by
  have hβ0 := norm_nonneg β
  have hB1 : 1 ≤ B := by linarith
  have hGp : 0 < ‖G0‖ := norm_pos_iff.2 hG
  have hρ0 : 0 < ‖1 - β * G1‖ := norm_pos_iff.2 h0
  obtain ⟨ρ, hρ⟩ : ∃ ρ, ρ = ‖1 - β * G1‖ := ⟨_, rfl⟩
  have hρB : ρ ≤ B * W := by
    rw [hρ, hB]
    refine (norm_sub_le _ _).trans ?_
    rw [norm_one, norm_mul]
    have := mul_le_mul_of_nonneg_left hG1 hβ0
    linarith
  have hβG : ‖β * G0 / (2 * (1 - β * G1))‖ = ‖β‖ * ‖G0‖ / (2 * ρ) := by
    rw [norm_div, norm_mul, norm_mul, Complex.norm_ofNat, hρ]
  rw [← hρ] at hκ hρ0
  -- `‖α - 1‖`
  obtain ⟨A, hA⟩ : ∃ A, A = ‖β * G0 / (2 * (1 - β * G1))‖ := ⟨_, rfl⟩
  have hA0 : 0 ≤ A := hA ▸ norm_nonneg _
  have hAρ : A * ρ ≤ B * W / 2 := by
    have e : A * ρ = ‖β‖ * ‖G0‖ / 2 := by
      rw [hA, hβG]
      field_simp
    rw [e]
    have := mul_le_mul (by linarith : ‖β‖ ≤ B) hG0 hGp.le (by linarith)
    linarith
  have hκ0 : 0 ≤ κ := by
    by_contra hc
    have := mul_neg_of_neg_of_pos (not_le.1 hc) hρ0
    have : 0 ≤ B ^ 2 * W := by positivity
    linarith
  have hκB : B ≤ κ := by
    have h1 : B * ρ ≤ κ * ρ := by
      rw [hκ]
      have := mul_le_mul_of_nonneg_left hρB (by linarith : 0 ≤ B)
      linarith
    exact le_of_mul_le_mul_right h1 hρ0
  have hR1 : 1 ≤ R := by
    have h1 : 1 * ‖G0‖ ≤ R * ‖G0‖ := by
      rw [hR, one_mul]
      refine hG0.trans ?_
      have h2 : W ≤ W ^ 2 := by nlinarith
      have h3 : 1 ≤ B ^ 3 := one_le_pow₀ hB1
      nlinarith
    exact le_of_mul_le_mul_right h1 hGp
  have hκ9 : κ ≤ 10 ^ 9 := by nlinarith
  have hR9 : R ≤ 10 ^ 9 := by nlinarith
  have hAκ : A ≤ κ / 2 := by
    have h1 : A * ρ ≤ κ / 2 * ρ := by
      have : κ / 2 * ρ = B ^ 2 * W / 2 := by rw [← hκ]; ring
      rw [this]
      nlinarith [mul_nonneg (by linarith : 0 ≤ B) (by linarith : 0 ≤ W)]
    exact le_of_mul_le_mul_right h1 hρ0
  rw [← hA] at hδ
  -- the denominators
  have hDα : G0 + 2 * G1 * (β * G0 / (2 * (1 - β * G1))) = G0 / (1 - β * G1) := by
    obtain ⟨D, hD⟩ : ∃ D, D = 1 - β * G1 := ⟨_, rfl⟩
    have h1 : β * G1 = 1 - D := by rw [hD]; ring
    rw [← hD] at h0 ⊢
    rw [show 2 * G1 * (β * G0 / (2 * D)) = β * G1 * G0 / D by field_simp, h1]
    field_simp
    ring
  obtain ⟨h, hh⟩ : ∃ h, h = w - (1 + β * G0 / (2 * (1 - β * G1))) := ⟨_, rfl⟩
  have hw1 : w - 1 = β * G0 / (2 * (1 - β * G1)) + h := by rw [hh]; ring
  rw [← hh] at hw
  have hDw : G0 + 2 * G1 * (w - 1) = G0 / (1 - β * G1) + 2 * G1 * h := by
    rw [hw1, ← hDα]
    ring
  have hh0 := norm_nonneg h
  -- `4 W ρ δ ≤ ‖G0‖`
  have hsmall : 4 * W * (ρ * δ) ≤ ‖G0‖ := by
    have k1 : ρ * δ ≤ 4 / 10 ^ 13 * (B ^ 2 * W) * (3 / 2 * κ) := by
      have := mul_le_mul_of_nonneg_left hδ hρ0.le
      have e : ρ * (4 / 10 ^ 13 * κ * (1 + A)) = 4 / 10 ^ 13 * (B ^ 2 * W) * (1 + A) := by rw [← hκ]; ring
      rw [e] at this
      refine this.trans (mul_le_mul_of_nonneg_left (by linarith) (by positivity))
    have k2 := mul_le_mul_of_nonneg_left k1 (by linarith : 0 ≤ 4 * W)
    refine k2.trans ?_
    have k3 : B ^ 2 * W ^ 2 ≤ R * ‖G0‖ := by
      rw [hR]
      refine mul_le_mul_of_nonneg_right ?_ (by positivity)
      exact pow_le_pow_right₀ hB1 (by norm_num)
    have k4 := mul_le_mul_of_nonneg_left k3 hκ0
    have k5 := mul_le_mul_of_nonneg_right hκR hGp.le
    nlinarith
  have hDn : ‖G0‖ / (2 * ρ) ≤ ‖G0 + 2 * G1 * (w - 1)‖ := by
    rw [hDw]
    have k1 := norm_sub_norm_le (G0 / (1 - β * G1)) (-(2 * G1 * h))
    rw [norm_neg, sub_neg_eq_add, norm_div, norm_mul, norm_mul, Complex.norm_ofNat, ← hρ] at k1
    have k2 : 2 * ‖G1‖ * ‖h‖ ≤ ‖G0‖ / (2 * ρ) := by
      rw [le_div_iff₀ (by positivity)]
      have := mul_le_mul hG1 hw hh0 (by linarith)
      have := mul_le_mul_of_nonneg_left this hρ0.le
      nlinarith
    have e : ‖G0‖ / ρ = ‖G0‖ / (2 * ρ) + ‖G0‖ / (2 * ρ) := by
      field_simp
      ring
    linarith
  have hDp : 0 < ‖G0 + 2 * G1 * (w - 1)‖ := lt_of_lt_of_le (by positivity) hDn
  have hD0 : G0 + 2 * G1 * (w - 1) ≠ 0 := norm_pos_iff.1 hDp
  have hwn : ‖w - 1‖ ≤ A + δ := by
    rw [hw1, hA]
    exact (norm_add_le _ _).trans (by linarith)
  have hδ2 : δ ≤ 4 / 10 ^ 4 * (1 + A) := by
    refine hδ.trans (mul_le_mul_of_nonneg_right ?_ (by linarith))
    norm_num at hκ9 ⊢
    linarith
  refine ⟨hD0, by norm_num at hκ9 ⊢; linarith, ?_, ?_, hR9⟩
  · have e : 2 * (w - 1) / (G0 + 2 * G1 * (w - 1)) - β = 2 * (1 - β * G1) * h / (G0 + 2 * G1 * (w - 1)) := by
      rw [eq_div_iff hD0, sub_mul, div_mul_cancel₀ _ hD0, hw1]
      field_simp
      ring
    rw [e, norm_div, norm_mul, norm_mul, Complex.norm_ofNat, ← hρ, div_le_iff₀ hDp]
    have k1 : ρ * (2 * ρ * ‖h‖) ≤ 12 / 10 ^ 13 * R * ‖G0‖ := by
      have j1 := mul_le_mul_of_nonneg_left (hw.trans hδ) (by positivity : 0 ≤ 2 * ρ ^ 2)
      have e2 : 2 * ρ ^ 2 * (4 / 10 ^ 13 * κ * (1 + A)) = 8 / 10 ^ 13 * (B ^ 2 * W) * (ρ + A * ρ) := by rw [← hκ]; ring
      rw [e2] at j1
      have j2 : 8 / 10 ^ 13 * (B ^ 2 * W) * (ρ + A * ρ) ≤ 8 / 10 ^ 13 * (B ^ 2 * W) * (3 / 2 * (B * W)) :=
        mul_le_mul_of_nonneg_left (by linarith) (by positivity)
      have e3 : 12 / 10 ^ 13 * R * ‖G0‖ = 8 / 10 ^ 13 * (B ^ 2 * W) * (3 / 2 * (B * W)) := by
        rw [mul_assoc, hR]
        ring
      rw [e3]
      linarith
    have k2 : 2 * ρ * ‖h‖ ≤ 24 / 10 ^ 13 * R * (‖G0‖ / (2 * ρ)) := by
      rw [← mul_div_assoc, le_div_iff₀ (by positivity)]
      linarith
    exact k2.trans (mul_le_mul_of_nonneg_left hDn (by positivity))
  · have k1 : W * (1 + ‖w - 1‖) * (2 * ρ) ≤ 31 / 10 * R / B ^ 2 * ‖G0‖ := by
      have j1 : 1 + ‖w - 1‖ ≤ 10005 / 10000 * (1 + A) := by linarith
      have j2 : (1 + ‖w - 1‖) * ρ ≤ 10005 / 10000 * (3 / 2 * (B * W)) := by
        have := mul_le_mul_of_nonneg_right j1 hρ0.le
        nlinarith
      have j3 := mul_le_mul_of_nonneg_left j2 (by linarith : 0 ≤ 2 * W)
      have e : 31 / 10 * R / B ^ 2 * ‖G0‖ = 31 / 10 * (B * W ^ 2) := by
        have : 31 / 10 * R / B ^ 2 * ‖G0‖ = 31 / 10 * (R * ‖G0‖) / B ^ 2 := by ring
        rw [this, hR]
        field_simp
      rw [e]
      have : 0 ≤ B * W ^ 2 := by positivity
      linarith
    have k2 : W * (1 + ‖w - 1‖) ≤ 31 / 10 * R / B ^ 2 * (‖G0‖ / (2 * ρ)) := by
      rw [← mul_div_assoc, le_div_iff₀ (by positivity)]
      exact k1
    exact k2.trans (mul_le_mul_of_nonneg_left hDn (by positivity))

/-- From a reflection coefficient to the polarisability and back. -/
theorem Fdm.trip (cfg : Env) {S : Stack (F64 L) (C128 L)} (hS : S.multilayer = false)
    {a : FdmArgs (F64 L) (C128 L)} {zT : F64 L} {z d0 d1 r l : ℝ} {g b β : ℂ} (nLag : Option ℕ)
    (ha : Fdm.TipNear (cfg.defaults.fdm a) d0 d1 r l g)
    (hb : S.reflCoefQs = .ok (C128.mk' L b)) (hbe : ‖b - β‖ ≤ 1 / 10 ^ 13 * (1 + ‖β‖) ^ 2) (hβ : 1 + ‖β‖ ≤ 10 ^ 12)
    (R0 : Fdm.Range z d0 r l g) (R1 : Fdm.Range z d1 r l g)
    (hz : ∃ x, zT = .fin x ∧ |x - z| ≤ 130 * uro * (r + z)) (hG : Fdm.geom z d0 r l g ≠ 0)
    (h0 : 1 - β * Fdm.geom z d1 r l g ≠ 0)
    (hκ : Fdm.condition z d0 d1 r l g β * ((1 + ‖β‖) ^ 3 * (1 + Fdm.size z d0 r l g + Fdm.size z d1 r l g) ^ 2 /
      ‖Fdm.geom z d0 r l g‖) ≤ 10 ^ 9) :
    ∃ w c, Fdm.effPol cfg S (some zT) a nLag none = .ok (C128.mk' L w) ∧
      Fdm.reflCoefQsFromEffPol cfg (C128.mk' L w) (some zT) a = C128.mk' L c ∧
      ‖c - β‖ ≤ 5 / 10 ^ 12 * ((1 + ‖β‖) ^ 3 * (1 + Fdm.size z d0 r l g + Fdm.size z d1 r l g) ^ 2 /
        ‖Fdm.geom z d0 r l g‖) := by
  have hu := uro_pos
  have hu' := uro_le
  obtain ⟨f0, hf0, e0, n0, m0⟩ := Fdm.geom_near (L := L) R0 ha.r ha.l ha.g hz ha.d0 (by norm_num) le_rfl
  obtain ⟨f1, hf1, e1, n1, m1⟩ := Fdm.geom_near (L := L) R1 ha.r ha.l ha.g hz ha.d1 (by norm_num) le_rfl
  have hGp : 0 < ‖Fdm.geom z d0 r l g‖ := norm_pos_iff.2 hG
  have hρ0 : 0 < ‖1 - β * Fdm.geom z d1 r l g‖ := norm_pos_iff.2 h0
  have hH0 := (norm_nonneg _).trans n0
  have hH1 := (norm_nonneg _).trans n1
  clear m0 m1
  obtain ⟨W, hW⟩ : ∃ W, W = 1 + Fdm.size z d0 r l g + Fdm.size z d1 r l g := ⟨_, rfl⟩
  obtain ⟨R, hR⟩ : ∃ R, R = (1 + ‖β‖) ^ 3 * (1 + Fdm.size z d0 r l g + Fdm.size z d1 r l g) ^ 2 / ‖Fdm.geom z d0 r l g‖ := ⟨_, rfl⟩
  rw [← hR] at hκ ⊢
  have hκ1 := Fdm.one_le_condition h0 hH0 n1
  have hW1 : 1 ≤ W := by linarith
  have hβ0 := norm_nonneg β
  have hR1 : 1 ≤ R := by
    rw [hR, ← hW, one_le_div hGp]
    refine (n0.trans (by linarith : _ ≤ W)).trans ?_
    have h2 : W ≤ W ^ 2 := by nlinarith
    have h3 : 1 ≤ (1 + ‖β‖) ^ 3 := one_le_pow₀ (by linarith)
    nlinarith
  have hκ9 : Fdm.condition z d0 d1 r l g β ≤ 10 ^ 9 := by nlinarith
  obtain ⟨w, hw, ew⟩ := Fdm.effPol_near (L := L) cfg hS nLag ha hb hbe hβ R0 R1 hz h0 hκ9
  obtain ⟨c1, c2, c3, c4, c5⟩ := Fdm.inverse_lip (W := W) (B := 1 + ‖β‖) (κ := Fdm.condition z d0 d1 r l g β) (R := R)
    (G0 := Fdm.geom z d0 r l g) (G1 := Fdm.geom z d1 r l g) (β := β) (w := w) (n0.trans (by linarith)) (n1.trans (by linarith))
    hW1 rfl hG h0 (by
      unfold Fdm.condition
      rw [div_mul_cancel₀ _ hρ0.ne', hW]) (by rw [hR, div_mul_cancel₀ _ hGp.ne', hW]) hκ le_rfl (by
        rw [Fdm.pol_sub_one] at ew
        exact ew)
  have hB2 : 1 ≤ (1 + ‖β‖) ^ 2 := one_le_pow₀ (by linarith)
  have hRB : R / (1 + ‖β‖) ^ 2 ≤ R := div_le_self (by linarith) hB2
  have hK2 : 31 / 10 * R / (1 + ‖β‖) ^ 2 ≤ 10 ^ 10 := by
    rw [mul_div_assoc]
    norm_num at c5 ⊢
    linarith
  obtain ⟨c, hc, ec⟩ := Fdm.inverse_near (L := L) cfg ha R0 R1 hz
    (c2.trans ((by norm_num : (10 : ℝ) ^ 10 ≤ 2 ^ 40).trans (pow_le_pow_right₀ one_le_two (by norm_num)))) c1 (by rw [← hW]; exact c4) hK2
  refine ⟨w, c, hw, hc, ?_⟩
  have t1 := norm_sub_le_norm_sub_add_norm_sub c
    (2 * (w - 1) / (Fdm.geom z d0 r l g + 2 * Fdm.geom z d1 r l g * (w - 1))) β
  have hbn : ‖2 * (w - 1) / (Fdm.geom z d0 r l g + 2 * Fdm.geom z d1 r l g * (w - 1))‖ ≤ (1 + ‖β‖) ^ 2 := by
    have := norm_sub_norm_le (2 * (w - 1) / (Fdm.geom z d0 r l g + 2 * Fdm.geom z d1 r l g * (w - 1))) β
    have h1 : 24 / 10 ^ 13 * R ≤ 1 := by
      norm_num at c5 ⊢
      linarith
    nlinarith
  have k1 : 31 / 10 * R / (1 + ‖β‖) ^ 2 * ‖2 * (w - 1) / (Fdm.geom z d0 r l g + 2 * Fdm.geom z d1 r l g * (w - 1))‖ ≤ 31 / 10 * R := by
    refine (mul_le_mul_of_nonneg_left hbn (by positivity)).trans_eq ?_
    rw [div_mul_cancel₀ _ (by positivity)]
  have k2 := mul_le_mul_of_nonneg_left k1 (by positivity : 0 ≤ 5000 * uro)
  have k3 : 2 * uro ^ 3 ≤ 1 / 10 ^ 20 := by
    rw [uro3_pow]
    norm_num
  have k4 := mul_le_mul_of_nonneg_right hu' (by linarith : 0 ≤ R)
  linarith

end Snompy
