import Verif.Lemmas.DoubleFdmPol

/-!
# Rounding errors of `refl_coef_qs_single` and `permitivitty`
-/

namespace Snompy

variable {L : Libm}

theorem eta_tiny : eta ≤ uro ^ 3 * (1 / 2) ^ 400 := by
  unfold eta uro
  rw [← pow_mul, ← pow_add]
  exact pow_le_pow_of_le_one (by norm_num) (by norm_num) (by norm_num)

theorem uro3_eq : uro ^ 3 = uro * (1 / 2) ^ 106 := by
  unfold uro
  rw [← pow_mul, ← pow_add]

seal uro eta maxDouble

/-- The error of a sum is relative to the sum. -/
theorem C128.add_rel {v w : ℂ} (h : ‖v + w‖ * 2 ≤ maxDouble) :
    ∃ z, (C128.mk' L v + C128.mk' L w : C128 L) = C128.mk' L z ∧ ‖z - (v + w)‖ ≤ 2 * uro * ‖v + w‖ + 2 * eta := by
  have hu := uro_lt
  have hu0 := uro_pos
  have he := eta_lt
  have hmax := F64.one_le_max
  have hr := Complex.abs_re_le_norm (v + w)
  have hi := Complex.abs_im_le_norm (v + w)
  have hn := norm_nonneg (v + w)
  have key : ∀ x : ℝ, |x| ≤ ‖v + w‖ → (F64.ofReal x : F64 L) = .fin (rnd x) := fun x hx => F64.ofReal_fin (by
    have := abs_nonneg x
    rcases le_or_gt 1 (‖v + w‖) with h1 | h1 <;> nlinarith)
  refine ⟨⟨rnd (v + w).re, rnd (v + w).im⟩, ?_, ?_⟩
  · show C128.add _ _ = _
    unfold C128.add C128.mk'
    rw [F64.fin_add, F64.fin_add, ← Complex.add_re, ← Complex.add_im, key _ hr, key _ hi]
  · refine (Complex.norm_le_abs_re_add_abs_im _).trans ?_
    have h1 := rnd_err (v + w).re
    have h2 := rnd_err (v + w).im
    rw [Complex.sub_re, Complex.sub_im]
    have h3 := mul_le_mul_of_nonneg_left hr hu0.le
    have h4 := mul_le_mul_of_nonneg_left hi hu0.le
    show |rnd (v + w).re - (v + w).re| + |rnd (v + w).im - (v + w).im| ≤ _
    linarith

theorem C128.sub_rel {v w : ℂ} (h : ‖v - w‖ * 2 ≤ maxDouble) :
    ∃ z, (C128.mk' L v - C128.mk' L w : C128 L) = C128.mk' L z ∧ ‖z - (v - w)‖ ≤ 2 * uro * ‖v - w‖ + 2 * eta := by
  obtain ⟨z, h1, h2⟩ := C128.add_rel (L := L) (v := v) (w := -w) (by rwa [← sub_eq_add_neg])
  rw [← sub_eq_add_neg] at h2
  exact ⟨z, h1, h2⟩

/-- Quotient whose numerator is exact and whose denominator is known up to a relative error. -/
theorem C128.div_num {x y w : ℂ} {ε : ℝ} (hε0 : 0 ≤ ε) (hε : ε ≤ 1 / 100) (hy : ‖y - w‖ ≤ ε * ‖w‖)
    (hv : ‖x‖ * 8 ≤ maxDouble) (hws : Sized ‖w‖) (hs : ‖x‖ / ‖w‖ * 8 ≤ maxDouble) :
    ∃ z, (C128.mk' L x / C128.mk' L y : C128 L) = C128.mk' L z ∧
      ‖z - x / w‖ ≤ (102 / 100 * ε + 66 * uro) * ‖x / w‖ + uro ^ 3 := by
  obtain ⟨z, h1, h2⟩ := C128.div_near (L := L) (x := x) (y := y) (v := x) (w := w) (δ := 0) hε0 hε le_rfl (by norm_num)
    (by simp) hy hv hws hs
  refine ⟨z, h1, h2.trans ?_⟩
  rw [zero_add]
  have h3 : ε / (1 - ε) ≤ 102 / 100 * ε := by
    rw [div_le_iff₀ (by linarith)]
    nlinarith
  have := mul_le_mul_of_nonneg_right h3 (norm_nonneg (x / w))
  linarith

/-! ## From a reflection coefficient to a permittivity and back -/

/-- `permitivitty` of a number: relative error. -/
theorem permitivitty_near {e β : ℂ} (he1 : (1 / 2) ^ 40 ≤ ‖e‖) (he2 : ‖e‖ ≤ 2 ^ 40) (hm : (1 / 2) ^ 40 ≤ ‖1 - β‖)
    (hp : (1 / 2) ^ 40 ≤ ‖1 + β‖) (hβ : ‖β‖ ≤ 10 ^ 6) :
    ∃ z, permitivitty (C128.mk' L β) (C128.mk' L e) = C128.mk' L z ∧
      ‖z - e * (1 + β) / (1 - β)‖ ≤ 79 * uro * ‖e * (1 + β) / (1 - β)‖ := by
  have hu := uro_pos
  have hu' := uro_lt
  have hP2 : ‖1 + β‖ ≤ 2 ^ 20 := by
    have := norm_add_le (1 : ℂ) β
    rw [norm_one] at this
    norm_num at hβ ⊢
    linarith
  have hM2 : ‖1 - β‖ ≤ 2 ^ 20 := by
    have := norm_sub_le (1 : ℂ) β
    rw [norm_one] at this
    norm_num at hβ ⊢
    linarith
  have hsP : Sized ‖1 + β‖ := sized_of (a := 40) (b := 20) (by norm_num) (by norm_num) hp hP2
  have hsM : Sized ‖1 - β‖ := sized_of (a := 40) (b := 20) (by norm_num) (by norm_num) hm hM2
  have heP := hsP.eta_le
  have heM := hsM.eta_le
  have hPp := hsP.pos
  have hMp := hsM.pos
  have hmP := hsP.le_max
  have hmM := hsM.le_max
  obtain ⟨p, hpe, ep⟩ := C128.add_rel (L := L) (v := 1) (w := β) (by linarith)
  obtain ⟨m, hme, em⟩ := C128.sub_rel (L := L) (v := 1) (w := β) (by linarith)
  have ep' : ‖p - (1 + β)‖ ≤ 3 * uro * ‖1 + β‖ := by
    have := mul_pos hu hPp
    linarith
  have em' : ‖m - (1 - β)‖ ≤ 3 * uro * ‖1 - β‖ := by
    have := mul_pos hu hMp
    linarith
  have hpn : ‖p‖ ≤ 101 / 100 * ‖1 + β‖ := by
    have := norm_sub_norm_le p (1 + β)
    nlinarith
  have hen : 0 < ‖e‖ := lt_of_lt_of_le (by positivity) he1
  -- the product
  have heP1 : (1 / 2 : ℝ) ^ 80 ≤ ‖e‖ * ‖1 + β‖ := by
    rw [show 80 = 40 + 40 from rfl, pow_add]
    exact mul_le_mul he1 hp (by positivity) hen.le
  have heP2 : ‖e‖ * ‖1 + β‖ ≤ 2 ^ 60 := by
    rw [show 60 = 40 + 20 from rfl, pow_add]
    exact mul_le_mul he2 hP2 hPp.le (by positivity)
  have hsq : Sized (‖e‖ * ‖1 + β‖) := sized_of (a := 80) (b := 60) (by norm_num) (by norm_num) heP1 heP2
  have hQp := hsq.pos
  have hQe := hsq.eta_le
  have hQm := hsq.le_max
  have hep : ‖e‖ * ‖p‖ ≤ 101 / 100 * (‖e‖ * ‖1 + β‖) := by
    have := mul_le_mul_of_nonneg_left hpn hen.le
    linarith
  obtain ⟨q, hqe, eq⟩ := C128.mul_err (L := L) (v := e) (w := p) (by linarith)
  have eq' : ‖q - e * (1 + β)‖ ≤ 8 * uro * ‖e * (1 + β)‖ := by
    rw [norm_mul]
    have h1 := norm_sub_le_norm_sub_add_norm_sub q (e * p) (e * (1 + β))
    have h2 : ‖e * p - e * (1 + β)‖ ≤ 3 * uro * (‖e‖ * ‖1 + β‖) := by
      rw [← mul_sub, norm_mul]
      have := mul_le_mul_of_nonneg_left ep' hen.le
      linarith
    have h3 := mul_le_mul_of_nonneg_left hep hu.le
    have := mul_pos hu hQp
    linarith
  -- the quotient
  have hQn : ‖e * (1 + β)‖ = ‖e‖ * ‖1 + β‖ := norm_mul _ _
  have hr2 : ‖e * (1 + β)‖ / ‖1 - β‖ ≤ 2 ^ (60 + 40) := by
    rw [hQn]
    exact ratio_le heP2 hm
  have hr1 : (1 / 2 : ℝ) ^ (80 + 20) ≤ ‖e * (1 + β) / (1 - β)‖ := by
    rw [norm_div, hQn]
    exact ratio_ge heP1 hM2 hMp
  obtain ⟨z, hz, ez⟩ := C128.div_near (L := L) (x := q) (y := m) (v := e * (1 + β)) (w := 1 - β) (δ := 8 * uro) (ε := 3 * uro)
    (by positivity) (by linarith) (by positivity) (by linarith) eq' em' (by rw [hQn]; linarith) hsM (by
      have h3 : (2 : ℝ) ^ 103 ≤ maxDouble := pow_le_max (by norm_num)
      norm_num at hr2 h3 ⊢
      linarith)
  refine ⟨z, ?_, ez.trans ?_⟩
  · unfold permitivitty
    rw [C128.clit_one, hpe, hme, hqe, hz]
  · have h3 : uro ^ 3 ≤ uro * ‖e * (1 + β) / (1 - β)‖ := by
      rw [uro3_eq]
      exact mul_le_mul_of_nonneg_left ((pow_le_pow_of_le_one (by norm_num) (by norm_num) (by norm_num)).trans hr1) hu.le
    have h4 : (8 * uro + 3 * uro) / (1 - 3 * uro) ≤ 1101 / 100 * uro := by
      rw [div_le_iff₀ (by linarith)]
      nlinarith
    have h5 := mul_le_mul_of_nonneg_right h4 (norm_nonneg (e * (1 + β) / (1 - β)))
    have h6 := mul_nonneg hu.le (norm_nonneg (e * (1 + β) / (1 - β)))
    linarith

theorem refl_arith {u K B c : ℝ} (hu : 0 ≤ u) (hu' : u ≤ 1 / 10 ^ 15) (hK : 0 ≤ K) (huK : u * K ≤ 2 / 1000) (hB : 0 ≤ B)
    (hc : 0 ≤ c) :
    (102 / 100 * (u * (1001 / 1000 * K + 21 / 10)) + 66 * u) * (B + (u * (1001 / 1000 * K + 2 * B) + c / 50)) + c +
      (u * (1001 / 1000 * K + 2 * B) + c / 50) ≤ u * (11 / 10 * K * (1 + B) + 71 * B) + 3 * c := by
  have a5 := mul_nonneg hu hK
  have a6 := mul_nonneg a5 hB
  have a7 := mul_nonneg hu hB
  have a1 : u * K * (u * K) ≤ u * K * (2 / 1000) := mul_le_mul_of_nonneg_left huK a5
  have a2 : u * (u * K) ≤ 1 / 10 ^ 15 * (u * K) := mul_le_mul_of_nonneg_right hu' a5
  have a3 : u * (u * K * B) ≤ 1 / 10 ^ 15 * (u * K * B) := mul_le_mul_of_nonneg_right hu' a6
  have a4 : u * (u * B) ≤ 1 / 10 ^ 15 * (u * B) := mul_le_mul_of_nonneg_right hu' a7
  have b1 : u * K * c ≤ 2 / 1000 * c := mul_le_mul_of_nonneg_right huK hc
  have b2 : u * c ≤ 1 / 10 ^ 15 * c := mul_le_mul_of_nonneg_right hu' hc
  linarith

/-- `refl_coef_qs_single`, when the second permittivity is known up to `K` roundings of the sum. -/
theorem refl_near {e ε x : ℂ} {K : ℝ} (he2 : ‖e‖ ≤ 2 ^ 200) (hε2 : ‖ε‖ ≤ 2 ^ 200) (hd1 : (1 / 2) ^ 200 ≤ ‖ε + e‖)
    (hkT : 0 ≤ K) (hkT2 : K ≤ 10 ^ 13) (hx : ‖x - ε‖ ≤ uro * K * ‖ε + e‖) :
    ∃ b, reflCoefQsSingle (C128.mk' L e) (C128.mk' L x) = C128.mk' L b ∧
      ‖b - (ε - e) / (ε + e)‖ ≤ uro * (11 / 10 * K * (1 + ‖(ε - e) / (ε + e)‖) + 71 * ‖(ε - e) / (ε + e)‖) +
        3 * uro ^ 3 := by
  have hu := uro_pos
  have hu' := uro_le
  have hd2 : ‖ε + e‖ ≤ 2 ^ 201 := by
    have h1 := norm_add_le ε e
    have h2 : (2 : ℝ) ^ 201 = 2 ^ 200 + 2 ^ 200 := by rw [pow_succ]; ring
    rw [h2]
    linarith
  have hsd : Sized ‖ε + e‖ := sized_of (a := 200) (b := 201) (by norm_num) (by norm_num) hd1 hd2
  have hdp := hsd.pos
  have hdm := hsd.le_max
  have hde : eta ≤ uro ^ 3 / 100 * ‖ε + e‖ := by
    refine eta_tiny.trans ?_
    have h1 : (1 / 2 : ℝ) ^ 400 ≤ 1 / 100 * (1 / 2) ^ 200 := by
      rw [show 400 = 200 + 200 from rfl, pow_add]
      refine mul_le_mul_of_nonneg_right ?_ (by positivity)
      exact (pow_le_pow_of_le_one (by norm_num) (by norm_num) (show 7 ≤ 200 by norm_num)).trans (by norm_num)
    have h2 : (1 / 2 : ℝ) ^ 400 ≤ 1 / 100 * ‖ε + e‖ := h1.trans (mul_le_mul_of_nonneg_left hd1 (by norm_num))
    exact (mul_le_mul_of_nonneg_left h2 (pow_pos hu 3).le).trans_eq (by ring)
  have hd0 : ε + e ≠ 0 := norm_pos_iff.1 hdp
  have hu3 := Arith.uro3_lt
  have hu30 : 0 < uro ^ 3 := by positivity
  obtain ⟨D, hD⟩ : ∃ D, D = ‖ε + e‖ := ⟨_, rfl⟩
  obtain ⟨B, hB⟩ : ∃ B, B = ‖(ε - e) / (ε + e)‖ := ⟨_, rfl⟩
  have hB0 : 0 ≤ B := hB ▸ norm_nonneg _
  have hn : ‖ε - e‖ = B * D := by
    rw [hB, hD, norm_div]
    field_simp
  have hukT : uro * K ≤ 2 / 1000 := by
    have := mul_le_mul hu' hkT2 hkT (by norm_num)
    norm_num at this ⊢
    linarith
  have hx' : ‖x - ε‖ ≤ uro * K * D := hD ▸ hx
  rw [← hD] at hde hdm hdp
  -- numerator and denominator
  have hm200 : (2 : ℝ) ^ 200 * 1000 ≤ maxDouble := by
    have : Sized ((2 : ℝ) ^ 200) := sized_of (a := 0) (b := 200) (by norm_num) (by norm_num)
      (by rw [pow_zero]; exact one_le_pow₀ one_le_two) le_rfl
    exact this.le_max
  have hBD : B * D ≤ 2 * 2 ^ 200 := by
    rw [← hn]
    have := norm_sub_le ε e
    linarith
  have hBm : B * 1000 ≤ maxDouble := by
    have h1 : B ≤ 2 ^ (201 + 200) := by
      rw [hB, norm_div]
      refine ratio_le ?_ hd1
      rw [hn, pow_succ]
      linarith
    have : Sized ((2 : ℝ) ^ (201 + 200)) := sized_of (a := 0) (b := 401) (by norm_num) (by norm_num)
      (by rw [pow_zero]; exact one_le_pow₀ one_le_two) le_rfl
    exact (mul_le_mul_of_nonneg_right h1 (by norm_num)).trans this.le_max
  have hmm := F64.one_le_max
  have hmm2 : 1000 ≤ maxDouble := by
    have : Sized ((1 : ℝ)) := sized_of (a := 0) (b := 0) (by norm_num) (by norm_num) (by simp) (by simp)
    have := this.le_max
    linarith
  have hBD0 : 0 ≤ B * D := mul_nonneg hB0 hdp.le
  have hD0 := hdp.le
  have hxe : ‖x - e‖ ≤ B * D + uro * K * D := by
    have h1 := norm_add_le (ε - e) (x - ε)
    rw [show ε - e + (x - ε) = x - e by ring, hn] at h1
    linarith
  have hxd : ‖x + e‖ ≤ D + uro * K * D := by
    have h1 := norm_add_le (ε + e) (x - ε)
    rw [show ε + e + (x - ε) = x + e by ring, ← hD] at h1
    linarith
  have hukD : uro * K * D ≤ 2 / 1000 * D := mul_le_mul_of_nonneg_right hukT hD0
  generalize (2 : ℝ) ^ 200 = Z at *
  obtain ⟨n, hne, en⟩ := C128.sub_rel (L := L) (v := x) (w := e) (by linarith)
  obtain ⟨d, hde', ed⟩ := C128.add_rel (L := L) (v := x) (w := e) (by linarith)
  have en' : ‖n - (ε - e)‖ ≤ (uro * (1001 / 1000 * K + 2 * B) + uro ^ 3 / 50) * D := by
    have h1 := norm_add_le (n - (x - e)) (x - ε)
    rw [show n - (x - e) + (x - ε) = n - (ε - e) by ring] at h1
    have h2 := mul_le_mul_of_nonneg_left hxe (mul_nonneg zero_le_two hu.le)
    have h3 : 2 * uro * (uro * K * D) ≤ 1 / 1000 * (uro * K * D) := by
      refine mul_le_mul_of_nonneg_right (by linarith) ?_
      positivity
    linarith
  have ed' : ‖d - (ε + e)‖ ≤ uro * (1001 / 1000 * K + 21 / 10) * D := by
    have h1 := norm_add_le (d - (x + e)) (x - ε)
    rw [show d - (x + e) + (x - ε) = d - (ε + e) by ring] at h1
    have h2 := mul_le_mul_of_nonneg_left hxd (mul_nonneg zero_le_two hu.le)
    have h3 : 2 * uro * (uro * K * D) ≤ 1 / 1000 * (uro * K * D) := by
      refine mul_le_mul_of_nonneg_right (by linarith) ?_
      positivity
    have h4 : uro ^ 3 / 100 * D ≤ uro / 10 ^ 6 / 100 * D := mul_le_mul_of_nonneg_right (by linarith) hD0
    have := mul_pos hu hdp
    linarith
  have hE0 : 0 ≤ uro * (1001 / 1000 * K + 21 / 10) := by positivity
  have hE : uro * (1001 / 1000 * K + 21 / 10) ≤ 1 / 100 := by linarith
  -- the quotient
  have hnD : ‖n / (ε + e) - (ε - e) / (ε + e)‖ ≤ uro * (1001 / 1000 * K + 2 * B) + uro ^ 3 / 50 := by
    rw [← sub_div, norm_div, ← hD, div_le_iff₀ hdp]
    exact en'
  have hnB : ‖n / (ε + e)‖ ≤ B + (uro * (1001 / 1000 * K + 2 * B) + uro ^ 3 / 50) := by
    have := norm_sub_norm_le (n / (ε + e)) ((ε - e) / (ε + e))
    rw [← hB] at this
    linarith
  have huB : uro * B ≤ 1 / 1000 * B := mul_le_mul_of_nonneg_right (by linarith) hB0
  have hnn : ‖n‖ / ‖ε + e‖ ≤ 11 / 10 * B + 1 := by
    rw [← norm_div]
    linarith
  have hnn' : ‖n‖ ≤ 11 / 10 * (B * D) + D := by
    rw [← hD, div_le_iff₀ hdp] at hnn
    linarith
  obtain ⟨b, hbe, eb⟩ := C128.div_num (L := L) (x := n) hE0 hE (by rw [← hD]; exact ed') (by linarith) hsd (by linarith)
  refine ⟨b, ?_, ?_⟩
  · rw [← hbe, ← hne, ← hde']
    rfl
  · rw [← hB]
    have h1 := norm_sub_le_norm_sub_add_norm_sub b (n / (ε + e)) ((ε - e) / (ε + e))
    have h2 := mul_le_mul_of_nonneg_left hnB (by positivity : 0 ≤ 102 / 100 * (uro * (1001 / 1000 * K + 21 / 10)) + 66 * uro)
    have h3 := refl_arith hu.le (by linarith) hkT hukT hB0 hu30.le
    linarith only [h1, h2, h3, eb, hnD]

/-- `permitivitty` of a coefficient which is only nearly right. -/
theorem permitivitty_of_near {e b P M : ℂ} {s t : ℝ} (he1 : (1 / 2) ^ 100 ≤ ‖e‖) (he2 : ‖e‖ ≤ 2 ^ 100)
    (hP1 : (1 / 2) ^ 300 ≤ ‖P‖) (hP2 : ‖P‖ ≤ 2 ^ 300) (hM1 : (1 / 2) ^ 300 ≤ ‖M‖) (hM2 : ‖M‖ ≤ 2 ^ 300)
    (hs0 : 0 ≤ s) (hs : s ≤ 1 / 200) (ht0 : 0 ≤ t) (ht : t ≤ 1 / 200)
    (hbP : ‖1 + b - P‖ ≤ s * ‖P‖) (hbM : ‖1 - b - M‖ ≤ t * ‖M‖) (hr1 : (1 / 2) ^ 100 ≤ ‖e * P / M‖) :
    ∃ z, permitivitty (C128.mk' L b) (C128.mk' L e) = C128.mk' L z ∧
      ‖z - e * P / M‖ ≤ (104 / 100 * (s + t) + 79 * uro) * ‖e * P / M‖ := by
  have hu := uro_pos
  have hu' := uro_lt
  have hsP : Sized ‖P‖ := sized_of (a := 300) (b := 300) (by norm_num) (by norm_num) hP1 hP2
  have hsM : Sized ‖M‖ := sized_of (a := 300) (b := 300) (by norm_num) (by norm_num) hM1 hM2
  have hen : 0 < ‖e‖ := lt_of_lt_of_le (by positivity) he1
  have hsQ : Sized (‖e‖ * ‖P‖) := by
    refine sized_of (a := 400) (b := 400) (by norm_num) (by norm_num) ?_ ?_
    · rw [show 400 = 100 + 300 from rfl, pow_add]
      exact mul_le_mul he1 hP1 (by positivity) hen.le
    · rw [show 400 = 100 + 300 from rfl, pow_add]
      exact mul_le_mul he2 hP2 (norm_nonneg _) (by positivity)
  have hsR : Sized (‖e * P‖ / ‖M‖) := by
    rw [norm_mul]
    refine sized_of (a := 700) (b := 700) (by norm_num) (by norm_num) ?_ ?_
    · refine ratio_ge (m := 400) (n := 300) ?_ hM2 hsM.pos
      rw [show 400 = 100 + 300 from rfl, pow_add]
      exact mul_le_mul he1 hP1 (by positivity) hen.le
    · refine ratio_le (m := 400) (n := 300) ?_ hM1
      rw [show 400 = 100 + 300 from rfl, pow_add]
      exact mul_le_mul he2 hP2 (norm_nonneg _) (by positivity)
  have h3 : uro ^ 3 ≤ uro * ‖e * P / M‖ := by
    rw [uro3_eq]
    exact mul_le_mul_of_nonneg_left ((pow_le_pow_of_le_one (by norm_num) (by norm_num) (by norm_num)).trans hr1) hu.le
  clear hr1 hP1 hP2 hM1 hM2 he1 he2
  have heP := hsP.eta_le
  have heM := hsM.eta_le
  have hPp := hsP.pos
  have hMp := hsM.pos
  have hmP := hsP.le_max
  have hmM := hsM.le_max
  have hQp := hsQ.pos
  have hQe := hsQ.eta_le
  have hQm := hsQ.le_max
  have hRp := hsR.pos
  have hRm := hsR.le_max
  have hsP1 : s * ‖P‖ ≤ 1 / 200 * ‖P‖ := mul_le_mul_of_nonneg_right hs hPp.le
  have htM1 : t * ‖M‖ ≤ 1 / 200 * ‖M‖ := mul_le_mul_of_nonneg_right ht hMp.le
  have hbPn : ‖1 + b‖ ≤ (1 + s) * ‖P‖ := by
    have := norm_sub_norm_le (1 + b) P
    linarith
  have hbMn : ‖1 - b‖ ≤ (1 + t) * ‖M‖ := by
    have := norm_sub_norm_le (1 - b) M
    linarith
  obtain ⟨p, hpe, ep⟩ := C128.add_rel (L := L) (v := 1) (w := b) (by linarith)
  obtain ⟨m, hme, em⟩ := C128.sub_rel (L := L) (v := 1) (w := b) (by linarith)
  have huP := mul_pos hu hPp
  have huM := mul_pos hu hMp
  have ep' : ‖p - P‖ ≤ (s + 3 * uro) * ‖P‖ := by
    have h1 := norm_sub_le_norm_sub_add_norm_sub p (1 + b) P
    have h2 := mul_le_mul_of_nonneg_left (hbPn.trans (mul_le_mul_of_nonneg_right (by linarith : 1 + s ≤ 201 / 200) hPp.le)) hu.le
    linarith
  have em' : ‖m - M‖ ≤ (t + 3 * uro) * ‖M‖ := by
    have h1 := norm_sub_le_norm_sub_add_norm_sub m (1 - b) M
    have h2 := mul_le_mul_of_nonneg_left (hbMn.trans (mul_le_mul_of_nonneg_right (by linarith : 1 + t ≤ 201 / 200) hMp.le)) hu.le
    linarith
  have hpn : ‖p‖ ≤ 101 / 100 * ‖P‖ := by
    have := norm_sub_norm_le p P
    have h2 := mul_le_mul_of_nonneg_right (by linarith : uro ≤ 1 / 1000) hPp.le
    linarith
  have hep : ‖e‖ * ‖p‖ ≤ 101 / 100 * (‖e‖ * ‖P‖) := by
    have := mul_le_mul_of_nonneg_left hpn hen.le
    linarith
  obtain ⟨q, hqe, eq⟩ := C128.mul_err (L := L) (v := e) (w := p) (by linarith)
  have eq' : ‖q - e * P‖ ≤ (s + 8 * uro) * ‖e * P‖ := by
    rw [norm_mul]
    have h1 := norm_sub_le_norm_sub_add_norm_sub q (e * p) (e * P)
    have h2 : ‖e * p - e * P‖ ≤ (s + 3 * uro) * (‖e‖ * ‖P‖) := by
      rw [← mul_sub, norm_mul]
      have := mul_le_mul_of_nonneg_left ep' hen.le
      linarith
    have h3 := mul_le_mul_of_nonneg_left hep hu.le
    have := mul_pos hu hQp
    linarith
  obtain ⟨z, hz, ez⟩ := C128.div_near (L := L) (x := q) (y := m) (v := e * P) (w := M) (δ := s + 8 * uro) (ε := t + 3 * uro)
    (by positivity) (by linarith) (by positivity) (by linarith) eq' em' (by rw [norm_mul]; linarith) hsM (by linarith)
  refine ⟨z, ?_, ez.trans ?_⟩
  · unfold permitivitty
    rw [C128.clit_one, hpe, hme, hqe, hz]
  · have h4 : (s + 8 * uro + (t + 3 * uro)) / (1 - (t + 3 * uro)) ≤ 104 / 100 * (s + t) + 12 * uro := by
      rw [div_le_iff₀ (by linarith)]
      have k1 : (104 / 100 * (s + t) + 12 * uro) * (t + 3 * uro) ≤ (104 / 100 * (s + t) + 12 * uro) * (1 / 100) :=
        mul_le_mul_of_nonneg_left (by linarith) (by positivity)
      linarith
    have h5 := mul_le_mul_of_nonneg_right h4 (norm_nonneg (e * P / M))
    have h6 := mul_nonneg hu.le (norm_nonneg (e * P / M))
    linarith

/-- From a reflection coefficient to the permittivity and back. -/
theorem beta_trip {e β : ℂ} (he1 : (1 / 2) ^ 40 ≤ ‖e‖) (he2 : ‖e‖ ≤ 2 ^ 40) (hm : (1 / 2) ^ 40 ≤ ‖1 - β‖)
    (hp : (1 / 2) ^ 40 ≤ ‖1 + β‖) (hβ : ‖β‖ ≤ 10 ^ 6) :
    ∃ b, reflCoefQsSingle (C128.mk' L e) (permitivitty (C128.mk' L β) (C128.mk' L e)) = C128.mk' L b ∧
      ‖b - β‖ ≤ 2 / 10 ^ 14 * (1 + ‖β‖) ^ 2 := by
  have hu := uro_pos
  have hu' := uro_le
  obtain ⟨z, hz, ez⟩ := permitivitty_near (L := L) he1 he2 hm hp hβ
  have hM2 : ‖1 - β‖ ≤ 2 ^ 20 := by
    have := norm_sub_le (1 : ℂ) β
    rw [norm_one] at this
    norm_num at hβ ⊢
    linarith
  have hPB : ‖1 + β‖ ≤ 1 + ‖β‖ := by
    have := norm_add_le (1 : ℂ) β
    rwa [norm_one] at this
  have hP2 : ‖1 + β‖ ≤ 2 ^ 20 := by
    norm_num at hβ ⊢
    linarith
  have hMp : 0 < ‖1 - β‖ := lt_of_lt_of_le (by positivity) hm
  have hM0 : 1 - β ≠ 0 := norm_pos_iff.1 hMp
  have hep : 0 < ‖e‖ := lt_of_lt_of_le (by positivity) he1
  have he0 : e ≠ 0 := norm_pos_iff.1 hep
  have hd : e * (1 + β) / (1 - β) + e = 2 * e / (1 - β) := by
    field_simp
    ring
  have hb : (e * (1 + β) / (1 - β) - e) / (e * (1 + β) / (1 - β) + e) = β := by
    rw [hd]
    field_simp
    ring
  have hdn : ‖e * (1 + β) / (1 - β) + e‖ = 2 * ‖e‖ / ‖1 - β‖ := by
    rw [hd, norm_div, norm_mul, Complex.norm_ofNat]
  have hT : ‖e * (1 + β) / (1 - β)‖ ≤ (1 + ‖β‖) / 2 * ‖e * (1 + β) / (1 - β) + e‖ := by
    rw [hdn, norm_div, norm_mul]
    have := mul_le_mul_of_nonneg_left hPB (div_pos hep hMp).le
    have h1 : ‖e‖ * ‖1 + β‖ / ‖1 - β‖ = ‖e‖ / ‖1 - β‖ * ‖1 + β‖ := by ring
    have h2 : (1 + ‖β‖) / 2 * (2 * ‖e‖ / ‖1 - β‖) = ‖e‖ / ‖1 - β‖ * (1 + ‖β‖) := by ring
    rw [h1, h2]
    exact this
  have hE : ‖e * (1 + β) / (1 - β)‖ ≤ 2 ^ 200 := by
    rw [norm_div, norm_mul]
    refine (ratio_le (m := 60) (n := 40) ?_ hm).trans (pow_le_pow_right₀ one_le_two (by norm_num))
    rw [show 60 = 40 + 20 from rfl, pow_add]
    exact mul_le_mul he2 hP2 (norm_nonneg _) (by positivity)
  have hd1 : (1 / 2 : ℝ) ^ 200 ≤ ‖e * (1 + β) / (1 - β) + e‖ := by
    rw [hdn]
    refine (pow_le_pow_of_le_one (by norm_num) (by norm_num) (show 60 ≤ 200 by norm_num)).trans
      (ratio_ge (m := 40) (n := 20) ?_ hM2 hMp)
    linarith
  have hB := norm_nonneg β
  obtain ⟨b, hb1, hb2⟩ := refl_near (L := L) (x := z) (K := 79 * ((1 + ‖β‖) / 2))
    (he2.trans (pow_le_pow_right₀ one_le_two (by norm_num))) hE hd1 (by positivity) (by norm_num at hβ ⊢; linarith) (by
      have := mul_le_mul_of_nonneg_left hT (by positivity : 0 ≤ 79 * uro)
      linarith)
  rw [hb] at hb2
  refine ⟨b, by rw [hz, hb1], hb2.trans ?_⟩
  have hu3 := Arith.uro3_lt
  have h1 : uro * (11 / 10 * (79 * ((1 + ‖β‖) / 2)) * (1 + ‖β‖) + 71 * ‖β‖) ≤ uro * (116 * (1 + ‖β‖) ^ 2) := by
    refine mul_le_mul_of_nonneg_left ?_ hu.le
    nlinarith
  have h2 : uro * (116 * (1 + ‖β‖) ^ 2) ≤ 1111 / 10 ^ 19 * (116 * (1 + ‖β‖) ^ 2) :=
    mul_le_mul_of_nonneg_right hu' (by positivity)
  have h3 : 3 * uro ^ 3 ≤ 1 / 10 ^ 20 := by
    linarith
  nlinarith

/-- From a permittivity to the reflection coefficient and back. -/
theorem eps_trip {e ε : ℂ} (he1 : (1 / 2) ^ 40 ≤ ‖e‖) (he2 : ‖e‖ ≤ 2 ^ 40) (hε1 : (1 / 2) ^ 40 ≤ ‖ε‖) (hε2 : ‖ε‖ ≤ 2 ^ 40)
    (hd1 : (1 / 2) ^ 200 ≤ ‖ε + e‖) (hγ : ‖ε - e‖ * (1 / ‖ε‖ + 1 / ‖e‖) ≤ 10 ^ 12) :
    ∃ z, permitivitty (reflCoefQsSingle (C128.mk' L e) (C128.mk' L ε)) (C128.mk' L e) = C128.mk' L z ∧
      ‖z - ε‖ ≤ 1 / 10 ^ 14 * (1 + ‖ε - e‖ * (1 / ‖ε‖ + 1 / ‖e‖)) * ‖ε‖ := by
  have hu := uro_pos
  have hu' := uro_le
  have h40 : (2 : ℝ) ^ 40 ≤ 2 ^ 200 := pow_le_pow_right₀ one_le_two (by norm_num)
  have hd2 : ‖ε + e‖ ≤ 2 ^ 41 := by
    have h1 := norm_add_le ε e
    norm_num at he2 hε2 ⊢
    linarith
  have hdp : 0 < ‖ε + e‖ := lt_of_lt_of_le (by positivity) hd1
  have hd0 : ε + e ≠ 0 := norm_pos_iff.1 hdp
  have hep : 0 < ‖e‖ := lt_of_lt_of_le (by positivity) he1
  have hεp : 0 < ‖ε‖ := lt_of_lt_of_le (by positivity) hε1
  have he0 : e ≠ 0 := norm_pos_iff.1 hep
  have hε0 : ε ≠ 0 := norm_pos_iff.1 hεp
  obtain ⟨b, hb1, hb2⟩ := refl_near (L := L) (e := e) (ε := ε) (x := ε) (K := 0) (he2.trans h40) (hε2.trans h40) hd1
    le_rfl (by norm_num) (by simp)
  have hPn : ‖2 * ε / (ε + e)‖ = 2 * ‖ε‖ / ‖ε + e‖ := by rw [norm_div, norm_mul, Complex.norm_ofNat]
  have hMn : ‖2 * e / (ε + e)‖ = 2 * ‖e‖ / ‖ε + e‖ := by rw [norm_div, norm_mul, Complex.norm_ofNat]
  have h300 : (2 : ℝ) ^ (41 + 200) ≤ 2 ^ 300 := pow_le_pow_right₀ one_le_two (by norm_num)
  have l300 : (1 / 2 : ℝ) ^ 300 ≤ (1 / 2) ^ (40 + 41) := pow_le_pow_of_le_one (by norm_num) (by norm_num) (by norm_num)
  have key : ∀ x : ℂ, (1 / 2) ^ 40 ≤ ‖x‖ → ‖x‖ ≤ 2 ^ 40 → (1 / 2) ^ (40 + 41) ≤ 2 * ‖x‖ / ‖ε + e‖ ∧ 2 * ‖x‖ / ‖ε + e‖ ≤ 2 ^ (41 + 200) := by
    intro x h1 h2
    refine ⟨ratio_ge (by linarith [norm_nonneg x]) hd2 hdp, ratio_le ?_ hd1⟩
    norm_num at h2 ⊢
    linarith
  have hβ : ‖b - (ε - e) / (ε + e)‖ ≤ uro * (71 * (‖ε - e‖ / ‖ε + e‖)) + 3 * uro ^ 3 := by
    rw [norm_div] at hb2
    linarith
  have err : ∀ x : ℂ, (1 / 2) ^ 40 ≤ ‖x‖ → ‖x‖ ≤ 2 ^ 40 →
      ‖b - (ε - e) / (ε + e)‖ ≤ uro * (36 * (‖ε - e‖ / ‖x‖) + 1 / 1000) * ‖2 * x / (ε + e)‖ := by
    intro x h1 h2
    have hxp : 0 < ‖x‖ := lt_of_lt_of_le (by positivity) h1
    refine hβ.trans ?_
    rw [norm_div, norm_mul, Complex.norm_ofNat]
    have k1 : uro ^ 3 ≤ uro / 10 ^ 4 * (2 * ‖x‖ / ‖ε + e‖) := by
      rw [uro3_eq]
      have := (key x h1 h2).1
      have h3 : (1 / 2 : ℝ) ^ 106 ≤ 1 / 10 ^ 4 * (1 / 2) ^ (40 + 41) := by norm_num
      have := h3.trans (mul_le_mul_of_nonneg_left this (by norm_num))
      exact (mul_le_mul_of_nonneg_left this hu.le).trans_eq (by ring)
    have k2 : ‖ε - e‖ / ‖ε + e‖ = 1 / 2 * (‖ε - e‖ / ‖x‖) * (2 * ‖x‖ / ‖ε + e‖) := by
      field_simp
    rw [k2]
    have k3 : 0 ≤ uro * (2 * ‖x‖ / ‖ε + e‖) := by positivity
    have k4 : 0 ≤ uro * ((‖ε - e‖ / ‖x‖) * (2 * ‖x‖ / ‖ε + e‖)) := by positivity
    linarith
  have hγ' : ‖ε - e‖ * (1 / ‖ε‖ + 1 / ‖e‖) = ‖ε - e‖ / ‖ε‖ + ‖ε - e‖ / ‖e‖ := by ring
  rw [hγ'] at hγ ⊢
  have ha : 0 ≤ ‖ε - e‖ / ‖ε‖ := by positivity
  have hc : 0 ≤ ‖ε - e‖ / ‖e‖ := by positivity
  have hlim : ∀ g : ℝ, 0 ≤ g → g ≤ 10 ^ 12 → uro * (36 * g + 1 / 1000) ≤ 1 / 200 := by
    intro g h0 h1
    have := mul_le_mul hu' (by linarith : 36 * g + 1 / 1000 ≤ 36 * 10 ^ 12 + 1 / 1000) (by positivity) (by norm_num)
    norm_num at this ⊢
    linarith
  have hr : e * (2 * ε / (ε + e)) / (2 * e / (ε + e)) = ε := by
    field_simp
  obtain ⟨z, hz, ez⟩ := permitivitty_of_near (L := L) (e := e) (b := b) (P := 2 * ε / (ε + e)) (M := 2 * e / (ε + e))
    (s := uro * (36 * (‖ε - e‖ / ‖ε‖) + 1 / 1000)) (t := uro * (36 * (‖ε - e‖ / ‖e‖) + 1 / 1000))
    ((pow_le_pow_of_le_one (by norm_num) (by norm_num) (by norm_num)).trans he1)
    (he2.trans (pow_le_pow_right₀ one_le_two (by norm_num)))
    (hPn ▸ l300.trans (key ε hε1 hε2).1) (hPn ▸ (key ε hε1 hε2).2.trans h300)
    (hMn ▸ l300.trans (key e he1 he2).1) (hMn ▸ (key e he1 he2).2.trans h300)
    (by positivity) (hlim _ ha (by linarith)) (by positivity) (hlim _ hc (by linarith))
    (by
      rw [show 1 + b - 2 * ε / (ε + e) = b - (ε - e) / (ε + e) by field_simp; ring]
      exact err ε hε1 hε2)
    (by
      rw [show 1 - b - 2 * e / (ε + e) = -(b - (ε - e) / (ε + e)) by field_simp; ring, norm_neg]
      exact err e he1 he2)
    (by
      rw [hr]
      exact (pow_le_pow_of_le_one (by norm_num) (by norm_num) (by norm_num)).trans hε1)
  rw [hr] at ez
  refine ⟨z, by rw [hb1, hz], ez.trans (mul_le_mul_of_nonneg_right ?_ hεp.le)⟩
  generalize ‖ε - e‖ / ‖ε‖ = a at *
  generalize ‖ε - e‖ / ‖e‖ = c at *
  have k1 : 104 / 100 * (uro * (36 * a + 1 / 1000) + uro * (36 * c + 1 / 1000)) + 79 * uro ≤ uro * (90 * (1 + (a + c))) := by
    have h1 := mul_nonneg hu.le ha
    have h2 := mul_nonneg hu.le hc
    linarith
  have k2 := mul_le_mul_of_nonneg_right hu' (by positivity : 0 ≤ 90 * (1 + (a + c)))
  linarith

end Snompy
