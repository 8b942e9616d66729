import Verif.Lemmas.DoubleFdm
import Verif.Spec.Condition

/-!
# Rounding errors of the effective polarisability of the finite dipole model
-/

namespace Snompy

variable {L : Libm}

seal uro eta maxDouble

theorem half_mul_two (n : ℕ) : ((1 : ℝ) / 2) ^ n * 2 ^ n = 1 := by
  rw [← mul_pow]
  norm_num

theorem ratio_ge {a b : ℝ} {m n : ℕ} (ha : (1 / 2) ^ m ≤ a) (hb : b ≤ 2 ^ n) (hb0 : 0 < b) : (1 / 2) ^ (m + n) ≤ a / b := by
  rw [le_div_iff₀ hb0, pow_add]
  calc (1 / 2 : ℝ) ^ m * (1 / 2) ^ n * b ≤ (1 / 2 : ℝ) ^ m * (1 / 2) ^ n * 2 ^ n :=
        mul_le_mul_of_nonneg_left hb (by positivity)
    _ = (1 / 2) ^ m := by rw [mul_assoc, half_mul_two, mul_one]
    _ ≤ a := ha

theorem ratio_le {a b : ℝ} {m n : ℕ} (ha : a ≤ 2 ^ m) (hb : (1 / 2) ^ n ≤ b) : a / b ≤ 2 ^ (m + n) := by
  have hb0 : 0 < b := lt_of_lt_of_le (by positivity) hb
  rw [div_le_iff₀ hb0, pow_add, mul_assoc]
  calc a ≤ 2 ^ m := ha
    _ = 2 ^ m * (2 ^ n * (1 / 2) ^ n) := by rw [mul_comm ((2 : ℝ) ^ n), half_mul_two, mul_one]
    _ ≤ _ := by
      refine mul_le_mul_of_nonneg_left ?_ (by positivity)
      exact mul_le_mul_of_nonneg_left hb (by positivity)

theorem F64.lit_mul_near {a : F64 L} {v k : ℝ} {c : ℕ} (ha : a.Near v k) (hc : c ≤ 2 ^ 53) (hk0 : 0 ≤ k) (hk : k ≤ 10 ^ 4)
    (hs : Sized |c * v|) : (lit (c : ℝ) * a : F64 L).Near (c * v) (k + 2) :=
  ((F64.near_nat (L := L) c hc).mul ha le_rfl hk0 (by norm_num) (by linarith) hs).mono (by linarith)

/-- The geometry function. -/
theorem Fdm.geom_near {rT zT dT lT : F64 L} {gh : C128 L} {r z d l kd : ℝ} {g : ℂ} (R : Fdm.Range z d r l g)
    (hr : rT.Near r 2) (hl : lT.Near l 2) (hg : gh.Near g 2)
    (hz : ∃ x, zT = .fin x ∧ |x - z| ≤ 130 * uro * (r + z)) (hd : dT.Near d kd) (hkd0 : 0 ≤ kd) (hkd : kd ≤ 20) :
    ∃ f, Fdm.geomFunc zT dT rT lT gh = C128.mk' L f ∧
      ‖f - Fdm.geom z d r l g‖ ≤ 1500 * uro * Fdm.size z d r l g + uro ^ 3 ∧
      ‖Fdm.geom z d r l g‖ ≤ Fdm.size z d r l g ∧ Fdm.size z d r l g ≤ 2 ^ 290 := by
  obtain ⟨hz0, hd0, hr1, hl1, hl2, hlen, hg2, hlog⟩ := R
  have hu := uro_pos
  have hu' := uro_lt
  have hr0 : 0 < r := lt_of_lt_of_le (by positivity) hr1
  have hl0 : 0 < l := lt_of_lt_of_le (by positivity) hl1
  have hdr : 0 ≤ d * r := by positivity
  set T := r + 4 * z + 2 * d * r with hT
  have hTr : r ≤ T := by linarith
  have hT1 : (1 / 2) ^ 100 ≤ T := hr1.trans hTr
  have hT0 : 0 < T := by linarith
  have hTs : Sized T := sized_of (a := 100) (b := 100) (by norm_num) (by norm_num) hT1 hlen
  have hd2 : d ≤ 2 ^ 800 := by
    have h1 : d * r / r ≤ 2 ^ (100 + 100) := ratio_le (m := 100) (n := 100) (by linarith) hr1
    rw [mul_div_cancel_right₀ _ hr0.ne'] at h1
    exact h1.trans (pow_le_pow_right₀ one_le_two (by norm_num))
  obtain ⟨hTn, hNn⟩ := length_near (L := L) hr hr0 hz0 hd0 hz hd hkd0 hkd hT hTs hd2
  set N := r + 2 * z + d * r with hN
  have hN1 : (1 / 2) ^ 100 ≤ N := by linarith
  have hN2 : N ≤ 2 ^ 100 := by linarith
  have hN0 : 0 < N := by linarith
  have hT2N : T ≤ 2 * N := by linarith
  -- `4 l`, `2 l`
  have h4l : (lit 4 * lT : F64 L).Near (4 * l) 4 := by
    have := F64.lit_mul_near (L := L) (c := 4) hl (by norm_num) (by norm_num) (by norm_num) (by
      push_cast
      rw [abs_of_pos (by positivity)]
      refine sized_of (a := 100) (b := 102) (by norm_num) (by norm_num) (by linarith) ?_
      rw [show 102 = 2 + 100 from rfl, pow_add]
      linarith)
    push_cast at this
    exact this.mono (by norm_num)
  have h2l : (lit 2 * lT : F64 L).Near (2 * l) 4 := by
    have := F64.lit_mul_near (L := L) (c := 2) hl (by norm_num) (by norm_num) (by norm_num) (by
      push_cast
      rw [abs_of_pos (by positivity)]
      refine sized_of (a := 100) (b := 102) (by norm_num) (by norm_num) (by linarith) ?_
      rw [show 102 = 2 + 100 from rfl, pow_add]
      linarith)
    push_cast at this
    exact this.mono (by norm_num)
  have h4l2 : 4 * l ≤ 2 ^ 102 := by
    rw [show 102 = 2 + 100 from rfl, pow_add]
    linarith
  have h2l2 : 2 * l ≤ 2 ^ 102 := by linarith
  have h4l1 : (1 / 2) ^ 100 ≤ 4 * l := by linarith
  have h2l1 : (1 / 2) ^ 100 ≤ 2 * l := by linarith
  -- the two arguments of the logarithms and their values
  have hX1 : (1 / 2) ^ 200 ≤ 4 * l / T := ratio_ge (m := 100) (n := 100) h4l1 hlen hT0
  have hX2 : 4 * l / T ≤ 2 ^ 202 := ratio_le (m := 102) (n := 100) h4l2 hT1
  have hX01 : (1 / 2) ^ 200 ≤ 4 * l / r := ratio_ge (m := 100) (n := 100) h4l1 (by linarith) hr0
  have hX02 : 4 * l / r ≤ 2 ^ 202 := ratio_le (m := 102) (n := 100) h4l2 hr1
  have hp1 : (1 / 2) ^ 202 ≤ N / (2 * l) := ratio_ge (m := 100) (n := 102) hN1 h2l2 (by positivity)
  have hp2 : N / (2 * l) ≤ 2 ^ 200 := ratio_le (m := 100) (n := 100) hN2 h2l1
  have hX0 : 0 < 4 * l / T := by positivity
  have hX00 : 0 < 4 * l / r := by positivity
  have hp0 : 0 < N / (2 * l) := by positivity
  have hXn := h4l.div hTn (by norm_num) (by norm_num) (by norm_num) (by norm_num) hT0.ne' (by
    rw [abs_of_pos hX0]
    exact sized_of (by norm_num) (by norm_num) hX1 hX2)
  have hX0n := h4l.div hr (by norm_num) (by norm_num) (by norm_num) (by norm_num) hr0.ne' (by
    rw [abs_of_pos hX00]
    exact sized_of (by norm_num) (by norm_num) hX01 hX02)
  have hpn := hNn.div h2l (by norm_num) (by norm_num) (by norm_num) (by norm_num) (by positivity) (by
    rw [abs_of_pos hp0]
    exact sized_of (by norm_num) (by norm_num) hp1 hp2)
  have hℓ := abs_log_le (a := 202)
    ((pow_le_pow_of_le_one (by norm_num) (by norm_num) (show 200 ≤ 202 by norm_num)).trans hX1) hX2
  have hℓ0 := abs_log_le (a := 202)
    ((pow_le_pow_of_le_one (by norm_num) (by norm_num) (show 200 ≤ 202 by norm_num)).trans hX01) hX02
  push_cast at hℓ hℓ0
  obtain ⟨y, hy, ey⟩ := F64.log_near hXn hX0 (by norm_num) (by norm_num) (by linarith)
  obtain ⟨y0, hy0, ey0⟩ := F64.log_near hX0n hX00 (by norm_num) (by norm_num) (by linarith)
  obtain ⟨p, hp, ep⟩ := hpn
  obtain ⟨gx, rfl, eg⟩ := hg
  set ℓ := Real.log (4 * l / T)
  set ℓ0 := Real.log (4 * l / r)
  rw [abs_of_pos hp0] at ep
  set P := N / (2 * l)
  have hps : Sized P := sized_of (by norm_num) (by norm_num) hp1 hp2
  have hpe := hps.eta_le
  have hgn := norm_nonneg g
  have hG2 : ‖g‖ + P ≤ 2 ^ 201 := by
    have h1 : (2 : ℝ) ^ 100 ≤ 2 ^ 200 := pow_le_pow_right₀ one_le_two (by norm_num)
    rw [show 201 = 200 + 1 from rfl, pow_succ]
    linarith
  have hGs : Sized (‖g‖ + P) := sized_of (a := 202) (b := 201) (by norm_num) (by norm_num) (by linarith) hG2
  have hc : ∀ t : ℝ, ‖(t : ℂ)‖ = |t| := fun t => by rw [Complex.norm_real, Real.norm_eq_abs]
  have hPp := hps.pos
  have huP : uro * P ≤ 1 / 10 ^ 15 * P := mul_le_mul_of_nonneg_right hu'.le hPp.le
  have hug : uro * ‖g‖ ≤ 1 / 10 ^ 15 * ‖g‖ := mul_le_mul_of_nonneg_right hu'.le hgn
  have hgx : ‖gx‖ ≤ 1001 / 1000 * ‖g‖ := by
    have := norm_sub_norm_le gx g
    linarith
  have hpx : |p| ≤ 1001 / 1000 * P := by
    have := abs_sub_abs_le_abs_sub p P
    rw [abs_of_pos hPp] at this
    linarith
  have hGm := hGs.le_max
  obtain ⟨s, hs, es⟩ := C128.sub_err (L := L) (v := gx) (w := (p : ℂ)) (by rw [hc]; linarith)
  rw [hc] at es
  have es' : ‖s - (g - (P : ℂ))‖ ≤ 610 * uro * (‖g‖ + P) := by
    have e1 : s - (g - (P : ℂ)) = (s - (gx - p)) + ((gx - g) - ((p - P : ℝ) : ℂ)) := by push_cast; ring
    rw [e1]
    refine (norm_add_le _ _).trans ?_
    have h1 := norm_sub_le (gx - g) ((p - P : ℝ) : ℂ)
    rw [hc] at h1
    have h2 := mul_le_mul_of_nonneg_left (add_le_add hgx hpx) (show 0 ≤ 2 * uro by linarith)
    have h3 := mul_nonneg hu.le hgn
    have h4 := mul_nonneg hu.le hPp.le
    linarith
  have hgP : ‖g - (P : ℂ)‖ ≤ ‖g‖ + P := by
    refine (norm_sub_le _ _).trans ?_
    rw [hc, abs_of_pos hPp]
  have hℓ' := abs_nonneg ℓ
  have hℓ0' := abs_nonneg ℓ0
  obtain ⟨m, hm, em, nm⟩ := geom_numer (L := L) (y := y) (ℓ := ℓ) es' hgP hGs (by
    refine ey.trans (mul_le_mul_of_nonneg_right (b := 11 / 10 * (4 + 560 + 2) + 1 + 4 * |ℓ|) ?_ hu.le)
    linarith) (by linarith)
  have hH : (‖g‖ + P) * (1 + |ℓ|) ≤ 2 ^ 209 := by
    rw [show 209 = 201 + 8 from rfl, pow_add]
    exact mul_le_mul hG2 (by norm_num; linarith) (by linarith) (by positivity)
  obtain ⟨f, hf, ef, nf⟩ := geom_quot (L := L) (y := y0) (ℓ := ℓ0) em nm (by norm_num) (by norm_num) (by
    refine ey0.trans (mul_le_mul_of_nonneg_right (b := 11 / 10 * (4 + 2 + 2) + 1 + 4 * |ℓ0|) ?_ hu.le)
    linarith) hlog (by linarith) (hH.trans (pow_le_pow_right₀ one_le_two (by norm_num)))
  refine ⟨f, ?_, ef, nf, ?_⟩
  · unfold Fdm.geomFunc
    rw [hp, hy, hy0]
    show (C128.mk' L gx - C128.mk' L (p : ℂ)) * C128.mk' L (y : ℂ) / C128.mk' L (y0 : ℂ) = _
    rw [hs, hm, hf]
  · show (‖g‖ + P) * (1 + |ℓ|) * ((1 + |ℓ0|) / ℓ0 ^ 2) ≤ _
    have hq : (1 + |ℓ0|) / ℓ0 ^ 2 ≤ 2 ^ 81 := by
      have h0 : 0 < |ℓ0| := lt_of_lt_of_le (by norm_num) hlog
      rw [← sq_abs ℓ0, div_le_iff₀ (by positivity)]
      have h1 : (1 / 10 ^ 9) ^ 2 ≤ |ℓ0| ^ 2 := pow_le_pow_left₀ (by norm_num) hlog 2
      norm_num at h1 ⊢
      linarith
    rw [show 290 = 209 + 81 from rfl, pow_add]
    exact mul_le_mul hH hq (by positivity) (by positivity)

/-- The product of the reflection coefficient and a geometry function. -/
theorem fdm_prod {b β f f' : ℂ} {H W : ℝ} (hb : ‖b - β‖ ≤ 1 / 10 ^ 13 * (1 + ‖β‖) ^ 2) (hβ : 1 + ‖β‖ ≤ 10 ^ 12)
    (hf : ‖f' - f‖ ≤ 1500 * uro * H + uro ^ 3) (hH : ‖f‖ ≤ H) (hW : 1 + H ≤ W) (hW2 : W ≤ 2 ^ 300) :
    ∃ m, (C128.mk' L b * C128.mk' L f' : C128 L) = C128.mk' L m ∧
      ‖m - β * f‖ ≤ 285 / 10 ^ 15 * ((1 + ‖β‖) ^ 2 * W) ∧ ‖β * f‖ ≤ (1 + ‖β‖) ^ 2 * W - 1 := by
  have hu := uro_pos
  have hu' := uro_le
  have he := eta_lt
  have hu3 : uro ^ 3 ≤ 1 / 10 ^ 20 := by rw [uro3_pow]; norm_num
  have hβ0 := norm_nonneg β
  set B := 1 + ‖β‖ with hB
  have hB1 : 1 ≤ B := by linarith
  have hH0 : 0 ≤ H := (norm_nonneg f).trans hH
  have hW1 : 1 ≤ W := by linarith
  have hBB : B ≤ B ^ 2 := by nlinarith
  have hBW : B * W ≤ B ^ 2 * W := mul_le_mul_of_nonneg_right hBB (by linarith)
  have h1W : 1 ≤ B * W := one_le_mul_of_one_le_of_one_le hB1 hW1
  have hδ : ‖b - β‖ ≤ 1 / 10 * B := by
    refine hb.trans ?_
    have := mul_le_mul_of_nonneg_right hβ (show 0 ≤ B by linarith)
    nlinarith
  have hε : ‖f' - f‖ ≤ 167 / 10 ^ 15 * W := by
    have := mul_le_mul_of_nonneg_right hu' hH0
    linarith
  have hf' : ‖f'‖ ≤ 101 / 100 * W := by
    have := norm_sub_norm_le f' f
    linarith
  have hb' : ‖b‖ ≤ 11 / 10 * B := by
    have := norm_sub_norm_le b β
    linarith
  have hprod : ‖b‖ * ‖f'‖ ≤ 12 / 10 * (B * W) := by
    have := mul_le_mul hb' hf' (norm_nonneg _) (by linarith)
    linarith
  obtain ⟨m, hm, em⟩ := C128.mul_err (L := L) (v := b) (w := f') (by
    have h1 : B * W ≤ 10 ^ 12 * 2 ^ 300 := mul_le_mul hβ hW2 (by linarith) (by norm_num)
    have h2 : (10 : ℝ) ^ 12 * 2 ^ 300 * 4 ≤ 2 ^ 400 := by
      rw [show 400 = 100 + 300 from rfl, pow_add, mul_right_comm]
      exact mul_le_mul_of_nonneg_right (by norm_num) (by positivity)
    have h3 := pow_le_max (n := 400) (by norm_num)
    have h4 : (12 / 10 * (B * W)) * 2 ≤ B * W * 4 := by linarith
    calc ‖b‖ * ‖f'‖ * 2 ≤ (12 / 10 * (B * W)) * 2 := by linarith
      _ ≤ B * W * 4 := h4
      _ ≤ 10 ^ 12 * 2 ^ 300 * 4 := mul_le_mul_of_nonneg_right h1 (by norm_num)
      _ ≤ _ := h2.trans h3)
  refine ⟨m, hm, ?_, ?_⟩
  · have e : m - β * f = (m - b * f') + ((b - β) * f + b * (f' - f)) := by ring
    rw [e]
    refine (norm_add_le _ _).trans ?_
    have h1 := norm_add_le ((b - β) * f) (b * (f' - f))
    rw [norm_mul, norm_mul] at h1
    have h2 : ‖b - β‖ * ‖f‖ ≤ 1 / 10 ^ 13 * (B ^ 2 * W) := by
      rw [← mul_assoc]
      exact mul_le_mul hb (by linarith) (norm_nonneg _) (by positivity)
    have h3 : ‖b‖ * ‖f' - f‖ ≤ 11 / 10 * B * (167 / 10 ^ 15 * W) :=
      mul_le_mul hb' hε (norm_nonneg _) (by linarith)
    have h4 : uro * (‖b‖ * ‖f'‖) ≤ 1111 / 10 ^ 19 * (12 / 10 * (B * W)) :=
      mul_le_mul hu' hprod (by positivity) (by norm_num)
    clear hW2
    generalize B ^ 2 * W = Q at *
    generalize ‖b‖ * ‖f'‖ = X at *
    linarith
  · rw [norm_mul]
    have h1 : ‖β‖ * ‖f‖ ≤ ‖β‖ * W := mul_le_mul_of_nonneg_left (by linarith) hβ0
    have h2 : ‖β‖ * W = B * W - W := by rw [hB]; ring
    linarith

/-- The denominator. -/
theorem fdm_den {m p : ℂ} {Q : ℝ} (hm : ‖m - p‖ ≤ 285 / 10 ^ 15 * Q) (hp : ‖p‖ ≤ Q - 1) (hQ : Q ≤ 2 ^ 400) :
    ∃ d, (clit 2 * (clit 1 - C128.mk' L m) : C128 L) = C128.mk' L d ∧ ‖d - 2 * (1 - p)‖ ≤ 575 / 10 ^ 15 * Q := by
  have hu := uro_pos
  have hu' := uro_le
  have he := eta_lt
  have hp0 := norm_nonneg p
  have hQ1 : 1 ≤ Q := by linarith
  have huQ : uro * Q ≤ 1111 / 10 ^ 19 * Q := mul_le_mul_of_nonneg_right hu' (by linarith)
  have hmn : ‖m‖ ≤ 101 / 100 * Q - 1 := by
    have := norm_sub_norm_le m p
    linarith
  have hmax : Q * 100 ≤ maxDouble := by
    have h3 := pow_le_max (n := 407) (by norm_num)
    rw [show 407 = 7 + 400 from rfl, pow_add] at h3
    refine le_trans ?_ h3
    clear h3
    generalize (2 : ℝ) ^ 400 = P at *
    norm_num
    linarith
  rw [C128.clit_two, C128.clit_one]
  obtain ⟨s, hs, es⟩ := C128.sub_err (L := L) (v := 1) (w := m) (by rw [norm_one]; linarith)
  rw [norm_one] at es
  have hum : uro * ‖m‖ ≤ uro * (101 / 100 * Q - 1) := mul_le_mul_of_nonneg_left hmn hu.le
  have es' : ‖s - (1 - p)‖ ≤ 2856 / 10 ^ 16 * Q := by
    have e : s - (1 - p) = (s - (1 - m)) - (m - p) := by ring
    rw [e]
    refine (norm_sub_le _ _).trans ?_
    linarith
  have hsn : ‖s‖ ≤ 101 / 100 * Q := by
    have h1 := norm_sub_norm_le s (1 - p)
    have h2 := norm_sub_le (1 : ℂ) p
    rw [norm_one] at h2
    linarith
  obtain ⟨d, hd, ed⟩ := C128.mul_err (L := L) (v := 2) (w := s) (by rw [Complex.norm_ofNat]; linarith)
  rw [Complex.norm_ofNat] at ed
  refine ⟨d, by rw [hs, hd], ?_⟩
  have e : d - 2 * (1 - p) = (d - 2 * s) + 2 * (s - (1 - p)) := by ring
  rw [e]
  refine (norm_add_le _ _).trans ?_
  rw [norm_mul, Complex.norm_ofNat]
  have : uro * ‖s‖ ≤ uro * (101 / 100 * Q) := mul_le_mul_of_nonneg_left hsn hu.le
  linarith

/-- The quotient and the final sum. -/
theorem fdm_quot {m d p D : ℂ} {Q κ : ℝ} (hm : ‖m - p‖ ≤ 285 / 10 ^ 15 * Q) (hd : ‖d - 2 * D‖ ≤ 575 / 10 ^ 15 * Q)
    (hp : ‖p‖ ≤ Q - 1) (hD : ‖D‖ ≤ Q) (hQ : Q ≤ 2 ^ 400) (hκ : Q ≤ κ * ‖D‖) (hκ2 : κ ≤ 10 ^ 9) :
    ∃ w, (clit 1 + C128.mk' L m / C128.mk' L d : C128 L) = C128.mk' L w ∧
      ‖w - (1 + p / (2 * D))‖ ≤ 4 / 10 ^ 13 * κ * (1 + ‖p / (2 * D)‖) := by
  have hu := uro_pos
  have hu' := uro_le
  have he := eta_lt
  have hp0 := norm_nonneg p
  have hQ1 : 1 ≤ Q := by linarith
  have hD0 : 0 < ‖D‖ := by
    rcases (norm_nonneg D).lt_or_eq with h | h
    · exact h
    · rw [← h, mul_zero] at hκ
      linarith
  have hκ1 : 1 ≤ κ := by
    by_contra h
    push Not at h
    have := mul_lt_mul_of_pos_right h hD0
    linarith
  have hκD : κ * ‖D‖ ≤ 10 ^ 9 * ‖D‖ := mul_le_mul_of_nonneg_right hκ2 hD0.le
  have hQD : Q ≤ 10 ^ 9 * ‖D‖ := hκ.trans hκD
  have hn2 : ‖(2 : ℂ) * D‖ = 2 * ‖D‖ := by rw [norm_mul, Complex.norm_ofNat]
  have hd1 : 199 / 100 * ‖D‖ ≤ ‖d‖ := by
    have h1 := norm_sub_norm_le (2 * D) d
    rw [norm_sub_rev, hn2] at h1
    linarith
  have hd2 : ‖d‖ ≤ 3 * Q := by
    have h1 := norm_sub_norm_le d (2 * D)
    rw [hn2] at h1
    linarith
  have hmn : ‖m‖ ≤ 101 / 100 * Q := by
    have := norm_sub_norm_le m p
    linarith
  have hd0 : 0 < ‖d‖ := by linarith
  have hdne : d ≠ 0 := norm_pos_iff.1 hd0
  have hDne : D ≠ 0 := norm_pos_iff.1 hD0
  set q := p / (2 * D) with hq
  have hq0 := norm_nonneg q
  -- the quotient without rounding
  have hquot : ‖m / d - q‖ ≤ 29 / 10 ^ 14 * κ * (1 + ‖q‖) := by
    have e : m / d - q = ((m - p) - q * (d - 2 * D)) / d := by
      rw [hq]
      field_simp
      ring
    rw [e, norm_div, div_le_iff₀ hd0]
    refine (norm_sub_le _ _).trans ?_
    rw [norm_mul]
    have h1 : ‖q‖ * ‖d - 2 * D‖ ≤ ‖q‖ * (575 / 10 ^ 15 * Q) := mul_le_mul_of_nonneg_left hd hq0
    have h2 : 199 / 100 * Q ≤ κ * ‖d‖ := by
      have := mul_le_mul_of_nonneg_left hd1 (show 0 ≤ κ by linarith)
      linarith
    have h3 := mul_le_mul_of_nonneg_right h2 (show 0 ≤ 1 + ‖q‖ by linarith)
    have h4 : 0 ≤ ‖q‖ * Q := mul_nonneg hq0 (by linarith)
    have e2 : 29 / 10 ^ 14 * κ * (1 + ‖q‖) * ‖d‖ = 29 / 10 ^ 14 * (κ * ‖d‖ * (1 + ‖q‖)) := by ring
    rw [e2]
    linarith
  have hmd : ‖m‖ / ‖d‖ ≤ 2 * (1 + ‖q‖) := by
    rw [← norm_div]
    have h1 := norm_sub_norm_le (m / d) q
    have h2 : 29 / 10 ^ 14 * κ * (1 + ‖q‖) ≤ 1 * (1 + ‖q‖) :=
      mul_le_mul_of_nonneg_right (by linarith) (by linarith)
    linarith
  have hq2 : ‖q‖ ≤ 10 ^ 9 := by
    rw [hq, norm_div, hn2, div_le_iff₀ (by linarith)]
    linarith
  have hmax : Q * 100 ≤ maxDouble := by
    have h3 := pow_le_max (n := 407) (by norm_num)
    rw [show 407 = 7 + 400 from rfl, pow_add] at h3
    refine le_trans ?_ h3
    clear h3
    generalize (2 : ℝ) ^ 400 = P at *
    norm_num
    linarith
  have hmax2 : (10 : ℝ) ^ 20 ≤ maxDouble := le_trans (by norm_num) (pow_le_max (n := 100) (by norm_num))
  have hu3 : uro ^ 3 ≤ 1 / 10 ^ 20 := by rw [uro3_pow]; norm_num
  have humd : uro * (‖m‖ / ‖d‖) ≤ 1111 / 10 ^ 19 * (2 * (1 + ‖q‖)) := mul_le_mul hu' hmd (by positivity) (by norm_num)
  obtain ⟨y, hy, ey⟩ := C128.div_err (L := L) (v := m) (w := d) (by
      have h1 : ((1 : ℝ) / 2) ^ 900 ≤ (1 / 2) ^ 100 := pow_le_pow_of_le_one (by norm_num) (by norm_num) (by norm_num)
      have h2 : ((1 : ℝ) / 2) ^ 100 ≤ 1 / 10 ^ 10 := by norm_num
      exact h1.trans (h2.trans (by linarith))) (by linarith) (by linarith) (by linarith)
  have hyq : ‖y - q‖ ≤ 291 / 10 ^ 15 * κ * (1 + ‖q‖) + 1 / 10 ^ 13 * (1 + ‖q‖) := by
    have e : y - q = (y - m / d) + (m / d - q) := by ring
    rw [e]
    refine (norm_add_le _ _).trans ?_
    have h1 : 0 ≤ κ * (1 + ‖q‖) := by positivity
    have e2 : 291 / 10 ^ 15 * κ * (1 + ‖q‖) = 291 / 10 ^ 15 * (κ * (1 + ‖q‖)) := by ring
    have e3 : 29 / 10 ^ 14 * κ * (1 + ‖q‖) = 29 / 10 ^ 14 * (κ * (1 + ‖q‖)) := by ring
    rw [e2]
    rw [e3] at hquot
    linarith
  have hyn : ‖y‖ ≤ 2 * (1 + ‖q‖) := by
    have h1 := norm_sub_norm_le y q
    have h2 : 291 / 10 ^ 15 * κ * (1 + ‖q‖) ≤ 1 / 2 * (1 + ‖q‖) :=
      mul_le_mul_of_nonneg_right (by linarith) (by linarith)
    linarith
  obtain ⟨w, hw, ew⟩ := C128.add_err (L := L) (v := 1) (w := y) (by rw [norm_one]; linarith)
  rw [norm_one] at ew
  refine ⟨w, by rw [C128.clit_one, hy, hw], ?_⟩
  have e : w - (1 + q) = (w - (1 + y)) + (y - q) := by ring
  rw [e]
  refine (norm_add_le _ _).trans ?_
  have huy : uro * ‖y‖ ≤ 1111 / 10 ^ 19 * (2 * (1 + ‖q‖)) := mul_le_mul hu' hyn (norm_nonneg _) (by norm_num)
  have h1 : 1 * (1 + ‖q‖) ≤ κ * (1 + ‖q‖) := mul_le_mul_of_nonneg_right hκ1 (by linarith)
  have e2 : 291 / 10 ^ 15 * κ * (1 + ‖q‖) = 291 / 10 ^ 15 * (κ * (1 + ‖q‖)) := by ring
  have e3 : 4 / 10 ^ 13 * κ * (1 + ‖q‖) = 4 / 10 ^ 13 * (κ * (1 + ‖q‖)) := by ring
  rw [e3]
  rw [e2] at hyq
  linarith

/-- The parameters of a tip, known up to rounding errors. -/
structure Fdm.TipNear (p : FdmTip (F64 L) (C128 L)) (d0 d1 r l : ℝ) (g : ℂ) : Prop where
  r : p.rTip.Near r 2
  l : p.lTip.Near l 2
  g : p.gFactor.Near g 2
  d0 : p.dQ0.Near d0 20
  d1 : p.dQ1.Near d1 20

theorem Fdm.pol_sub_one (z d0 d1 r l : ℝ) (g β : ℂ) :
    Fdm.pol z d0 d1 r l g β - 1 = β * Fdm.geom z d0 r l g / (2 * (1 - β * Fdm.geom z d1 r l g)) := by
  unfold Fdm.pol
  ring

/-- The formula at one height. -/
theorem Fdm.formula_near {p : FdmTip (F64 L) (C128 L)} {zT : F64 L} {z d0 d1 r l : ℝ} {g b β : ℂ}
    (ha : Fdm.TipNear p d0 d1 r l g) (hbe : ‖b - β‖ ≤ 1 / 10 ^ 13 * (1 + ‖β‖) ^ 2) (hβ : 1 + ‖β‖ ≤ 10 ^ 12)
    (R0 : Fdm.Range z d0 r l g) (R1 : Fdm.Range z d1 r l g)
    (hz : ∃ x, zT = .fin x ∧ |x - z| ≤ 130 * uro * (r + z))
    (h0 : 1 - β * Fdm.geom z d1 r l g ≠ 0) (hκ : Fdm.condition z d0 d1 r l g β ≤ 10 ^ 9) :
    ∃ w, Fdm.effPolFormula (C128.mk' L b) (Fdm.geomFunc zT p.dQ0 p.rTip p.lTip p.gFactor) (C128.mk' L b)
        (Fdm.geomFunc zT p.dQ1 p.rTip p.lTip p.gFactor) = C128.mk' L w ∧
      ‖w - Fdm.pol z d0 d1 r l g β‖ ≤
        4 / 10 ^ 13 * Fdm.condition z d0 d1 r l g β * (1 + ‖Fdm.pol z d0 d1 r l g β - 1‖) := by
  obtain ⟨f0, hf0, e0, n0, m0⟩ := Fdm.geom_near (L := L) R0 ha.r ha.l ha.g hz ha.d0 (by norm_num) le_rfl
  obtain ⟨f1, hf1, e1, n1, m1⟩ := Fdm.geom_near (L := L) R1 ha.r ha.l ha.g hz ha.d1 (by norm_num) le_rfl
  have hD : 0 < ‖1 - β * Fdm.geom z d1 r l g‖ := norm_pos_iff.2 h0
  rw [Fdm.pol_sub_one]
  unfold Fdm.condition at hκ ⊢
  unfold Fdm.pol
  generalize Fdm.geom z d0 r l g = G0 at *
  generalize Fdm.geom z d1 r l g = G1 at *
  generalize Fdm.size z d0 r l g = H0 at *
  generalize Fdm.size z d1 r l g = H1 at *
  have hH0 := (norm_nonneg _).trans n0
  have hH1 := (norm_nonneg _).trans n1
  have hW : 1 + H0 + H1 ≤ 2 ^ 300 := by
    have h1 : (1 : ℝ) ≤ 2 ^ 290 := one_le_pow₀ one_le_two
    rw [show 300 = 10 + 290 from rfl, pow_add]
    clear hκ
    generalize (2 : ℝ) ^ 290 = P at *
    norm_num
    linarith
  obtain ⟨p0, hp0, ep0, np0⟩ := fdm_prod (L := L) hbe hβ e0 n0 (show 1 + H0 ≤ 1 + H0 + H1 by linarith) hW
  obtain ⟨p1, hp1, ep1, np1⟩ := fdm_prod (L := L) hbe hβ e1 n1 (show 1 + H1 ≤ 1 + H0 + H1 by linarith) hW
  have hQ : (1 + ‖β‖) ^ 2 * (1 + H0 + H1) ≤ 2 ^ 400 := by
    have h1 : (1 + ‖β‖) ^ 2 ≤ (10 ^ 12) ^ 2 := pow_le_pow_left₀ (by positivity) hβ 2
    have h2 : ((10 : ℝ) ^ 12) ^ 2 ≤ 2 ^ 100 := by norm_num
    rw [show 400 = 100 + 300 from rfl, pow_add]
    exact mul_le_mul (h1.trans h2) hW (by linarith) (by positivity)
  obtain ⟨d, hd, ed⟩ := fdm_den (L := L) ep1 np1 hQ
  have hD2 : ‖1 - β * G1‖ ≤ (1 + ‖β‖) ^ 2 * (1 + H0 + H1) := by
    refine (norm_sub_le _ _).trans ?_
    rw [norm_one]
    linarith
  obtain ⟨w, hw, ew⟩ := fdm_quot (L := L) ep0 ed np0 hD2 hQ (κ := (1 + ‖β‖) ^ 2 * (1 + H0 + H1) / ‖1 - β * G1‖)
    (by rw [div_mul_cancel₀ _ hD.ne']) hκ
  refine ⟨w, ?_, ew⟩
  unfold Fdm.effPolFormula
  rw [hf0, hf1, hp0, hp1, hd, hw]

/-- One height. -/
theorem Fdm.effPol_near (cfg : Env) {S : Stack (F64 L) (C128 L)} (hS : S.multilayer = false)
    {a : FdmArgs (F64 L) (C128 L)} {zT : F64 L} {z d0 d1 r l : ℝ} {g b β : ℂ} (nLag : Option ℕ)
    (ha : Fdm.TipNear (cfg.defaults.fdm a) d0 d1 r l g)
    (hb : S.reflCoefQs = .ok (C128.mk' L b)) (hbe : ‖b - β‖ ≤ 1 / 10 ^ 13 * (1 + ‖β‖) ^ 2) (hβ : 1 + ‖β‖ ≤ 10 ^ 12)
    (R0 : Fdm.Range z d0 r l g) (R1 : Fdm.Range z d1 r l g)
    (hz : ∃ x, zT = .fin x ∧ |x - z| ≤ 130 * uro * (r + z))
    (h0 : 1 - β * Fdm.geom z d1 r l g ≠ 0) (hκ : Fdm.condition z d0 d1 r l g β ≤ 10 ^ 9) :
    ∃ w, Fdm.effPol cfg S (some zT) a nLag none = .ok (C128.mk' L w) ∧
      ‖w - Fdm.pol z d0 d1 r l g β‖ ≤
        4 / 10 ^ 13 * Fdm.condition z d0 d1 r l g β * (1 + ‖Fdm.pol z d0 d1 r l g β - 1‖) := by
  obtain ⟨w, hw, ew⟩ := Fdm.formula_near (L := L) ha hbe hβ R0 R1 hz h0 hκ
  refine ⟨w, ?_, ew⟩
  unfold Fdm.effPol
  simp only [Option.getD_none, Option.getD_some, hS, Bool.false_eq_true, if_false, if_true, hb, PyM.ok_bind]
  rw [hw]
  rfl

theorem Fdm.one_le_condition {z d0 d1 r l : ℝ} {g β : ℂ} (h0 : 1 - β * Fdm.geom z d1 r l g ≠ 0)
    (hs0 : 0 ≤ Fdm.size z d0 r l g) (hs1 : ‖Fdm.geom z d1 r l g‖ ≤ Fdm.size z d1 r l g) :
    1 ≤ Fdm.condition z d0 d1 r l g β := by
  have hD : 0 < ‖1 - β * Fdm.geom z d1 r l g‖ := norm_pos_iff.2 h0
  unfold Fdm.condition
  rw [one_le_div hD]
  have hβ := norm_nonneg β
  have hg := norm_nonneg (Fdm.geom z d1 r l g)
  refine (norm_sub_le _ _).trans ?_
  rw [norm_one, norm_mul]
  have h1 := mul_le_mul_of_nonneg_left hs1 hβ
  have h2 : ‖β‖ ≤ (1 + ‖β‖) ^ 2 := by nlinarith
  have h3 : (1 : ℝ) ≤ (1 + ‖β‖) ^ 2 := by nlinarith
  have h4 := mul_le_mul_of_nonneg_right h2 (hg.trans hs1)
  have h5 : 1 * (1 + Fdm.size z d0 r l g) ≤ (1 + ‖β‖) ^ 2 * (1 + Fdm.size z d0 r l g) :=
    mul_le_mul_of_nonneg_right h3 (by linarith)
  rw [mul_add]
  linarith

/-- The harmonics of a signal known at every height. -/
theorem Fdm.harmonics_near (cfg : Env) {S : Stack (F64 L) (C128 L)} {method : Option String}
    {a : FdmArgs (F64 L) (C128 L)} {z r A n M ε : ℝ} {G : ℝ → ℂ} (nLag : Option ℕ) {nT : Option ℕ}
    (hz0 : 0 ≤ z) (hs2 : z + 2 * A ≤ 2 ^ 100)
    (hA : 0 < A) (hA2 : 2 * A ≤ 9 * r) (hA1 : (1 / 2) ^ 700 ≤ A)
    (hn : |n| ≤ 10 ^ 12) (hN0 : 1 ≤ nT.getD cfg.defaults.nTrapz)
    (hN : ((nT.getD cfg.defaults.nTrapz : ℕ) : ℝ) ≤ 10 ^ 12) (hM0 : 0 ≤ M) (hM : M ≤ 10 ^ 9) (hε : ε ≤ (1 + M) / 10)
    (hval : ∀ y x, z ≤ y → y ≤ z + 2 * A → |x - y| ≤ 130 * uro * (r + y) →
      ∃ w, Fdm.effPol cfg S (some (.fin x)) a nLag method = .ok (C128.mk' L w) ∧ ‖w - G y‖ ≤ ε)
    (hG : ∀ y, z ≤ y → y ≤ z + 2 * A → ‖G y‖ ≤ 1 + M) :
    ∃ w, Fdm.effPolN cfg S (.fin A) (.fin n) (some (.fin z)) nT a nLag method = .ok (C128.mk' L w) ∧
      ‖w - demodSum G (z + A) A n (nT.getD cfg.defaults.nTrapz)‖ ≤
        101 / 100 * ε + (58 * |n| + 3 * (nT.getD cfg.defaults.nTrapz : ℕ) + 120) * uro * (1 + M) + uro ^ 3 := by
  have hu := uro_pos
  have hu' := uro_le
  have he' := eta_lt
  have hzA : 0 < z + A := by linarith
  have hsz : Sized |z + A| := by
    rw [abs_of_pos hzA]
    exact sized_of (a := 700) (b := 100) (by norm_num) (by norm_num) (hA1.trans (by linarith)) (by linarith)
  -- the mean height
  set c := rnd (z + A) with hcdef
  have hce := rnd_err (z + A)
  rw [← hcdef] at hce
  have heta := hsz.eta_le
  rw [abs_of_pos hzA] at hce heta
  have hce2 : |c - (z + A)| ≤ 11 / 10 * uro * (z + A) := by
    have : 0 ≤ uro * (z + A) := by positivity
    linarith
  have hc0 : |c| ≤ 101 / 100 * (z + A) := by
    have h1 := abs_sub_abs_le_abs_sub c (z + A)
    rw [abs_of_pos hzA] at h1
    have h2 : uro * (z + A) ≤ 1 / 1000 * (z + A) := mul_le_mul_of_nonneg_right (by linarith) hzA.le
    linarith
  have hc1 : |c| + A ≤ 2 * (z + 2 * A) := by linarith
  have hx0 : (F64.fin z + F64.fin A : F64 L) = .fin c := by
    rw [F64.fin_add]
    refine F64.ofReal_fin ?_
    have h1 := hsz.le_max
    rw [abs_of_pos hzA] at h1 ⊢
    have h2 : uro / 10 ^ 6 * (z + A) ≤ 1 * (z + A) := mul_le_mul_of_nonneg_right (by linarith) hzA.le
    have h3 : (z + A) * (1 + uro) ≤ (z + A) * 2 := mul_le_mul_of_nonneg_left (by linarith) hzA.le
    linarith
  have hsized : ∀ N : ℕ, 1 ≤ N → (N : ℝ) ≤ 10 ^ 12 → Sized (N * (1 + M)) := fun N h1 h2 => by
    have h3 : (1 : ℝ) ≤ N := by exact_mod_cast h1
    refine sized_of (a := 0) (b := 100) (by norm_num) (by norm_num) ?_ ?_
    · rw [pow_zero]
      exact one_le_mul_of_one_le_of_one_le h3 (by linarith)
    · have := mul_le_mul h2 (show 1 + M ≤ 10 ^ 10 by linarith) (by linarith) (by norm_num)
      exact this.trans (by norm_num)
  have hcosl : ∀ θ, -A ≤ Real.cos θ * A := fun θ => by nlinarith [Real.neg_one_le_cos θ]
  have hcosr : ∀ θ, Real.cos θ * A ≤ A := fun θ => by nlinarith [Real.cos_le_one θ]
  obtain ⟨w, hw, ew⟩ := demod_near (L := L) cfg (f := fun x => Fdm.effPol cfg S (some x) a nLag method)
    (g := fun x => G (x + (z + A - c))) (x0 := c) (A := A) (n := n)
    (ε := ε) (M := 1 + M) (nT := nT)
    hA.le (by
      refine sized_of (a := 700) (b := 200) (by norm_num) (by norm_num) (by linarith [abs_nonneg c]) ?_
      have h2 : (2 : ℝ) * 2 ^ 100 ≤ 2 ^ 200 := by norm_num
      linarith) hn hN0 hN
    (by have := hsized 1 le_rfl (by norm_num); rwa [Nat.cast_one, one_mul] at this) (hsized _ hN0 hN) hε
    (fun θ x hx => by
      have hxl := hcosl θ
      have hxr := hcosr θ
      have hxy := height_err hx hce2 hc0 hxl hz0 hA.le hA2
      have e1 : c + Real.cos θ * A + (z + A - c) = z + A + Real.cos θ * A := by ring
      simp only [e1]
      exact hval _ x (by linarith) (by linarith) hxy)
    (fun θ => by
      have e1 : c + Real.cos θ * A + (z + A - c) = z + A + Real.cos θ * A := by ring
      simp only [e1]
      exact hG _ (by linarith [hcosl θ]) (by linarith [hcosr θ]))
  refine ⟨w, ?_, ?_⟩
  · unfold Fdm.effPolN
    simp only [Option.getD_some]
    rw [hx0]
    exact hw
  · rwa [demodSum_shift G] at ew

/-- The harmonics. -/
theorem Fdm.effPolN_near (cfg : Env) {S : Stack (F64 L) (C128 L)} (hS : S.multilayer = false)
    {a : FdmArgs (F64 L) (C128 L)} {z d0 d1 r l A n κ M : ℝ} {g b β : ℂ} (nLag : Option ℕ) {nT : Option ℕ}
    (ha : Fdm.TipNear (cfg.defaults.fdm a) d0 d1 r l g)
    (hb : S.reflCoefQs = .ok (C128.mk' L b)) (hbe : ‖b - β‖ ≤ 1 / 10 ^ 13 * (1 + ‖β‖) ^ 2) (hβ : 1 + ‖β‖ ≤ 10 ^ 12)
    (R : ∀ x, z ≤ x → x ≤ z + 2 * A → Fdm.Range x d0 r l g ∧ Fdm.Range x d1 r l g)
    (hA : 0 < A) (hA2 : 2 * A ≤ 9 * r) (hA1 : (1 / 2) ^ 700 ≤ A)
    (hn : |n| ≤ 10 ^ 12) (hN0 : 1 ≤ nT.getD cfg.defaults.nTrapz)
    (hN : ((nT.getD cfg.defaults.nTrapz : ℕ) : ℝ) ≤ 10 ^ 12) (hκ1 : 1 ≤ κ) (hκ : κ ≤ 10 ^ 9) (hM : M ≤ 10 ^ 9)
    (hres : ∀ x, z ≤ x → x ≤ z + 2 * A → 1 - β * Fdm.geom x d1 r l g ≠ 0 ∧ Fdm.condition x d0 d1 r l g β ≤ κ ∧
      ‖Fdm.pol x d0 d1 r l g β - 1‖ ≤ M) :
    ∃ w, Fdm.effPolN cfg S (.fin A) (.fin n) (some (.fin z)) nT a nLag none = .ok (C128.mk' L w) ∧
      ‖w - demodSum (fun x => Fdm.pol x d0 d1 r l g β) (z + A) A n (nT.getD cfg.defaults.nTrapz)‖ ≤
        (41 / 10 ^ 14 * κ + (58 * |n| + 3 * (nT.getD cfg.defaults.nTrapz : ℕ) + 120) * uro) * (1 + M) := by
  have hu := uro_pos
  obtain ⟨Rz, -⟩ := R z le_rfl (by linarith)
  have hr0 : 0 < r := lt_of_lt_of_le (by positivity) Rz.r_ge
  have hM0 : 0 ≤ M := (norm_nonneg _).trans (hres z le_rfl (by linarith)).2.2
  have hs2 : z + 2 * A ≤ 2 ^ 100 := by
    obtain ⟨Rx, -⟩ := R (z + 2 * A) (by linarith) le_rfl
    have h1 := Rx.len
    have h2 := mul_nonneg Rx.d_nonneg hr0.le
    have h3 := Rz.z_nonneg
    linarith
  have hu3 : uro ^ 3 ≤ 1 / 10 ^ 16 := by rw [uro3_pow]; norm_num
  obtain ⟨w, hw, ew⟩ := Fdm.harmonics_near (L := L) cfg (S := S) (method := none) (a := a) (n := n) (M := M)
    (ε := 4 / 10 ^ 13 * κ * (1 + M)) (G := fun x => Fdm.pol x d0 d1 r l g β) nLag Rz.z_nonneg hs2 hA hA2 hA1 hn hN0 hN hM0 hM
    (by
      have h1 : 4 / 10 ^ 13 * κ * (1 + M) ≤ 4 / 10 ^ 4 * (1 + M) :=
        mul_le_mul_of_nonneg_right (by linarith) (by positivity)
      linarith)
    (fun y x y1 y2 hxy => by
      obtain ⟨h3, h4, h5⟩ := hres y y1 y2
      obtain ⟨R0, R1⟩ := R y y1 y2
      obtain ⟨w, hw, ew⟩ := Fdm.effPol_near (L := L) cfg hS nLag ha hb hbe hβ R0 R1 ⟨x, rfl, hxy⟩ h3 (h4.trans hκ)
      refine ⟨w, hw, ew.trans ?_⟩
      exact mul_le_mul (by linarith) (by linarith) (by positivity) (by positivity))
    (fun y h1 h2 => by
      obtain ⟨_, _, h3⟩ := hres y h1 h2
      have h4 := norm_add_le (1 : ℂ) (Fdm.pol y d0 d1 r l g β - 1)
      rw [norm_one, add_sub_cancel] at h4
      linarith)
  refine ⟨w, hw, ew.trans ?_⟩
  have h1 : 1 * 1 ≤ κ * (1 + M) := mul_le_mul hκ1 (by linarith) (by norm_num) (by linarith)
  have e4 : 4 / 10 ^ 13 * κ * (1 + M) = 4 / 10 ^ 13 * (κ * (1 + M)) := by ring
  have e5 : ∀ X : ℝ, (41 / 10 ^ 14 * κ + X * uro) * (1 + M) = 41 / 10 ^ 14 * (κ * (1 + M)) + X * uro * (1 + M) :=
    fun X => by ring
  rw [e4, e5]
  linarith

end Snompy
