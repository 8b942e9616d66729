import Verif.Lemmas.DoubleArith

/-!
# Complex doubles commit small errors

The only long part is the division, done by Smith's algorithm.
-/

namespace Snompy

variable {L : Libm}

attribute [local irreducible] maxDouble uro eta

/-- Numerators and denominators in Smith's algorithm. -/
theorem smith_lin {A B r ρ V : ℝ} (hr : |r - ρ| ≤ uro + eta) (hρ : |ρ| ≤ 1) (hA : |A| ≤ V) (hB : |B| ≤ V)
    (hV : V * 4 ≤ maxDouble) :
    (F64.ofReal (B * r) : F64 L) = .fin (rnd (B * r)) ∧
    (F64.ofReal (A + rnd (B * r)) : F64 L) = .fin (rnd (A + rnd (B * r))) ∧
      |rnd (A + rnd (B * r)) - (A + B * ρ)| ≤ 5 * uro * V + 3 * eta := by
  have hu := uro_pos
  have hu' := uro_lt
  have he := eta_pos
  have he' := eta_lt
  have hm := F64.one_le_max
  have hV0 : 0 ≤ V := (abs_nonneg A).trans hA
  have b0 := abs_nonneg B
  have huV : 0 ≤ uro * V := by positivity
  have hr1 : |r| ≤ 1 + 2 * uro := by
    have := abs_sub_abs_le_abs_sub r ρ
    linarith
  have hBr : |B * r| ≤ V * (1 + 2 * uro) := by
    rw [abs_mul]; exact mul_le_mul hB hr1 (abs_nonneg _) hV0
  obtain ⟨f1, g1, -⟩ := F64.fl (L := L) hBr (by nlinarith)
  have hd : |B * r - B * ρ| ≤ V * (uro + eta) := by
    rw [← mul_sub, abs_mul]; exact mul_le_mul hB hr (abs_nonneg _) hV0
  have hVe : V * eta ≤ V * (uro / 10 ^ 6) := mul_le_mul_of_nonneg_left he'.le hV0
  have huu : uro * uro * V ≤ uro * V / 10 ^ 15 := by
    have := mul_le_mul_of_nonneg_right hu'.le huV
    linarith
  have h1 : |rnd (B * r) - B * ρ| ≤ 21 / 10 * (uro * V) + eta := by
    have := abs_sub_le (rnd (B * r)) (B * r) (B * ρ)
    nlinarith
  have hBρ : |B * ρ| ≤ V := by
    rw [abs_mul]
    calc |B| * |ρ| ≤ V * 1 := mul_le_mul hB hρ (abs_nonneg _) hV0
      _ = V := mul_one V
  have hAB : |A + B * ρ| ≤ 2 * V := (abs_add_le _ _).trans (by linarith)
  have h2 : |A + rnd (B * r) - (A + B * ρ)| ≤ 21 / 10 * (uro * V) + eta := by
    rwa [add_sub_add_left_eq_sub]
  have hS : |A + rnd (B * r)| ≤ 2 * V + (21 / 10 * (uro * V) + eta) := by
    have := abs_sub_abs_le_abs_sub (A + rnd (B * r)) (A + B * ρ)
    linarith
  obtain ⟨f2, g2, -⟩ := F64.fl (L := L) hS (by nlinarith)
  refine ⟨f1, f2, ?_⟩
  have := abs_sub_le (rnd (A + rnd (B * r))) (A + rnd (B * r)) (A + B * ρ)
  have hue : uro * eta ≤ eta / 10 ^ 15 := by nlinarith
  nlinarith

theorem eta_max : eta * maxDouble ≤ 4 * uro := by
  have h : maxDouble ≤ 2 ^ 1024 := by
    rw [maxDouble_eq, show (1024 : ℕ) = 53 + 971 by rfl, pow_add]
    refine mul_le_mul_of_nonneg_right ?_ (by positivity)
    norm_num
  have h2 : eta * 2 ^ 1024 = 4 * uro := by
    unfold eta uro
    rw [show (1075 : ℕ) = 51 + 1024 by rfl, pow_add, mul_assoc, ← mul_pow]
    norm_num
  rw [← h2]
  exact mul_le_mul_of_nonneg_left h eta_pos.le

theorem eta_pow : eta * 2 ^ 900 ≤ uro ^ 3 / 100 := by
  have h2 : eta * 2 ^ 900 = (1 / 2) ^ 175 := by
    unfold eta
    rw [show (1075 : ℕ) = 175 + 900 by rfl, pow_add, mul_assoc, ← mul_pow]
    norm_num
  rw [h2]
  unfold uro
  norm_num

theorem smith_geo {c d W : ℝ} (hdc : |d| ≤ |c|) (hW : W ^ 2 = c ^ 2 + d ^ 2) (hWpos : 0 < W) :
    c ≠ 0 ∧ |c| ≤ W ∧ 7 / 10 * W ≤ |c + d * (d / c)| ∧ |c + d * (d / c)| ≤ 3 / 2 * W := by
  have hc : c ≠ 0 := by
    rintro rfl
    rw [abs_zero] at hdc
    have := abs_nonpos_iff.1 hdc
    rw [this] at hW
    nlinarith
  have hc0 := abs_pos.2 hc
  have hcW : |c| ≤ W := abs_le_of_sq_le_sq (by nlinarith) hWpos.le
  have hD₀' : c + d * (d / c) = W ^ 2 / c := by rw [hW]; field_simp
  refine ⟨hc, hcW, ?_, ?_⟩
  · rw [hD₀', abs_div, abs_of_nonneg (sq_nonneg W), le_div_iff₀ hc0]
    nlinarith
  · have hs : W ^ 2 ≤ 2 * c ^ 2 := by
      have := sq_le_sq.2 hdc
      linarith
    have hWc : W ≤ 3 / 2 * |c| := by
      refine abs_le_of_sq_le_sq' ?_ (by positivity) |>.2
      rw [mul_pow, sq_abs]; nlinarith
    rw [hD₀', abs_div, abs_of_nonneg (sq_nonneg W), div_le_iff₀ hc0]
    nlinarith

theorem smith_inv {D D₀ W u e : ℝ} (hu : 0 < u) (hu' : u < 1 / 10 ^ 15) (hWpos : 0 < W)
    (hl : 7 / 10 * W ≤ |D₀|) (hD : |D - D₀| ≤ 5 * u * W + 3 * e)
    (heW : e ≤ u ^ 3 / 100 * W) :
    0 < |D₀| ∧ D ≠ 0 ∧ |1 / D - 1 / D₀| ≤ 81 / 10 * u * (1 / |D₀|) ∧ |1 / D| ≤ (1 + 9 * u) * (1 / |D₀|) ∧
      1 / |D₀| ≤ 10 / 7 * (1 / W) := by
  have hD₀pos : 0 < |D₀| := by linarith
  have hD₀ne : D₀ ≠ 0 := abs_pos.1 hD₀pos
  have huW : 0 < u * W := by positivity
  have huD : 7 / 10 * (u * W) ≤ u * |D₀| := by
    have := mul_le_mul_of_nonneg_left hl hu.le
    linarith
  have hu3 : u ^ 3 * W ≤ u * W := by
    have : u ^ 2 ≤ 1 := by nlinarith
    have := mul_le_mul_of_nonneg_right this huW.le
    linarith
  have hDerr : |D - D₀| ≤ 8 * (u * |D₀|) := by linarith
  have hDlow : |D₀| * (1 - 8 * u) ≤ |D| := by
    have := abs_sub_abs_le_abs_sub D₀ D
    rw [abs_sub_comm] at this
    linarith
  have hDpos : 0 < |D| := lt_of_lt_of_le (mul_pos hD₀pos (by linarith)) hDlow
  have hDne : D ≠ 0 := abs_pos.1 hDpos
  have hI : (0 : ℝ) < 1 / |D₀| := by positivity
  have hinv : |1 / D - 1 / D₀| ≤ 81 / 10 * u * (1 / |D₀|) := by
    rw [div_sub_div _ _ hDne hD₀ne, one_mul, mul_one, abs_div, abs_mul, abs_sub_comm]
    rw [div_le_iff₀ (by positivity)]
    have h1 : 81 / 10 * u * (1 / |D₀|) * (|D| * |D₀|) = 81 / 10 * u * |D| := by field_simp
    rw [h1]
    have h2 := mul_le_mul_of_nonneg_left hDlow hu.le
    have h3 : u * (u * |D₀|) ≤ 1 / 10 ^ 15 * (u * |D₀|) := mul_le_mul_of_nonneg_right hu'.le (by positivity)
    nlinarith
  refine ⟨hD₀pos, hDne, hinv, ?_, ?_⟩
  · have := abs_sub_abs_le_abs_sub (1 / D) (1 / D₀)
    rw [abs_div 1 D₀, abs_one] at this
    nlinarith
  · rw [div_le_iff₀ hD₀pos]
    have : 10 / 7 * (1 / W) * (7 / 10 * W) = 1 := by field_simp
    have h2 : 10 / 7 * (1 / W) * (7 / 10 * W) ≤ 10 / 7 * (1 / W) * |D₀| :=
      mul_le_mul_of_nonneg_left hl (by positivity)
    linarith

theorem smith_prod {N N₀ s D₀ V W u e : ℝ} (hu : 0 < u) (hu' : u < 1 / 10 ^ 15) (he : 0 < e) (hWpos : 0 < W) (hV0 : 0 ≤ V)
    (hD₀pos : 0 < |D₀|) (hIW : 1 / |D₀| ≤ 10 / 7 * (1 / W)) (heW : e ≤ u ^ 3 / 100 * W)
    (hN0 : |N₀| ≤ 2 * V) (hNerr : |N - N₀| ≤ 5 * u * V + 3 * e)
    (hserr : |s - 1 / D₀| ≤ 11 * u * (1 / |D₀|)) :
    |N * s - N₀ / D₀| ≤ 389 / 10 * u * (V / W) + u ^ 3 / 10 := by
  have hI : (0 : ℝ) < 1 / |D₀| := by positivity
  have hetaIW : e * (1 / |D₀|) ≤ u ^ 3 / 50 := by
    have h1 : e * (1 / |D₀|) ≤ u ^ 3 / 100 * W * (10 / 7 * (1 / W)) :=
      mul_le_mul heW hIW hI.le (by positivity)
    have h2 : u ^ 3 / 100 * W * (10 / 7 * (1 / W)) = u ^ 3 / 70 := by field_simp; norm_num
    have : 0 < u ^ 3 := by positivity
    linarith
  have hs2 : |s| ≤ (1 + 11 * u) * (1 / |D₀|) := by
    have := abs_sub_abs_le_abs_sub s (1 / D₀)
    rw [abs_div 1 D₀, abs_one] at this
    linarith
  have hD₀ne : D₀ ≠ 0 := abs_pos.1 hD₀pos
  have h1 : N * s - N₀ / D₀ = (N - N₀) * s + N₀ * (s - 1 / D₀) := by field_simp; ring
  rw [h1]
  refine (abs_add_le _ _).trans ?_
  rw [abs_mul, abs_mul]
  have h2 : |N - N₀| * |s| ≤ (5 * u * V + 3 * e) * ((1 + 11 * u) * (1 / |D₀|)) :=
    mul_le_mul hNerr hs2 (abs_nonneg _) (by positivity)
  have h3 : |N₀| * |s - 1 / D₀| ≤ 2 * V * (11 * u * (1 / |D₀|)) :=
    mul_le_mul hN0 hserr (abs_nonneg _) (by positivity)
  have h4 : u * V * (1 / |D₀|) ≤ u * V * (10 / 7 * (1 / W)) :=
    mul_le_mul_of_nonneg_left hIW (by positivity)
  have h5 : u * V * (10 / 7 * (1 / W)) = 10 / 7 * (u * (V / W)) := by field_simp
  rw [h5] at h4
  have h6 : (5 * u * V + 3 * e) * ((1 + 11 * u) * (1 / |D₀|)) =
    (1 + 11 * u) * (5 * (u * V * (1 / |D₀|)) + 3 * (e * (1 / |D₀|))) := by ring
  have h7 : 2 * V * (11 * u * (1 / |D₀|)) = 22 * (u * V * (1 / |D₀|)) := by ring
  rw [h6] at h2
  rw [h7] at h3
  have h8 : (1 + 11 * u) * (5 * (u * V * (1 / |D₀|)) + 3 * (e * (1 / |D₀|))) ≤
      (101 / 100) * (5 * (10 / 7 * (u * (V / W))) + 3 * (u ^ 3 / 50)) :=
    mul_le_mul (by linarith) (by linarith) (by positivity) (by positivity)
  have : 0 ≤ u * (V / W) := by positivity
  have : 0 < u ^ 3 := by positivity
  linarith

/-- One component of a quotient in Smith's algorithm. -/
theorem smith {A B c d V W : ℝ} (hdc : |d| ≤ |c|) (hW : W ^ 2 = c ^ 2 + d ^ 2) (hA : |A| ≤ V) (hB : |B| ≤ V)
    (hWpos : 0 < W) (hetaW : eta ≤ uro ^ 3 / 100 * W) (hWinv : 1 / W * 8 ≤ maxDouble)
    (hV4 : V * 4 ≤ maxDouble) (hW4 : W * 4 ≤ maxDouble)
    (hq : V / W * (1 + 64 * uro) + uro ^ 3 ≤ maxDouble) (hN : |(A + B * (d / c)) / (c + d * (d / c))| ≤ V / W) :
    let r := rnd (d / c)
    let D := rnd (c + rnd (d * r))
    let N := rnd (A + rnd (B * r))
    let s := rnd (1 / D)
    c ≠ 0 ∧ (F64.ofReal (d / c) : F64 L) = .fin r ∧ (F64.ofReal (d * r) : F64 L) = .fin (rnd (d * r)) ∧
    (F64.ofReal (c + rnd (d * r)) : F64 L) = .fin D ∧ D ≠ 0 ∧ (F64.ofReal (1 / D) : F64 L) = .fin s ∧
    (F64.ofReal (B * r) : F64 L) = .fin (rnd (B * r)) ∧
    (F64.ofReal (A + rnd (B * r)) : F64 L) = .fin N ∧
    (F64.ofReal (N * s) : F64 L) = .fin (rnd (N * s)) ∧
    |rnd (N * s) - (A + B * (d / c)) / (c + d * (d / c))| ≤ 40 * uro * (V / W) + uro ^ 3 / 2 := by
  intro r D N s
  have hu := uro_pos
  have hu' := uro_lt
  have he := eta_pos
  have he' := eta_lt
  have hm := F64.one_le_max
  have hmx := eta_max
  have hV0 : 0 ≤ V := (abs_nonneg A).trans hA
  have hu30 : 0 < uro ^ 3 := by positivity
  have heu3 : eta ≤ uro ^ 3 / 10 := by
    have h1 := eta_pow
    have h2 : eta * 1 ≤ eta * 2 ^ 900 := mul_le_mul_of_nonneg_left (one_le_pow₀ (by norm_num)) he.le
    generalize eta * 2 ^ 900 = y at h1 h2
    linarith
  obtain ⟨hc, hcW, hD₀W, hD₀W'⟩ := smith_geo hdc hW hWpos
  clear hW
  have hc0 := abs_pos.2 hc
  have hρ : |d / c| ≤ 1 := by rw [abs_div]; exact div_le_one_of_le₀ hdc hc0.le
  have hdW : |d| ≤ W := hdc.trans hcW
  obtain ⟨fr, gr, -⟩ := F64.fl (L := L) hρ (by linarith)
  rw [mul_one] at gr
  obtain ⟨fd1, fd2, gd⟩ := smith_lin (L := L) gr hρ hcW hdW hW4
  obtain ⟨fn1, fn2, gn⟩ := smith_lin (L := L) gr hρ hA hB hV4
  have hN0 : |A + B * (d / c)| ≤ 2 * V := by
    refine (abs_add_le _ _).trans ?_
    have : |B * (d / c)| ≤ V * 1 := by
      rw [abs_mul]; exact mul_le_mul hB hρ (abs_nonneg _) hV0
    linarith
  obtain ⟨hD₀pos, hDne, hinv, hinv2, hIW⟩ := smith_inv hu hu' hWpos hD₀W gd hetaW
  generalize c + d * (d / c) = D₀ at *
  generalize A + B * (d / c) = N₀ at *
  have hI : (0 : ℝ) < 1 / |D₀| := by positivity
  have hetaI : eta ≤ 3 / 2 * uro * (1 / |D₀|) := by
    rw [mul_one_div, le_div_iff₀ hD₀pos]
    have h1 : eta * |D₀| ≤ eta * (3 / 2 * W) := mul_le_mul_of_nonneg_left hD₀W' he.le
    have h2 : eta * (W * 4) ≤ eta * maxDouble := mul_le_mul_of_nonneg_left hW4 he.le
    linarith
  have hbig : (1 + 9 * uro) * (1 / |D₀|) * (1 + uro) + eta ≤ maxDouble := by
    have h1 : (1 + 9 * uro) * (1 / |D₀|) * (1 + uro) ≤ 4 * (1 / W) := by
      have h2 : (1 + 9 * uro) * (1 + uro) ≤ 2 := by nlinarith
      have h3 := mul_le_mul h2 hIW hI.le (by norm_num)
      have : 0 < 1 / W := by positivity
      linarith
    linarith
  obtain ⟨fs, gs, -⟩ := F64.fl (L := L) hinv2 hbig
  have hserr : |s - 1 / D₀| ≤ 11 * uro * (1 / |D₀|) := by
    have h1 := abs_sub_le s (1 / D) (1 / D₀)
    have huu : uro * (uro * (1 / |D₀|)) ≤ 1 / 10 ^ 15 * (uro * (1 / |D₀|)) :=
      mul_le_mul_of_nonneg_right hu'.le (mul_pos hu hI).le
    have h2 : |s - 1 / D| ≤ uro * ((1 + 9 * uro) * (1 / |D₀|)) + eta := gs
    have h3 : 0 < uro * (1 / |D₀|) := by positivity
    linarith
  have hprod := smith_prod hu hu' he hWpos hV0 hD₀pos hIW hetaW hN0 gn hserr
  have hQ : 0 ≤ V / W := by positivity
  have huQ : 0 ≤ uro * (V / W) := by positivity
  have huuQ : uro * (uro * (V / W)) ≤ 1 / 10 ^ 15 * (uro * (V / W)) := mul_le_mul_of_nonneg_right hu'.le huQ
  have huu3 : uro * uro ^ 3 ≤ uro ^ 3 * (1 / 10 ^ 15) := by
    rw [mul_comm]
    exact mul_le_mul_of_nonneg_left hu'.le hu30.le
  have hNs : |N * s| ≤ V / W + (389 / 10 * uro * (V / W) + uro ^ 3 / 10) := by
    have := abs_sub_abs_le_abs_sub (N * s) (N₀ / D₀)
    linarith
  obtain ⟨ff, gf, -⟩ := F64.fl (L := L) hNs (by linarith)
  refine ⟨hc, fr, fd1, fd2, hDne, fs, fn1, fn2, ff, ?_⟩
  have := abs_sub_le (rnd (N * s)) (N * s) (N₀ / D₀)
  linarith

theorem F64.ofReal_neg_fin {x y : ℝ} (h : (F64.ofReal x : F64 L) = .fin y) : (F64.ofReal (-x) : F64 L) = .fin (-y) := by
  unfold F64.ofReal at h ⊢
  rw [rnd_neg, abs_neg]
  split_ifs at h ⊢ with h1
  · rw [F64.fin.inj h]
  · unfold F64.infOf at h
    split_ifs at h

/-- A finite complex double. -/
def C128.mk' (L : Libm) (v : ℂ) : C128 L := ⟨.fin v.re, .fin v.im⟩

theorem norm_le_of_parts {z : ℂ} {e : ℝ} (h1 : |z.re| ≤ e) (h2 : |z.im| ≤ e) : ‖z‖ ≤ 17 / 12 * e := by
  have h := Complex.norm_le_sqrt_two_mul_max z
  have he := (abs_nonneg _).trans h1
  have h3 : Real.sqrt 2 ≤ 17 / 12 := by
    rw [show (17 / 12 : ℝ) = Real.sqrt ((17 / 12) ^ 2) from (Real.sqrt_sq (by norm_num)).symm]
    exact Real.sqrt_le_sqrt (by norm_num)
  exact h.trans (mul_le_mul h3 (max_le h1 h2) (le_max_of_le_left (abs_nonneg _)) (by norm_num))

theorem C128.div_err {v w : ℂ} (hw : (1 / 2) ^ 900 ≤ ‖w‖) (hV4 : ‖v‖ * 4 ≤ maxDouble) (hW4 : ‖w‖ * 4 ≤ maxDouble)
    (hq : ‖v‖ / ‖w‖ * (1 + 64 * uro) + uro ^ 3 ≤ maxDouble) :
    ∃ z, (C128.mk' L v / C128.mk' L w : C128 L) = C128.mk' L z ∧
      ‖z - v / w‖ ≤ 64 * uro * (‖v‖ / ‖w‖) + uro ^ 3 := by
  have hWpos : 0 < ‖w‖ := lt_of_lt_of_le (by positivity) hw
  have hone : (1 : ℝ) ≤ 2 ^ 900 * ‖w‖ := by
    have h3 := mul_le_mul_of_nonneg_left hw (show (0 : ℝ) ≤ 2 ^ 900 by positivity)
    rwa [← mul_pow, show (2 * (1 / 2) : ℝ) = 1 by norm_num, one_pow] at h3
  have hWinv : 1 / ‖w‖ * 8 ≤ maxDouble := by
    have h1 : 1 / ‖w‖ ≤ 2 ^ 900 := by rwa [div_le_iff₀ hWpos]
    refine le_trans ?_ (pow_le_max (n := 903) (by norm_num))
    rw [show (903 : ℕ) = 900 + 3 by rfl, pow_add]
    exact mul_le_mul h1 (by norm_num) (by norm_num) (by positivity)
  have hetaW : eta ≤ uro ^ 3 / 100 * ‖w‖ := by
    have h4 := mul_le_mul_of_nonneg_left hone eta_pos.le
    have h5 := mul_le_mul_of_nonneg_right eta_pow hWpos.le
    rw [mul_one, ← mul_assoc] at h4
    exact h4.trans h5
  clear hw hone
  have hW2 : ‖w‖ ^ 2 = w.re ^ 2 + w.im ^ 2 := by rw [Complex.sq_norm, Complex.normSq_apply]; ring
  have hwne : w ≠ 0 := norm_pos_iff.1 hWpos
  have hn0 : Complex.normSq w ≠ 0 := Complex.normSq_eq_zero.not.2 hwne
  have hns : Complex.normSq w = w.re * w.re + w.im * w.im := Complex.normSq_apply w
  have hre : |(v / w).re| ≤ ‖v‖ / ‖w‖ := by rw [← norm_div]; exact Complex.abs_re_le_norm _
  have him : |(v / w).im| ≤ ‖v‖ / ‖w‖ := by rw [← norm_div]; exact Complex.abs_im_le_norm _
  have hvr := Complex.abs_re_le_norm v
  have hvi := Complex.abs_im_le_norm v
  have hu := uro_pos
  have hfin : ∀ z : ℂ, |z.re - (v / w).re| ≤ 40 * uro * (‖v‖ / ‖w‖) + uro ^ 3 / 2 →
      |z.im - (v / w).im| ≤ 40 * uro * (‖v‖ / ‖w‖) + uro ^ 3 / 2 →
      ‖z - v / w‖ ≤ 64 * uro * (‖v‖ / ‖w‖) + uro ^ 3 := by
    intro z h1 h2
    have h3 := norm_le_of_parts (z := z - v / w) (e := 40 * uro * (‖v‖ / ‖w‖) + uro ^ 3 / 2) (by rwa [Complex.sub_re]) (by rwa [Complex.sub_im])
    have h4 : 0 ≤ uro * (‖v‖ / ‖w‖) := by positivity
    have h5 : 0 < uro ^ 3 := by positivity
    linarith
  show ∃ z, C128.div _ _ = _ ∧ _
  unfold C128.div C128.mk' C128.absGe
  dsimp only
  by_cases hdc : |w.im| ≤ |w.re|
  · have e1 : (v.re + v.im * (w.im / w.re)) / (w.re + w.im * (w.im / w.re)) = (v / w).re := by
      have hc := (smith_geo hdc hW2 hWpos).1
      rw [Complex.div_re, hns]
      rw [hns] at hn0
      have : w.re ^ 2 + w.im ^ 2 ≠ 0 := by rwa [sq, sq]
      field_simp
    have e2 : (v.im + -v.re * (w.im / w.re)) / (w.re + w.im * (w.im / w.re)) = (v / w).im := by
      have hc := (smith_geo hdc hW2 hWpos).1
      rw [Complex.div_im, hns]
      rw [hns] at hn0
      have : w.re ^ 2 + w.im ^ 2 ≠ 0 := by rwa [sq, sq]
      field_simp
      ring
    obtain ⟨hc, fr, fd1, fd2, hDne, fs, fn1, fn2, ff, gf⟩ := smith (L := L) hdc hW2 hvr hvi hWpos hetaW hWinv hV4 hW4 hq
      (by rw [e1]; exact hre)
    obtain ⟨-, -, -, -, -, -, fn1', fn2', ff', gf'⟩ := smith (L := L) hdc hW2 hvi (B := -v.re)
      (by rwa [abs_neg]) hWpos hetaW hWinv hV4 hW4 hq (by rw [e2]; exact him)
    rw [if_pos (decide_eq_true hdc), if_neg (by
      rintro ⟨h, -⟩
      exact hc (F64.fin.inj h))]
    have hneg : (F64.ofReal (v.re * rnd (w.im / w.re)) : F64 L) = .fin (-rnd (-v.re * rnd (w.im / w.re))) := by
      have := F64.ofReal_neg_fin fn1'
      rwa [neg_mul, neg_neg, ← neg_mul] at this
    have key : ∀ x y : ℝ, x + - -y = x + y := fun x y => by rw [neg_neg]
    simp only [F64.fin_div _ hc, fr, F64.fin_mul, fd1, F64.fin_add, fd2, F64.fin_div _ hDne, fs, fn1, fn2, ff, hneg,
      F64.fin_sub, key, fn2', ff']
    refine ⟨⟨_, _⟩, rfl, hfin _ ?_ ?_⟩
    · rw [← e1]; exact gf
    · rw [← e2]; exact gf'
  · have hW2' : ‖w‖ ^ 2 = w.im ^ 2 + w.re ^ 2 := by rw [hW2, add_comm]
    have hdc' : ¬ |w.im| ≤ |w.re| := hdc
    replace hdc := (not_le.1 hdc).le
    have hn0' : w.im ^ 2 + w.re ^ 2 ≠ 0 := by rw [← hW2']; positivity
    have e1 : (v.im + v.re * (w.re / w.im)) / (w.im + w.re * (w.re / w.im)) = (v / w).re := by
      have hc := (smith_geo hdc hW2' hWpos).1
      rw [Complex.div_re, hns]
      have : w.re * w.re + w.im * w.im ≠ 0 := by rw [← hns]; exact hn0
      have : w.re ^ 2 + w.im ^ 2 ≠ 0 := by rwa [sq, sq]
      field_simp
      ring
    have e2 : (-v.re + v.im * (w.re / w.im)) / (w.im + w.re * (w.re / w.im)) = (v / w).im := by
      have hc := (smith_geo hdc hW2' hWpos).1
      rw [Complex.div_im, hns]
      have : w.re * w.re + w.im * w.im ≠ 0 := by rw [← hns]; exact hn0
      have : w.re ^ 2 + w.im ^ 2 ≠ 0 := by rwa [sq, sq]
      field_simp
      ring
    obtain ⟨hc, fr, fd1, fd2, hDne, fs, fn1, fn2, ff, gf⟩ := smith (L := L) hdc hW2' hvi hvr hWpos hetaW hWinv hV4 hW4 hq
      (by rw [e1]; exact hre)
    obtain ⟨-, -, -, -, -, -, fn1', fn2', ff', gf'⟩ := smith (L := L) hdc hW2' (A := -v.re) (by rwa [abs_neg]) hvi
      hWpos hetaW hWinv hV4 hW4 hq (by rw [e2]; exact him)
    rw [if_neg (by simpa using hdc')]
    have key : ∀ y : ℝ, y + -v.re = -v.re + y := fun y => add_comm _ _
    have key2 : ∀ y : ℝ, y + v.im = v.im + y := fun y => add_comm _ _
    simp only [F64.fin_div _ hc, fr, F64.fin_mul, fd1, F64.fin_add, fd2, F64.fin_div _ hDne, fs, fn1, fn1', 
      F64.fin_sub, key, key2, fn2, fn2', ff, ff']
    refine ⟨⟨_, _⟩, rfl, hfin _ ?_ ?_⟩
    · rw [← e1]; exact gf
    · rw [← e2]; exact gf'

theorem norm_cauchy (v w : ℂ) : |v.re * w.re| + |v.im * w.im| ≤ ‖v‖ * ‖w‖ ∧ |v.re * w.im| + |v.im * w.re| ≤ ‖v‖ * ‖w‖ := by
  have hv : ‖v‖ ^ 2 = |v.re| ^ 2 + |v.im| ^ 2 := by rw [Complex.sq_norm, Complex.normSq_apply, sq_abs, sq_abs]; ring
  have hw : ‖w‖ ^ 2 = |w.re| ^ 2 + |w.im| ^ 2 := by rw [Complex.sq_norm, Complex.normSq_apply, sq_abs, sq_abs]; ring
  simp only [abs_mul]
  have key : ∀ a b c d : ℝ, ‖v‖ ^ 2 = a ^ 2 + b ^ 2 → ‖w‖ ^ 2 = c ^ 2 + d ^ 2 → a * c + b * d ≤ ‖v‖ * ‖w‖ := by
    intro a b c d h1 h2
    refine (abs_le_of_sq_le_sq' ?_ (by positivity)).2
    rw [mul_pow, h1, h2]
    nlinarith [sq_nonneg (a * d - b * c)]
  refine ⟨key _ _ _ _ hv hw, key _ _ _ _ hv ?_⟩
  rw [hw, add_comm]

/-- A sum of two rounded products. -/
theorem dot_err {x y P : ℝ} (h : |x| + |y| ≤ P) (hP : P * (1 + 4 * uro) + 8 * eta ≤ maxDouble) :
    (F64.ofReal x : F64 L) = .fin (rnd x) ∧ (F64.ofReal y : F64 L) = .fin (rnd y) ∧
    (F64.ofReal (rnd x + rnd y) : F64 L) = .fin (rnd (rnd x + rnd y)) ∧
      |rnd (rnd x + rnd y) - (x + y)| ≤ 5 / 2 * uro * P + 5 * eta := by
  have hu := uro_pos
  have hu' := uro_lt
  have he := eta_pos
  have hx := abs_nonneg x
  have hy := abs_nonneg y
  have hP0 : 0 ≤ P := by linarith
  have huP : 0 ≤ uro * P := by positivity
  have huuP : uro * (uro * P) ≤ 1 / 10 ^ 15 * (uro * P) := mul_le_mul_of_nonneg_right hu'.le huP
  have hue : uro * eta ≤ 1 / 10 ^ 15 * eta := mul_le_mul_of_nonneg_right hu'.le he.le
  have f1 := F64.fl (L := L) (x := x) (M := P) (by linarith) (by linarith)
  have f2 := F64.fl (L := L) (x := y) (M := P) (by linarith) (by linarith)
  have e1 := rnd_err x
  have e2 := rnd_err y
  have hs := mul_le_mul_of_nonneg_left h hu.le
  have h1 : |rnd x + rnd y - (x + y)| ≤ uro * P + 2 * eta := by
    rw [add_sub_add_comm]
    refine (abs_add_le _ _).trans ?_
    linarith
  have h2 : |rnd x + rnd y| ≤ P + (uro * P + 2 * eta) := by
    have := abs_sub_abs_le_abs_sub (rnd x + rnd y) (x + y)
    have := abs_add_le x y
    linarith
  obtain ⟨f3, g3, -⟩ := F64.fl (L := L) h2 (by linarith)
  refine ⟨f1.1, f2.1, f3, ?_⟩
  have := abs_sub_le (rnd (rnd x + rnd y)) (rnd x + rnd y) (x + y)
  linarith

theorem C128.clit_one : (clit 1 : C128 L) = C128.mk' L 1 := by
  show C128.ofComplex 1 = _
  unfold C128.ofComplex C128.mk'
  rw [Complex.one_re, Complex.one_im, F64.ofReal_one, F64.ofReal_zero]

theorem C128.clit_neg_one : (clit (-1) : C128 L) = C128.mk' L (-1) := by
  show C128.ofComplex (-1) = _
  unfold C128.ofComplex C128.mk'
  rw [Complex.neg_re, Complex.neg_im, Complex.one_re, Complex.one_im, neg_zero, F64.ofReal_neg_one, F64.ofReal_zero]

theorem C128.clit_zero : (clit 0 : C128 L) = C128.mk' L 0 := by
  show C128.ofComplex 0 = _
  unfold C128.ofComplex C128.mk'
  rw [Complex.zero_re, Complex.zero_im, F64.ofReal_zero]

theorem C128.clit_two : (clit 2 : C128 L) = C128.mk' L 2 := by
  show C128.ofComplex 2 = _
  unfold C128.ofComplex C128.mk'
  rw [Complex.re_ofNat, Complex.im_ofNat, F64.ofReal_zero]
  exact congrArg (C128.mk · _) F64.ofReal_two

theorem C128.mk'_mul (v w : ℂ) : (C128.mk' L v * C128.mk' L w : C128 L) =
    ⟨F64.ofReal (v.re * w.re) - F64.ofReal (v.im * w.im), F64.ofReal (v.re * w.im) + F64.ofReal (v.im * w.re)⟩ := by
  show C128.mul _ _ = _
  unfold C128.mul C128.mk'
  simp only [F64.fin_mul]

/-- Products with the zero constant. -/
theorem C128.mk'_mul_zero (v : ℂ) : (C128.mk' L v * C128.mk' L 0 : C128 L) = C128.mk' L 0 := by
  rw [C128.mk'_mul]
  simp only [Complex.zero_re, Complex.zero_im, mul_zero, F64.ofReal_zero, F64.fin_sub, F64.fin_add, neg_zero, add_zero]
  rfl

/-- Products with real factors that are exact. -/
theorem C128.mk'_mul_real {a b : ℝ} (h : Rep (a * b)) (hm : |a * b| ≤ maxDouble) :
    (C128.mk' L a * C128.mk' L b : C128 L) = C128.mk' L (a * b : ℝ) := by
  rw [C128.mk'_mul]
  simp only [Complex.ofReal_re, Complex.ofReal_im, mul_zero, zero_mul, F64.ofReal_zero, F64.fin_sub, F64.fin_add,
    neg_zero, add_zero, F64.ofReal_rep h hm]
  rfl

/-- The exponential of a real number stored in a complex double. -/
theorem C128.exp_real {p : ℝ} (hl : |p| ≤ expLimit) :
    ∃ x : ℝ, (CplxOps.exp (C128.mk' L p) : C128 L) = C128.mk' L x ∧ Rep x ∧ |x| ≤ maxDouble ∧
      |x - Real.exp p| ≤ 8 * uro * Real.exp p + 8 * eta := by
  have hu := uro_pos
  have hu' := uro_lt
  have he := eta_pos
  have he' := eta_lt
  have hm := F64.one_le_max
  have hE := Real.exp_pos p
  obtain ⟨f1, g1⟩ := F64.exp_fin (L := L) hl
  have hE1 : Real.exp p ≤ maxDouble * (1 - 2 / 10 ^ 14) :=
    (Real.exp_le_exp.2 (abs_le.1 hl).2).trans exp_expLimit_le
  have hc := L.cos_err 0
  have hs := L.sin_err 0
  rw [Real.cos_zero, abs_one, mul_one, show ((1 : ℝ) / 2) ^ 52 = 2 * uro by unfold uro; norm_num] at hc
  rw [Real.sin_zero, abs_zero, mul_zero, sub_zero] at hs
  have hs0 : L.sin 0 = 0 := abs_nonpos_iff.1 hs
  have hc1 : |L.cos 0| ≤ 1 + 2 * uro := by
    have := abs_sub_abs_le_abs_sub (L.cos 0) 1
    rw [abs_one] at this
    linarith
  obtain ⟨f2, g2, -⟩ := F64.fl (L := L) hc1 (by nlinarith)
  have hc3 : |rnd (L.cos 0) - 1| ≤ 31 / 10 * uro := by
    have := abs_sub_le (rnd (L.cos 0)) (L.cos 0) 1
    nlinarith
  set a := rnd (L.exp p) with ha
  set c := rnd (L.cos 0) with hcdef
  set E := Real.exp p with hEdef
  have huE : 0 < uro * E := by positivity
  have huuE : uro * (uro * E) ≤ 1 / 10 ^ 15 * (uro * E) := mul_le_mul_of_nonneg_right hu'.le huE.le
  have g1' : |a - E| ≤ 301 / 100 * (uro * E) + eta := by nlinarith
  have ha2 : |a| ≤ E + (301 / 100 * (uro * E) + eta) := by
    have := abs_sub_abs_le_abs_sub a E
    rw [abs_of_pos hE] at this
    linarith
  have hprod : |a * c - E| ≤ 62 / 10 * (uro * E) + 2 * eta := by
    have h1 : a * c - E = (a - E) + a * (c - 1) := by ring
    rw [h1]
    refine (abs_add_le _ _).trans ?_
    rw [abs_mul]
    have h2 : |a| * |c - 1| ≤ (E + (301 / 100 * (uro * E) + eta)) * (31 / 10 * uro) :=
      mul_le_mul ha2 hc3 (abs_nonneg _) (by positivity)
    have h3 : uro * eta ≤ 1 / 10 ^ 15 * eta := mul_le_mul_of_nonneg_right hu'.le he.le
    nlinarith
  have hbound : |a * c| ≤ E + (62 / 10 * (uro * E) + 2 * eta) := by
    have := abs_sub_abs_le_abs_sub (a * c) E
    rw [abs_of_pos hE] at this
    linarith
  have huE' : uro * E ≤ 1 / 10 ^ 15 * E := mul_le_mul_of_nonneg_right hu'.le hE.le
  have hue : uro * eta ≤ 1 / 10 ^ 15 * eta := mul_le_mul_of_nonneg_right hu'.le he.le
  have hroom : (E + (62 / 10 * (uro * E) + 2 * eta)) * (1 + uro) + eta ≤ maxDouble := by linarith
  obtain ⟨f3, g3, hrep⟩ := F64.fl (L := L) hbound hroom
  refine ⟨rnd (a * c), ?_, hrep, ?_, ?_⟩
  · show C128.exp _ = _
    unfold C128.exp C128.mk'
    dsimp only [Complex.ofReal_re, Complex.ofReal_im]
    rw [f1]
    have t1 : (F64.trig L.cos (F64.fin 0) : F64 L) = F64.fin c := f2
    have t2 : (F64.trig L.sin (F64.fin 0) : F64 L) = F64.fin 0 := by
      show F64.ofReal (L.sin 0) = _
      rw [hs0, F64.ofReal_zero]
    rw [t1, t2, F64.fin_mul, F64.fin_mul, f3, mul_zero, F64.ofReal_zero]
  · have := abs_sub_abs_le_abs_sub (rnd (a * c)) (a * c)
    linarith
  · have := abs_sub_le (rnd (a * c)) (a * c) E
    linarith

/-- Complex doubles. -/
noncomputable def cplxArith (L : Libm) : Arith L (C128 L) where
  Val a v := a = C128.mk' L v
  kdiv := 64
  room := 4
  kdiv_ge := by norm_num
  kdiv_le := by norm_num
  room_ge := by norm_num
  room_le := le_rfl
  one := C128.clit_one
  neg_one := C128.clit_neg_one
  real x := rfl
  add := by
    rintro _ _ v w rfl rfl h
    have hu := uro_pos
    have he := eta_pos
    have n1 := norm_nonneg v
    have n2 := norm_nonneg w
    obtain ⟨f1, g1, -⟩ := F64.fl (L := L) (x := v.re + w.re) (M := ‖v‖ + ‖w‖)
      ((abs_add_le _ _).trans (add_le_add (Complex.abs_re_le_norm v) (Complex.abs_re_le_norm w))) (by nlinarith)
    obtain ⟨f2, g2, -⟩ := F64.fl (L := L) (x := v.im + w.im) (M := ‖v‖ + ‖w‖)
      ((abs_add_le _ _).trans (add_le_add (Complex.abs_im_le_norm v) (Complex.abs_im_le_norm w))) (by nlinarith)
    refine ⟨⟨rnd (v.re + w.re), rnd (v.im + w.im)⟩, ?_,
      (norm_le_of_parts (e := uro * (‖v‖ + ‖w‖) + eta) g1 g2).trans (by nlinarith)⟩
    show C128.add _ _ = _
    unfold C128.add C128.mk'
    dsimp only
    rw [F64.fin_add, F64.fin_add, f1, f2]
  mul := by
    rintro _ _ v w rfl rfl h
    have hu := uro_pos
    have he := eta_pos
    obtain ⟨c1, c2⟩ := norm_cauchy v w
    obtain ⟨f1, f2, f3, g3⟩ := dot_err (L := L) (x := v.re * w.re) (y := -(v.im * w.im)) (by rwa [abs_neg]) h
    obtain ⟨k1, k2, k3, m3⟩ := dot_err (L := L) c2 h
    refine ⟨⟨rnd (rnd (v.re * w.re) + rnd (-(v.im * w.im))), rnd (rnd (v.re * w.im) + rnd (v.im * w.re))⟩, ?_,
      (norm_le_of_parts (e := 5 / 2 * uro * (‖v‖ * ‖w‖) + 5 * eta) ?_ ?_).trans ?_⟩
    · have f2' := F64.ofReal_neg_fin f2
      rw [neg_neg] at f2'
      rw [C128.mk'_mul, f1, f2', k1, k2, F64.fin_sub, F64.fin_add, neg_neg, f3, k3]
      rfl
    · rwa [Complex.sub_re, Complex.mul_re, sub_eq_add_neg (v.re * w.re)]
    · rwa [Complex.sub_im, Complex.mul_im]
    · have : 0 ≤ uro * (‖v‖ * ‖w‖) := by positivity
      linarith
  half := by
    rintro _ v rfl h
    have hu := uro_pos
    have hu' := uro_lt
    have he := eta_pos
    have hn := norm_nonneg v
    have hue : uro * eta ≤ 1 / 10 ^ 15 * eta := mul_le_mul_of_nonneg_right hu'.le he.le
    have hun : 0 ≤ uro * ‖v‖ := by positivity
    have huun : uro * (uro * ‖v‖) ≤ 1 / 10 ^ 15 * (uro * ‖v‖) := mul_le_mul_of_nonneg_right hu'.le hun
    have key : ∀ x : ℝ, |x| ≤ ‖v‖ → (F64.ofReal x : F64 L) = .fin (rnd x) ∧
        (F64.ofReal (rnd x * (1 / 2)) : F64 L) = .fin (rnd (rnd x * (1 / 2))) ∧
        |rnd (rnd x * (1 / 2)) - x / 2| ≤ 21 / 10 * uro * (‖v‖ / 2) + 2 * eta := by
      intro x hx
      obtain ⟨f1, g1, -⟩ := F64.fl (L := L) hx (by linarith)
      have h1 : |rnd x| ≤ ‖v‖ + (uro * ‖v‖ + eta) := by
        have := abs_sub_abs_le_abs_sub (rnd x) x
        linarith
      have h2 : |rnd x * (1 / 2)| ≤ (‖v‖ + (uro * ‖v‖ + eta)) / 2 := by
        rw [abs_mul, abs_of_pos (show (0 : ℝ) < 1 / 2 by norm_num)]
        linarith
      obtain ⟨f2, g2, -⟩ := F64.fl (L := L) h2 (by linarith)
      refine ⟨f1, f2, ?_⟩
      have h3 := abs_sub_le (rnd (rnd x * (1 / 2))) (rnd x * (1 / 2)) (x / 2)
      have h4 : |rnd x * (1 / 2) - x / 2| = |rnd x - x| / 2 := by
        rw [show rnd x * (1 / 2) - x / 2 = (rnd x - x) / 2 by ring, abs_div, abs_two]
      linarith
    obtain ⟨a1, a2, a3⟩ := key v.re (Complex.abs_re_le_norm v)
    obtain ⟨b1, b2, b3⟩ := key v.im (Complex.abs_im_le_norm v)
    have hn2 : ‖v / 2‖ = ‖v‖ / 2 := by rw [norm_div]; norm_num
    refine ⟨⟨rnd (rnd v.re * (1 / 2)), rnd (rnd v.im * (1 / 2))⟩, ?_,
      (norm_le_of_parts (e := 21 / 10 * uro * (‖v‖ / 2) + 2 * eta) ?_ ?_).trans ?_⟩
    · rw [C128.clit_two]
      show C128.div _ _ = _
      unfold C128.div C128.mk' C128.absGe
      dsimp only [Complex.re_ofNat, Complex.im_ofNat]
      have h20 : (2 : ℝ) ≠ 0 := by norm_num
      rw [if_pos (by simp), if_neg (by
        rintro ⟨h, -⟩
        exact h20 (F64.fin.inj h))]
      have r1 : (F64.fin 0 / F64.fin 2 : F64 L) = .fin 0 := by rw [F64.fin_div _ h20, zero_div, F64.ofReal_zero]
      have r2 : (F64.fin 2 + F64.fin 0 * F64.fin 0 : F64 L) = .fin 2 := by
        rw [F64.fin_mul, mul_zero, F64.ofReal_zero, F64.fin_add, add_zero, F64.ofReal_two]
      have r3 : (F64.fin 1 / F64.fin 2 : F64 L) = .fin (1 / 2) := by
        rw [F64.fin_div _ h20, F64.ofReal_rep]
        · exact ⟨1, -1, by norm_num, by norm_num, by norm_num⟩
        · rw [abs_of_pos (by norm_num)]
          linarith [F64.one_le_max]
      simp only [r1, F64.fin_mul, mul_zero, F64.ofReal_two, r3, F64.ofReal_zero, F64.fin_add, F64.fin_sub, neg_zero, add_zero, a1, a2, b1,
        b2]
    · rw [Complex.sub_re, show (v / 2).re = v.re / 2 by simp]
      exact a3
    · rw [Complex.sub_im, show (v / 2).im = v.im / 2 by simp]
      exact b3
    · rw [hn2]
      linarith
  div := by
    rintro _ _ v w rfl rfl hw h1 h2 h3
    exact C128.div_err hw h1 h2 h3
  prop := by
    intro p hp hl
    have hlm : expLimit ≤ maxDouble := by
      have := F64.one_le_max
      have h1 := Real.add_one_le_exp expLimit
      have h2 := exp_expLimit_le
      nlinarith
    have c1 : (clit 1 * CplxOps.ofR (F64.fin p) : C128 L) = C128.mk' L p := by
      rw [C128.clit_one, ← Complex.ofReal_one]
      exact (C128.mk'_mul_real (by rwa [one_mul]) (by rw [one_mul]; linarith)).trans (by rw [one_mul])
    have c2 : (clit (-1) * CplxOps.ofR (F64.fin p) : C128 L) = C128.mk' L (-p : ℝ) := by
      rw [C128.clit_neg_one, ← Complex.ofReal_one, ← Complex.ofReal_neg]
      exact (C128.mk'_mul_real (by rw [neg_one_mul]; exact hp.neg) (by rw [neg_one_mul, abs_neg]; linarith)).trans
        (by rw [neg_one_mul])
    obtain ⟨x, ex, rx, mx, hx⟩ := C128.exp_real (L := L) hl
    obtain ⟨y, ey, ry, my, hy⟩ := C128.exp_real (L := L) (p := -p) (by rwa [abs_neg])
    have m1 : ∀ z : ℝ, Rep z → |z| ≤ maxDouble → (C128.mk' L z * clit 1 : C128 L) = C128.mk' L z := by
      intro z rz mz
      rw [C128.clit_one, ← Complex.ofReal_one]
      exact (C128.mk'_mul_real (by rwa [mul_one]) (by rwa [mul_one])).trans (by rw [mul_one])
    unfold Stack.propagation
    rw [c1, c2, ex, ey, C128.clit_zero, m1 x rx mx, m1 y ry my, C128.mk'_mul_zero, C128.mk'_mul_zero]
    refine ⟨_, _, rfl, ?_, rfl, rfl, rfl, ?_⟩
    · rwa [← Complex.ofReal_sub, Complex.norm_real, Real.norm_eq_abs]
    · rwa [← Complex.ofReal_sub, Complex.norm_real, Real.norm_eq_abs]

end Snompy
