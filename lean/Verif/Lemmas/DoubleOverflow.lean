import Verif.Lemmas.DoubleLayer

/-!
# Overflow in the quasistatic transfer matrix
-/

namespace Snompy

variable {L : Libm}

attribute [local irreducible] maxDouble uro eta

/-- Complex doubles with vanishing imaginary part. -/
theorem C128.mk'_real {z : ℂ} {a : C128 L} (h : a = C128.mk' L z) (hi : a.im = .fin 0) :
    ∃ x : ℝ, a = C128.mk' L (x : ℂ) ∧ z = x := by
  have : z.im = 0 := by rw [h] at hi; exact F64.fin.inj hi
  have hz : z = (z.re : ℂ) := Complex.ext rfl (by simpa using this)
  exact ⟨z.re, by rw [h, ← hz], hz⟩

theorem C128.mul_im (x y : ℝ) : (C128.mk' L x * C128.mk' L y : C128 L).im = .fin 0 := by
  rw [C128.mk'_mul]
  simp only [Complex.ofReal_re, Complex.ofReal_im, mul_zero, zero_mul, F64.ofReal_zero, F64.fin_add, add_zero]

theorem C128.add_im (x y : ℝ) : (C128.mk' L x + C128.mk' L y : C128 L).im = .fin 0 := by
  show (F64.fin 0 + F64.fin 0 : F64 L) = _
  rw [F64.fin_add, add_zero, F64.ofReal_zero]

theorem C128.div_im {x y : ℝ} (hy : y ≠ 0) {z : ℂ} (h : (C128.mk' L x / C128.mk' L y : C128 L) = C128.mk' L z) :
    (C128.mk' L x / C128.mk' L y : C128 L).im = .fin 0 := by
  have h2 := h
  change C128.div _ _ = _ at h2
  show (C128.div _ _).im = _
  unfold C128.div C128.mk' C128.absGe at h2 ⊢
  dsimp only [Complex.ofReal_re, Complex.ofReal_im] at h2 ⊢
  have hne : ¬ ((F64.fin y : F64 L) = .fin 0 ∧ (F64.fin 0 : F64 L) = .fin 0) := by
    rintro ⟨h, -⟩
    exact hy (F64.fin.inj h)
  rw [if_pos (by simp), if_neg hne] at h2 ⊢
  rw [F64.fin_div _ hy, zero_div, F64.ofReal_zero] at h2 ⊢
  simp only [F64.fin_mul, mul_zero, F64.ofReal_zero, F64.fin_add, F64.fin_sub, neg_zero, add_zero] at h2 ⊢
  have h3 := congrArg C128.im h2
  dsimp only at h3
  generalize (F64.fin 1 / F64.ofReal y : F64 L) = w at h3 ⊢
  cases w with
  | fin w => rw [F64.fin_mul, zero_mul, F64.ofReal_zero]
  | nan => cases h3
  | pinf =>
    have : (F64.fin 0 * F64.pinf : F64 L) = .nan := by
      show F64.infOf 0 = _
      simp [F64.infOf]
    rw [this] at h3
    cases h3
  | ninf =>
    have : (F64.fin 0 * F64.ninf : F64 L) = .nan := by
      show F64.infOf (-0) = _
      simp [F64.infOf]
    rw [this] at h3
    cases h3

/-- A number within the range stays there when it is rounded. -/
theorem F64.ofReal_room {x : ℝ} (h : |x| * (1 + 2 * uro) ≤ maxDouble) :
    (F64.ofReal x : F64 L) = .fin (rnd x) := by
  have hu := uro_pos
  have hu' := uro_lt
  have he := eta_lt
  refine F64.ofReal_fin ?_
  rcases le_total 1 |x| with h1 | h1
  · have : uro ≤ uro * |x| := le_mul_of_one_le_right hu.le h1
    linarith
  · have := F64.one_le_max
    nlinarith

/-- The numbers behind `div_real`. -/
theorem div_real_num {x y x' y' s z u e K : ℝ} (hu : 0 < u) (hu' : u < 1 / 10 ^ 15) (he : 0 < e) (hy : 0 < |y|)
    (hxe : |x' - x| ≤ u * |x| + e) (hye : |y' - y| ≤ 2 * u * |y|) (hse : |s - 1 / y'| ≤ u * |1 / y'| + e)
    (hze : |z - x' * s| ≤ u * |x' * s| + e) (hK : e / |y| ≤ K) (hme : e * |y| ≤ 4 * u) (hee : e ≤ u)
    (heK : e ≤ K * u) :
    |z - x / y| ≤ 12 * u * (|x| / |y|) + 4 * K ∧ |x' * s| ≤ |x| / |y| * (1 + 10 * u) + 4 * K := by
  have hy0 : y ≠ 0 := abs_pos.1 hy
  have hK0 : 0 ≤ K := le_trans (by positivity) hK
  have hy'l : |y| * (1 - 2 * u) ≤ |y'| := by
    have := abs_sub_abs_le_abs_sub y y'
    rw [abs_sub_comm] at this
    linarith
  have hy'p : 0 < |y'| := lt_of_lt_of_le (mul_pos hy (by linarith)) hy'l
  have hy'0 : y' ≠ 0 := abs_pos.1 hy'p
  set W := 1 / |y| with hW
  have hWp : 0 < W := by positivity
  have hinv : |1 / y'| ≤ W * (1 + 3 * u) := by
    rw [abs_div, abs_one, hW, div_mul_eq_mul_div, one_mul, div_le_div_iff₀ hy'p hy, one_mul]
    have h1 : (1 + 3 * u) * (|y| * (1 - 2 * u)) ≤ (1 + 3 * u) * |y'| := mul_le_mul_of_nonneg_left hy'l (by linarith)
    have h2 : |y| * 1 ≤ |y| * ((1 + 3 * u) * (1 - 2 * u)) := mul_le_mul_of_nonneg_left (by nlinarith) hy.le
    linarith
  have hdiff : |1 / y' - 1 / y| ≤ W * (3 * u) := by
    have h1 : 1 / y' - 1 / y = -(y' - y) * (1 / y') * (1 / y) := by field_simp; ring
    have hWa : |1 / y| = W := by rw [abs_div, abs_one]
    rw [h1, abs_mul, abs_mul, abs_neg, hWa]
    have h2 : |y' - y| * |1 / y'| ≤ 2 * u * |y| * (W * (1 + 3 * u)) := mul_le_mul hye hinv (abs_nonneg _) (by positivity)
    have h3 : |y| * W = 1 := by rw [hW]; field_simp
    have h4 : 2 * u * |y| * (W * (1 + 3 * u)) = 2 * u * (1 + 3 * u) * (|y| * W) := by ring
    rw [h4, h3, mul_one] at h2
    refine (mul_le_mul_of_nonneg_right h2 hWp.le).trans ?_
    rw [mul_comm]
    exact mul_le_mul_of_nonneg_left (by nlinarith) hWp.le
  have hs1 : |s - 1 / y| ≤ W * (41 / 10 * u) + e := by
    have h1 := abs_sub_le s (1 / y') (1 / y)
    have h2 := mul_le_mul_of_nonneg_left hinv hu.le
    have h3 : u * (W * (1 + 3 * u)) ≤ W * (11 / 10 * u) := by
      have : W * (u * (1 + 3 * u)) ≤ W * (11 / 10 * u) := mul_le_mul_of_nonneg_left (by nlinarith) hWp.le
      linarith
    linarith
  set P := |x| with hP
  have hP0 : 0 ≤ P := abs_nonneg x
  have hR : P / |y| = P * W := by rw [hW, mul_one_div]
  rw [hR]
  set Q := P * W with hQ
  have hQ0 : 0 ≤ Q := by positivity
  have hx' : |x'| ≤ P * (1 + u) + e := by
    have := abs_sub_abs_le_abs_sub x' x
    linarith
  have hKW : e * W ≤ K := by rw [hW, mul_one_div]; exact hK
  have hPe : P * e ≤ 4 * u * Q := by
    have h3 : W * |y| = 1 := by rw [hW]; field_simp
    calc P * e = P * e * (W * |y|) := by rw [h3, mul_one]
      _ = Q * (e * |y|) := by rw [hQ]; ring
      _ ≤ Q * (4 * u) := mul_le_mul_of_nonneg_left hme hQ0
      _ = _ := by ring
  have hprod : |x' * s - x / y| ≤ 95 / 10 * u * Q + 13 / 10 * K := by
    have h1 : x' * s - x / y = x' * (s - 1 / y) + (x' - x) * (1 / y) := by field_simp; ring
    have h2 : |x' * (s - 1 / y)| ≤ (P * (1 + u) + e) * (W * (41 / 10 * u) + e) := by
      rw [abs_mul]
      exact mul_le_mul hx' hs1 (abs_nonneg _) (by positivity)
    have h3 : |(x' - x) * (1 / y)| ≤ (u * P + e) * W := by
      rw [abs_mul, abs_div, abs_one]
      exact mul_le_mul_of_nonneg_right hxe hWp.le
    rw [h1]
    refine (abs_add_le _ _).trans ((add_le_add h2 h3).trans ?_)
    have h4 : (P * (1 + u) + e) * (W * (41 / 10 * u) + e) + (u * P + e) * W =
        (1 + u) * (41 / 10 * u) * Q + (1 + u) * (P * e) + 41 / 10 * u * (e * W) + e * e + u * Q + e * W := by
      rw [hQ]; ring
    rw [h4]
    have h5 : (1 + u) * (41 / 10 * u) * Q ≤ 42 / 10 * u * Q := mul_le_mul_of_nonneg_right (by nlinarith) hQ0
    have h6 : (1 + u) * (P * e) ≤ (1 + u) * (4 * u * Q) := mul_le_mul_of_nonneg_left hPe (by linarith)
    have h7 : (1 + u) * (4 * u * Q) ≤ 41 / 10 * u * Q := by
      have : (1 + u) * (4 * u) * Q ≤ 41 / 10 * u * Q := mul_le_mul_of_nonneg_right (by nlinarith) hQ0
      linarith
    have h8 : 41 / 10 * u * (e * W) ≤ 1 / 10 * K := mul_le_mul (by linarith) hKW (by positivity) (by norm_num)
    have h9 : e * e ≤ K * u * 1 := mul_le_mul heK (by linarith) he.le (by positivity)
    have h10 : K * u ≤ K * (1 / 10) := mul_le_mul_of_nonneg_left (by linarith) hK0
    have h11 : 0 ≤ u * Q := mul_nonneg hu.le hQ0
    clear_value Q P W
    linarith
  have hxy : |x / y| = Q := by rw [abs_div, ← hP, hQ, hW, mul_one_div]
  have hps : |x' * s| ≤ Q * (1 + 95 / 10 * u) + 13 / 10 * K := by
    have := abs_sub_abs_le_abs_sub (x' * s) (x / y)
    rw [hxy] at this
    linarith
  clear_value Q P W
  clear hinv hdiff hs1 hx' hPe hKW hR hQ hW hy'l hye hse hxe hme hK
  constructor
  · have h1 := abs_sub_le z (x' * s) (x / y)
    have h2 := mul_le_mul_of_nonneg_left hps hu.le
    have h3 : u * (Q * (1 + 95 / 10 * u) + 13 / 10 * K) ≤ 2 * u * Q + K := by
      have a0 : u * (1 + 95 / 10 * u) ≤ u * 2 := mul_le_mul_of_nonneg_left (by linarith) hu.le
      have a1 : u * (1 + 95 / 10 * u) * Q ≤ u * 2 * Q := mul_le_mul_of_nonneg_right a0 hQ0
      have a2 : u * (13 / 10) * K ≤ 1 * K := mul_le_mul_of_nonneg_right (by linarith) hK0
      linarith
    have h4 : K * u ≤ K * 1 := mul_le_mul_of_nonneg_left (by linarith) hK0
    linarith [mul_nonneg hu.le hQ0]
  · have := mul_nonneg hu.le hQ0
    linarith

theorem C128.div_real {x y : ℝ} (hw : (1 / 2) ^ 900 ≤ |y|) (h1 : |x| * (1 + 2 * uro) ≤ maxDouble)
    (h2 : |y| * (1 + 2 * uro) ≤ maxDouble) (h3 : |x| / |y| * (1 + 16 * uro) + uro ^ 3 ≤ maxDouble) :
    ∃ z : ℝ, (C128.mk' L (x : ℂ) / C128.mk' L (y : ℂ) : C128 L) = C128.mk' L (z : ℂ) ∧
      |z - x / y| ≤ 16 * uro * (|x| / |y|) + uro ^ 3 := by
  have hu := uro_pos
  have hu' := uro_lt
  have he := eta_pos
  have he' := eta_lt
  have hy : 0 < |y| := lt_of_lt_of_le (by positivity) hw
  have hpow := eta_pow
  have hK : eta / |y| ≤ uro ^ 3 / 100 := by
    refine le_trans ?_ hpow
    rw [div_le_iff₀ hy]
    have h4 : (2 : ℝ) ^ 900 * (1 / 2) ^ 900 = 1 := by rw [← mul_pow]; norm_num
    calc eta = eta * (2 ^ 900 * (1 / 2) ^ 900) := by rw [h4, mul_one]
      _ ≤ eta * (2 ^ 900 * |y|) :=
        mul_le_mul_of_nonneg_left (mul_le_mul_of_nonneg_left hw (by positivity)) he.le
      _ = _ := by ring
  have hbig : (2 : ℝ) ^ 901 + 1 ≤ maxDouble / 2 := by
    have := pow_le_max (n := 903) (by norm_num)
    have h5 : (2 : ℝ) ^ 903 = 4 * 2 ^ 901 := by rw [show 903 = 2 + 901 from rfl, pow_add]; norm_num
    have h6 : (1 : ℝ) ≤ 2 ^ 901 := one_le_pow₀ (by norm_num)
    rw [h5] at this
    clear hw hpow h5
    generalize (2 : ℝ) ^ 901 = T at *
    linarith
  have hWy : 1 / |y| ≤ 2 ^ 900 := by
    rw [div_le_iff₀ hy]
    have h4 : (2 : ℝ) ^ 900 * (1 / 2) ^ 900 = 1 := by rw [← mul_pow]; norm_num
    rw [← h4]
    exact mul_le_mul_of_nonneg_left hw (by positivity)
  have heK : eta ≤ uro ^ 3 / 100 * uro := by
    have : (2 : ℝ) ^ 900 * uro ≥ 1 := by
      have h7 : (2 : ℝ) ^ 53 * uro = 1 := by unfold uro; rw [← mul_pow]; norm_num
      have h8 : (2 : ℝ) ^ 53 ≤ 2 ^ 900 := pow_le_pow_right₀ (by norm_num) (by norm_num)
      rw [ge_iff_le, ← h7]
      exact mul_le_mul_of_nonneg_right h8 hu.le
    calc eta = eta * 1 := (mul_one _).symm
      _ ≤ eta * (2 ^ 900 * uro) := mul_le_mul_of_nonneg_left this he.le
      _ = eta * 2 ^ 900 * uro := by ring
      _ ≤ _ := mul_le_mul_of_nonneg_right hpow hu.le
  have huy : eta ≤ uro * |y| := by
    have h9 : uro ^ 3 / 100 ≤ uro := by
      have := Arith.uro3_lt
      clear hw hpow hbig hWy
      linarith
    have : eta / |y| ≤ uro := hK.trans h9
    rwa [div_le_iff₀ hy] at this
  have hme : eta * |y| ≤ 4 * uro := by
    have h9 : |y| ≤ maxDouble := by nlinarith
    exact (mul_le_mul_of_nonneg_left h9 he.le).trans eta_max
  clear hw hpow
  have hx' := rnd_err x
  have hy' := rnd_err y
  have hy2 : |rnd y - y| ≤ 2 * uro * |y| := by linarith
  have hyl : |y| / 2 ≤ |rnd y| := by
    have := abs_sub_abs_le_abs_sub y (rnd y)
    rw [abs_sub_comm] at this
    nlinarith
  have hy'p : 0 < |rnd y| := by linarith
  have hy'0 : rnd y ≠ 0 := abs_pos.1 hy'p
  have hinv : |1 / rnd y| ≤ 2 ^ 901 := by
    rw [abs_div, abs_one]
    have h5 : (2 : ℝ) ^ 901 = 2 * 2 ^ 900 := by rw [show 901 = 1 + 900 from rfl, pow_add]; norm_num
    have h6 : 1 / |rnd y| ≤ 2 * (1 / |y|) := by
      rw [mul_one_div, div_le_div_iff₀ hy'p hy]
      linarith
    rw [h5]
    linarith
  have hsfin : (F64.ofReal (1 / rnd y) : F64 L) = .fin (rnd (1 / rnd y)) := by
    refine F64.ofReal_room ?_
    have : |1 / rnd y| * (1 + 2 * uro) ≤ 2 ^ 901 * 2 :=
      mul_le_mul hinv (by linarith) (by linarith) (by positivity)
    linarith
  generalize (2 : ℝ) ^ 901 = T at hbig hinv
  clear hWy
  obtain ⟨e1, e2⟩ := div_real_num hu hu' he hy hx' hy2 (rnd_err (1 / rnd y)) (rnd_err (rnd x * rnd (1 / rnd y))) hK hme
    (by linarith) heK
  have hR : 0 ≤ |x| / |y| := by positivity
  have hu3 : 0 < uro ^ 3 := by positivity
  have hpfin : (F64.ofReal (rnd x * rnd (1 / rnd y)) : F64 L) = .fin (rnd (rnd x * rnd (1 / rnd y))) := by
    refine F64.ofReal_fin ?_
    have h5 := mul_le_mul_of_nonneg_right e2 (show 0 ≤ 1 + uro by linarith)
    have h6 : (|x| / |y| * (1 + 10 * uro) + 4 * (uro ^ 3 / 100)) * (1 + uro) ≤
        |x| / |y| * (1 + 16 * uro) + 5 * (uro ^ 3 / 100) := by
      have a1 : |x| / |y| * ((1 + 10 * uro) * (1 + uro)) ≤ |x| / |y| * (1 + 16 * uro) :=
        mul_le_mul_of_nonneg_left (by nlinarith) hR
      have a2 : uro ^ 3 * uro ≤ uro ^ 3 * (1 / 10) := mul_le_mul_of_nonneg_left (by linarith) hu3.le
      linarith
    have a3 : uro ^ 3 / 100 * uro ≤ uro ^ 3 / 100 * 1 := mul_le_mul_of_nonneg_left (by linarith) (by positivity)
    linarith
  refine ⟨rnd (rnd x * rnd (1 / rnd y)), ?_, ?_⟩
  · show C128.div _ _ = _
    unfold C128.div C128.mk' C128.absGe
    dsimp only [Complex.ofReal_re, Complex.ofReal_im]
    have hy0 : y ≠ 0 := abs_pos.1 hy
    have hne : ¬ ((F64.fin y : F64 L) = .fin 0 ∧ (F64.fin 0 : F64 L) = .fin 0) := by
      rintro ⟨h, -⟩
      exact hy0 (F64.fin.inj h)
    rw [if_pos (by simp), if_neg hne]
    rw [F64.fin_div _ hy0, zero_div, F64.ofReal_zero]
    simp only [F64.fin_mul, mul_zero, F64.ofReal_zero, F64.fin_add, F64.fin_sub, neg_zero, add_zero]
    rw [F64.ofReal_room h1, F64.ofReal_room h2, F64.fin_div _ hy'0, hsfin, F64.fin_mul, F64.fin_mul, hpfin, zero_mul,
      F64.ofReal_zero]
  · have := mul_nonneg hu.le hR
    linarith

/-- Complex doubles holding real numbers. -/
noncomputable def cplxRealArith (L : Libm) : Arith L (C128 L) where
  Val a v := ∃ x : ℝ, a = C128.mk' L (x : ℂ) ∧ v = x
  kdiv := 16
  room := 1 + 2 * uro
  kdiv_ge := by norm_num
  kdiv_le := by norm_num
  room_ge := by linarith [uro_pos]
  room_le := by linarith [uro_lt]
  one := ⟨1, by rw [C128.clit_one, Complex.ofReal_one], by simp⟩
  neg_one := ⟨-1, by rw [C128.clit_neg_one]; simp, by simp⟩
  real x := ⟨x, rfl, rfl⟩
  add := by
    rintro _ _ _ _ ⟨x, rfl, rfl⟩ ⟨y, rfl, rfl⟩ h
    obtain ⟨z, hz, ez⟩ := (cplxArith L).add _ _ _ _ (rfl : C128.mk' L (x : ℂ) = _) (rfl : C128.mk' L (y : ℂ) = _) h
    obtain ⟨w, hw, rfl⟩ := C128.mk'_real hz (C128.add_im x y)
    exact ⟨_, ⟨w, hw, rfl⟩, ez⟩
  mul := by
    rintro _ _ _ _ ⟨x, rfl, rfl⟩ ⟨y, rfl, rfl⟩ h
    obtain ⟨z, hz, ez⟩ := (cplxArith L).mul _ _ _ _ (rfl : C128.mk' L (x : ℂ) = _) (rfl : C128.mk' L (y : ℂ) = _) h
    obtain ⟨w, hw, rfl⟩ := C128.mk'_real hz (C128.mul_im x y)
    exact ⟨_, ⟨w, hw, rfl⟩, ez⟩
  half := by
    rintro _ _ ⟨x, rfl, rfl⟩ h
    obtain ⟨z, hz, ez⟩ := (cplxArith L).half _ _ (rfl : C128.mk' L (x : ℂ) = _) h
    have hz' : (C128.mk' L (x : ℂ) / C128.mk' L ((2 : ℝ) : ℂ) : C128 L) = C128.mk' L z := by
      have : (C128.mk' L (x : ℂ) / clit 2 : C128 L) = C128.mk' L z := hz
      rw [C128.clit_two] at this
      exact_mod_cast this
    obtain ⟨w, hw, rfl⟩ := C128.mk'_real hz' (C128.div_im (by norm_num) hz')
    refine ⟨_, ⟨w, ?_, rfl⟩, ez⟩
    rw [C128.clit_two]
    exact_mod_cast hw
  div := by
    rintro _ _ _ _ ⟨x, rfl, rfl⟩ ⟨y, rfl, rfl⟩ hw h1 h2 h3
    simp only [Complex.norm_real, Real.norm_eq_abs] at hw h1 h2 h3
    obtain ⟨z, hz, ez⟩ := C128.div_real (L := L) hw h1 h2 h3
    refine ⟨_, ⟨z, hz, rfl⟩, ?_⟩
    rw [← Complex.ofReal_div, ← Complex.ofReal_sub, Complex.norm_real, Complex.norm_real, Complex.norm_real,
      Real.norm_eq_abs, Real.norm_eq_abs, Real.norm_eq_abs]
    exact ez
  prop := by
    intro p hp hl
    have hlm : expLimit ≤ maxDouble := by
      have := F64.one_le_max
      have h1 := Real.add_one_le_exp expLimit
      have h2 := exp_expLimit_le
      nlinarith
    have c1 : (clit 1 * CplxOps.ofR (F64.fin p) : C128 L) = C128.mk' L p := by
      rw [C128.clit_one, ← Complex.ofReal_one]
      exact (C128.mk'_mul_real (by rwa [one_mul]) (by rw [one_mul]; linarith)).trans (by rw [one_mul])
    have c2 : (clit (-1) * CplxOps.ofR (F64.fin p) : C128 L) = C128.mk' L (-p : ℝ) := by
      rw [C128.clit_neg_one, ← Complex.ofReal_one, ← Complex.ofReal_neg]
      exact (C128.mk'_mul_real (by rw [neg_one_mul]; exact hp.neg) (by rw [neg_one_mul, abs_neg]; linarith)).trans
        (by rw [neg_one_mul])
    obtain ⟨x, ex, rx, mx, hx⟩ := C128.exp_real (L := L) hl
    obtain ⟨y, ey, ry, my, hy⟩ := C128.exp_real (L := L) (p := -p) (by rwa [abs_neg])
    have m1 : ∀ z : ℝ, Rep z → |z| ≤ maxDouble → (C128.mk' L z * clit 1 : C128 L) = C128.mk' L z := by
      intro z rz mz
      rw [C128.clit_one, ← Complex.ofReal_one]
      exact (C128.mk'_mul_real (by rwa [mul_one]) (by rwa [mul_one])).trans (by rw [mul_one])
    unfold Stack.propagation
    rw [c1, c2, ex, ey, C128.clit_zero, m1 x rx mx, m1 y ry my, C128.mk'_mul_zero, C128.mk'_mul_zero]
    refine ⟨_, _, ⟨x, rfl, rfl⟩, ?_, ⟨0, by rw [Complex.ofReal_zero], by simp⟩, ⟨0, by rw [Complex.ofReal_zero], by simp⟩,
      ⟨y, rfl, rfl⟩, ?_⟩
    · rwa [← Complex.ofReal_sub, Complex.norm_real, Real.norm_eq_abs]
    · rwa [← Complex.ofReal_sub, Complex.norm_real, Real.norm_eq_abs]

/-- Results beyond the range of doubles in an arithmetic of real numbers. -/
structure Overflow {C : Type} [CplxOps (F64 L) ℤ C] (A : Arith L C) where
  inf : C
  nan : C
  real : ∀ a v, A.Val a v → v.im = 0
  mul_big : ∀ a b v w, A.Val a v → A.Val b w → maxDouble * (1 + 1 / 10 ^ 6) ≤ v.re * w.re → a * b = inf
  inf_add : ∀ a v, A.Val a v → inf + a = inf
  div_inf : ∀ a v, A.Val a v → |v.re| * (1 + uro) + eta ≤ maxDouble → A.Val (a / inf) 0
  inf_div : inf / inf = nan

theorem big_pinf {x : ℝ} (h : maxDouble * (1 + 1 / 10 ^ 6) ≤ x) : (F64.ofReal x : F64 L) = .pinf := by
  have hu := uro_pos
  have hu' := uro_lt
  have he := eta_lt
  have hm := F64.one_le_max
  have h0 : 0 < x := by nlinarith
  unfold F64.ofReal F64.infOf
  rw [if_pos h0, if_neg]
  rw [not_le]
  have := rnd_err x
  rw [abs_of_pos h0] at this
  have h2 := (abs_le.1 this).1
  have h3 := le_abs_self (rnd x)
  nlinarith

def realOverflow (L : Libm) : Overflow (realArith L) where
  inf := .pinf
  nan := .nan
  real := by
    rintro _ _ ⟨x, rfl, rfl⟩
    simp
  mul_big := by
    rintro _ _ _ _ ⟨x, rfl, rfl⟩ ⟨y, rfl, rfl⟩ h
    rw [F64.fin_mul]
    exact big_pinf (by simpa using h)
  inf_add := by
    rintro _ _ ⟨x, rfl, rfl⟩
    rfl
  div_inf := by
    rintro _ _ ⟨x, rfl, rfl⟩ _
    exact ⟨0, rfl, by simp⟩
  inf_div := rfl

def cplxOverflow (L : Libm) : Overflow (cplxRealArith L) where
  inf := ⟨.pinf, .fin 0⟩
  nan := ⟨.nan, .nan⟩
  real := by
    rintro _ _ ⟨x, rfl, rfl⟩
    simp
  mul_big := by
    rintro _ _ _ _ ⟨x, rfl, rfl⟩ ⟨y, rfl, rfl⟩ h
    have h1 : (F64.ofReal (x * y) : F64 L) = .pinf := big_pinf (by simpa using h)
    rw [C128.mk'_mul]
    simp only [Complex.ofReal_re, Complex.ofReal_im, mul_zero, zero_mul, F64.ofReal_zero, F64.fin_add, add_zero, h1]
    rfl
  inf_add := by
    rintro _ _ ⟨x, rfl, rfl⟩
    show (⟨F64.pinf + F64.fin x, F64.fin 0 + F64.fin 0⟩ : C128 L) = _
    rw [F64.fin_add, add_zero, F64.ofReal_zero]
    rfl
  div_inf := by
    rintro _ _ ⟨x, rfl, rfl⟩ hx
    refine ⟨0, ?_, by simp⟩
    show C128.div _ _ = _
    unfold C128.div C128.mk' C128.absGe
    dsimp only [Complex.ofReal_re, Complex.ofReal_im]
    rw [if_pos rfl, if_neg (by rintro ⟨h, -⟩; cases h)]
    have e1 : (F64.fin 0 / F64.pinf : F64 L) = .fin 0 := rfl
    have e2 : (F64.fin 0 * F64.fin 0 : F64 L) = .fin 0 := by rw [F64.fin_mul, mul_zero, F64.ofReal_zero]
    have e3 : (F64.pinf + F64.fin 0 : F64 L) = .pinf := rfl
    have e4 : (F64.fin 1 / F64.pinf : F64 L) = .fin 0 := rfl
    have e5 : (F64.fin x * F64.fin 0 : F64 L) = .fin 0 := by rw [F64.fin_mul, mul_zero, F64.ofReal_zero]
    have e6 : (F64.fin 0 - F64.fin 0 : F64 L) = .fin 0 := by rw [F64.fin_sub, neg_zero, add_zero, F64.ofReal_zero]
    have e7 : ((F64.fin x + F64.fin 0) * F64.fin 0 : F64 L) = .fin 0 := by
      rw [F64.fin_add, add_zero, F64.ofReal_fin (by simpa using hx), F64.fin_mul, mul_zero, F64.ofReal_zero]
    simp only [e1, e2, e3, e4, e5, e6, e7]
  inf_div := by
    show C128.div _ _ = _
    unfold C128.div C128.absGe
    dsimp only
    rw [if_pos rfl, if_neg (by rintro ⟨h, -⟩; cases h)]
    have e1 : (F64.fin 0 / F64.pinf : F64 L) = .fin 0 := rfl
    have e2 : (F64.fin 0 * F64.fin 0 : F64 L) = .fin 0 := by rw [F64.fin_mul, mul_zero, F64.ofReal_zero]
    have e3 : (F64.pinf + F64.fin 0 : F64 L) = .pinf := rfl
    have e4 : (F64.fin 1 / F64.pinf : F64 L) = .fin 0 := rfl
    have e5 : (F64.pinf * F64.fin 0 : F64 L) = .nan := by
      show F64.infOf 0 = _
      simp [F64.infOf]
    simp only [e1, e2, e3, e4, e5]
    rfl

namespace Arith

variable {C : Type} [CplxOps (F64 L) ℤ C] (A : Arith L C)

/-- Entries of a computed interface matrix. -/
theorem interface_val {x y : C} {e f : ℝ} (hx : A.Val x e) (hy : A.Val y f) (he : Moderate e) (hf : Moderate f)
    (hr : ∀ a v, A.Val a v → v.im = 0) :
    ∃ a b a' b' : ℝ, A.Val (Stack.interface (x / y)).m00 a ∧ A.Val (Stack.interface (x / y)).m01 b ∧
      A.Val (Stack.interface (x / y)).m10 b' ∧ A.Val (Stack.interface (x / y)).m11 a' ∧
      |a - (1 + e / f) / 2| ≤ 1 / 10 ^ 12 * rowNorm (e / f) ∧ |b - (1 - e / f) / 2| ≤ 1 / 10 ^ 12 * rowNorm (e / f) ∧
      |b' - (1 - e / f) / 2| ≤ 1 / 10 ^ 12 * rowNorm (e / f) ∧ |a' - (1 + e / f) / 2| ≤ 1 / 10 ^ 12 * rowNorm (e / f) := by
  obtain ⟨V, ⟨v0, v1, v2, v3⟩, -, h, hN, -⟩ := A.near_interface hx hy he hf
  have hu := uro_pos
  have hu' := uro_lt
  have hk := A.kdiv_le
  have hk1 := A.kdiv_ge
  have hρ : (A.rhoT - 1) * rowNorm (e / f) ≤ 1 / 10 ^ 12 * rowNorm (e / f) := by
    refine mul_le_mul_of_nonneg_right ?_ (by linarith)
    unfold rhoT
    nlinarith
  have hre : ∀ v : ℂ, v.im = 0 → v = (v.re : ℂ) := fun v hv => Complex.ext rfl (by simpa using hv)
  have key : ∀ (v w : ℂ) (u : ℝ), v.im = 0 → w = (u : ℂ) → ‖v - w‖ = |v.re - u| := by
    intro v w u hv hw
    rw [hre v hv, hw, ← Complex.ofReal_sub, Complex.norm_real, Real.norm_eq_abs, Complex.ofReal_re]
  have i0 := hr _ _ v0
  have i1 := hr _ _ v1
  have i2 := hr _ _ v2
  have i3 := hr _ _ v3
  have t0 : TM ((e : ℂ) / f) 0 0 = ((1 + e / f) / 2 : ℝ) := by simp [TM]
  have t1 : TM ((e : ℂ) / f) 0 1 = ((1 - e / f) / 2 : ℝ) := by simp [TM]
  have t2 : TM ((e : ℂ) / f) 1 0 = ((1 - e / f) / 2 : ℝ) := by simp [TM]
  have t3 : TM ((e : ℂ) / f) 1 1 = ((1 + e / f) / 2 : ℝ) := by simp [TM]
  have h0 := h 0
  have h1 := h 1
  rw [key _ _ _ i0 t0, key _ _ _ i1 t1] at h0
  rw [key _ _ _ i2 t2, key _ _ _ i3 t3] at h1
  rw [hre _ i0] at v0
  rw [hre _ i1] at v1
  rw [hre _ i2] at v2
  rw [hre _ i3] at v3
  have p0 := abs_nonneg ((V 0 0).re - (1 + e / f) / 2)
  have p1 := abs_nonneg ((V 0 1).re - (1 - e / f) / 2)
  have p2 := abs_nonneg ((V 1 0).re - (1 - e / f) / 2)
  have p3 := abs_nonneg ((V 1 1).re - (1 + e / f) / 2)
  exact ⟨_, _, _, _, v0, v1, v2, v3, by linarith, by linarith, by linarith, by linarith⟩

/-- The propagation matrix of a layer so thick that the exponent is clipped. -/
theorem prop_thick (hr : ∀ a v, A.Val a v → v.im = 0) :
    ∃ E B : ℝ, A.Val (Stack.propagation 1 (-1) (CplxOps.ofR (F64.fin expLimit) : C)).m00 E ∧
      A.Val (Stack.propagation 1 (-1) (CplxOps.ofR (F64.fin expLimit) : C)).m01 (0 : ℝ) ∧
      A.Val (Stack.propagation 1 (-1) (CplxOps.ofR (F64.fin expLimit) : C)).m10 (0 : ℝ) ∧
      A.Val (Stack.propagation 1 (-1) (CplxOps.ofR (F64.fin expLimit) : C)).m11 B ∧
      maxDouble * (1 - 2 / 10 ^ 10) ≤ E ∧ E ≤ maxDouble ∧ |B| ≤ 2 := by
  have hu := uro_pos
  have hu' := uro_lt
  have he := eta_pos
  have he' := eta_lt
  have hm := F64.one_le_max
  have h0 := expLimit_pos
  obtain ⟨x, y, hx, ex, h1, h2, hy, ey⟩ := A.prop expLimit rep_expLimit (by rw [abs_of_pos h0])
  have hre : ∀ v : ℂ, v.im = 0 → v = (v.re : ℂ) := fun v hv => Complex.ext rfl (by simpa using hv)
  have ix := hr _ _ hx
  have iy := hr _ _ hy
  rw [hre x ix] at hx ex
  rw [hre y iy] at hy ey
  rw [← Complex.ofReal_sub, Complex.norm_real, Real.norm_eq_abs] at ex ey
  have g1 := exp_expLimit_ge
  have g2 := exp_expLimit_le
  have g3 : Real.exp (-expLimit) ≤ 1 := Real.exp_le_one_iff.2 (by linarith)
  have g4 := Real.exp_pos (-expLimit)
  have a1 := abs_le.1 ex
  refine ⟨_, _, hx, by simpa using h1, by simpa using h2, hy, ?_, ?_, ?_⟩
  · have : 8 * uro * Real.exp expLimit ≤ 1 / 10 ^ 14 * maxDouble := by
      have := Real.exp_pos expLimit
      nlinarith
    linarith
  · have : 8 * uro * Real.exp expLimit ≤ 9 / 10 ^ 15 * maxDouble := by
      have := Real.exp_pos expLimit
      nlinarith
    have : (10 : ℝ) ^ 14 ≤ maxDouble := le_trans (by norm_num) (pow_le_max (n := 60) (by norm_num))
    linarith
  · have := abs_sub_abs_le_abs_sub y.re (Real.exp (-expLimit))
    rw [abs_of_pos g4] at this
    nlinarith

theorem dotR (hr : ∀ a v, A.Val a v → v.im = 0) {a₁ b₁ a₂ b₂ : C} {v₁ w₁ v₂ w₂ : ℝ} (h₁ : A.Val a₁ v₁) (k₁ : A.Val b₁ w₁)
    (h₂ : A.Val a₂ v₂) (k₂ : A.Val b₂ w₂) (hS : |v₁| * |w₁| + |v₂| * |w₂| ≤ maxDouble * (1 - 1 / 10 ^ 12)) :
    ∃ z : ℝ, A.Val (a₁ * b₁ + a₂ * b₂) z ∧ |z - (v₁ * w₁ + v₂ * w₂)| ≤ 1 / 10 ^ 12 * (|v₁| * |w₁| + |v₂| * |w₂| + 1) := by
  have hu := uro_pos
  have hu' := uro_lt
  have he := eta_pos
  have he' := eta_lt
  have hm : (10 : ℝ) ^ 14 ≤ maxDouble := le_trans (by norm_num) (pow_le_max (n := 60) (by norm_num))
  have hS0 : 0 ≤ |v₁| * |w₁| + |v₂| * |w₂| := by positivity
  obtain ⟨z, hz, ez⟩ := A.dot h₁ k₁ h₂ k₂ (by
    simp only [Complex.norm_real, Real.norm_eq_abs]
    nlinarith)
  simp only [Complex.norm_real, Real.norm_eq_abs] at ez
  have iz := hr _ _ hz
  have hre : z = (z.re : ℂ) := Complex.ext rfl (by simpa using iz)
  rw [hre] at hz ez
  refine ⟨_, hz, ?_⟩
  rw [← Complex.ofReal_mul, ← Complex.ofReal_mul, ← Complex.ofReal_add, ← Complex.ofReal_sub, Complex.norm_real,
    Real.norm_eq_abs] at ez
  refine ez.trans ?_
  nlinarith

theorem mulR (hr : ∀ a v, A.Val a v → v.im = 0) {a b : C} {v w : ℝ} (h : A.Val a v) (k : A.Val b w)
    (hS : |v| * |w| ≤ maxDouble * (1 - 1 / 10 ^ 12)) : ∃ z : ℝ, A.Val (a * b) z := by
  have hu := uro_pos
  have hu' := uro_lt
  have he := eta_pos
  have he' := eta_lt
  have hm : (10 : ℝ) ^ 14 ≤ maxDouble := le_trans (by norm_num) (pow_le_max (n := 60) (by norm_num))
  have hS0 : 0 ≤ |v| * |w| := by positivity
  obtain ⟨z, hz, -⟩ := A.mul _ _ _ _ h k (by
    simp only [Complex.norm_real, Real.norm_eq_abs]
    nlinarith)
  have iz := hr _ _ hz
  have hre : z = (z.re : ℂ) := Complex.ext rfl (by simpa using iz)
  rw [hre] at hz
  exact ⟨_, hz⟩

/-- The numbers behind `film`. -/
theorem film_num {G E a b' s e c y0 y2 : ℝ} (hmax14 : (10 : ℝ) ^ 14 ≤ G) (hE1 : G * (1 - 2 / 10 ^ 10) ≤ E) (hE2 : E ≤ G)
    (hE0 : 0 < E) (ha0 : 0 < a) (hb0 : 0 < b') (ea : -(1 / 10 ^ 12) ≤ a - (1 + s) / 2)
    (eb' : -(1 / 10 ^ 12) ≤ b' - (1 - s) / 2 ∧ b' - (1 - s) / 2 ≤ 1 / 10 ^ 12) (hs : 0 < s) (hs2 : s ≤ 2 / 3)
    (hl : 3 / 2 ≤ e) (hes : e * s = 1) (hbE : b' * E ≤ 51 / 100 * G)
    (ey0 : -(1 / 10 ^ 12 * (a * E + 1)) ≤ y0 - a * E)
    (ey2 : -(1 / 10 ^ 12 * (b' * E + 1)) ≤ y2 - b' * E ∧ y2 - b' * E ≤ 1 / 10 ^ 12 * (b' * E + 1))
    (ec : -(1 / 10 ^ 12 * e) ≤ c - (1 + e) / 2 ∧ c - (1 + e) / 2 ≤ 1 / 10 ^ 12 * e) :
    G * (1 + 1 / 10 ^ 6) ≤ y0 * c ∧ 0 < y2 ∧ 0 < c ∧ (e ≤ 4 → y2 * c ≤ G * (94 / 100)) ∧
      (5 ≤ e → G * (1 + 1 / 10 ^ 6) ≤ y2 * c) := by
  have hG0 : 0 < G := by linarith
  have hy0 : ((1 + s) / 2 - 1 / 10 ^ 9) * G ≤ y0 := by
    have h1 : ((1 + s) / 2 - 1 / 10 ^ 12) * (G * (1 - 2 / 10 ^ 10)) ≤ a * E :=
      mul_le_mul (by linarith) hE1 (by linarith) ha0.le
    have h2 : s * G ≤ 2 / 3 * G := mul_le_mul_of_nonneg_right hs2 hG0.le
    linarith
  have hy2 : ((1 - s) / 2 - 1 / 10 ^ 9) * G ≤ y2 := by
    have h1 : ((1 - s) / 2 - 1 / 10 ^ 12) * (G * (1 - 2 / 10 ^ 10)) ≤ b' * E :=
      mul_le_mul (by linarith) hE1 (by linarith) hb0.le
    have h2 : 0 ≤ s * G := by positivity
    linarith
  have hy2' : y2 ≤ ((1 - s) / 2 + 1 / 10 ^ 9) * G := by
    have h1 : b' * E ≤ ((1 - s) / 2 + 1 / 10 ^ 12) * G :=
      mul_le_mul (by linarith) hE2 hE0.le (by linarith)
    have h2 : 0 ≤ s * G := by positivity
    linarith
  have hy20 : 0 < y2 := lt_of_lt_of_le (mul_pos (by linarith) hG0) hy2
  have hc0 : (1 + e) / 2 - 1 / 10 ^ 12 * e ≤ c := by linarith
  have hc1 : c ≤ (1 + e) / 2 + 1 / 10 ^ 12 * e := by linarith
  have hcpos : 0 < (1 + e) / 2 - 1 / 10 ^ 12 * e := by linarith
  have hprod : (1 + s) * (1 + e) = 2 + s + e := by linear_combination hes
  have hprod2 : (1 - s) * (1 + e) = e - s := by linear_combination -hes
  have hsum : 13 / 6 ≤ e + s := by
    have := mul_nonneg (sub_nonneg.2 hl) (show 0 ≤ 1 - 2 / 3 * s by linarith)
    linarith
  have hc00 : 0 < c := by linarith
  refine ⟨?_, hy20, hc00, fun h4 => ?_, fun h5 => ?_⟩
  · have h1 : ((1 + s) / 2 - 1 / 10 ^ 9) * G * ((1 + e) / 2 - 1 / 10 ^ 12 * e) ≤ y0 * c :=
      mul_le_mul hy0 hc0 hcpos.le (le_trans (mul_nonneg (by linarith) hG0.le) hy0)
    refine le_trans ?_ h1
    have h2 : ((1 + s) / 2 - 1 / 10 ^ 9) * G * ((1 + e) / 2 - 1 / 10 ^ 12 * e) =
        G * ((2 + s + e) / 4 - 1 / 10 ^ 12 * e / 2 - 1 / 10 ^ 12 * (e * s) / 2 - 1 / 10 ^ 9 * ((1 + e) / 2) + 1 / 10 ^ 9 * (1 / 10 ^ 12 * e)) := by
      rw [← hprod]; ring
    rw [h2, hes]
    exact mul_le_mul_of_nonneg_left (by linarith) hG0.le
  · have hs4 : 1 / 4 ≤ s := by
      have := mul_le_mul_of_nonneg_right h4 hs.le
      linarith
    have h1 : y2 * c ≤ ((1 - s) / 2 + 1 / 10 ^ 9) * G * ((1 + e) / 2 + 1 / 10 ^ 12 * e) :=
      mul_le_mul hy2' hc1 hc00.le (mul_nonneg (by linarith) hG0.le)
    refine h1.trans ?_
    have h2 : ((1 - s) / 2 + 1 / 10 ^ 9) * G * ((1 + e) / 2 + 1 / 10 ^ 12 * e) =
        G * ((e - s) / 4 + 1 / 10 ^ 12 * e / 2 - 1 / 10 ^ 12 * (e * s) / 2 + 1 / 10 ^ 9 * ((1 + e) / 2) + 1 / 10 ^ 9 * (1 / 10 ^ 12 * e)) := by
      rw [← hprod2]; ring
    rw [h2, hes]
    exact mul_le_mul_of_nonneg_left (by linarith) hG0.le
  · have hs5 : s ≤ 1 / 5 := by
      have := mul_le_mul_of_nonneg_right h5 hs.le
      linarith
    have h1 : ((1 - s) / 2 - 1 / 10 ^ 9) * G * ((1 + e) / 2 - 1 / 10 ^ 12 * e) ≤ y2 * c :=
      mul_le_mul hy2 hc0 hcpos.le hy20.le
    refine le_trans ?_ h1
    have h2 : ((1 - s) / 2 - 1 / 10 ^ 9) * G * ((1 + e) / 2 - 1 / 10 ^ 12 * e) =
        G * ((e - s) / 4 - 1 / 10 ^ 12 * e / 2 + 1 / 10 ^ 12 * (e * s) / 2 - 1 / 10 ^ 9 * ((1 + e) / 2) + 1 / 10 ^ 9 * (1 / 10 ^ 12 * e)) := by
      rw [← hprod2]; ring
    rw [h2, hes]
    exact mul_le_mul_of_nonneg_left (by linarith) hG0.le

/-- A thick suspended film: the first entry of the transfer matrix overflows, the second one too if the
contrast is high. -/
theorem film (O : Overflow A) (emb : ℂ → C) (e q t : ℝ) (h1 : A.Val (emb 1) 1) (he : A.Val (emb e) e)
    (hp : clip64 (q * t) = expLimit) (hl : 3 / 2 ≤ e) (hm : Moderate e) :
    ∃ X, (layeredWith (L := L) emb 1 [((e : ℂ), t)] 1).transferMatrixQs (.fin q) = .ok X ∧ X.m00 = O.inf ∧
      (e ≤ 4 → ∃ z : ℝ, A.Val X.m10 z ∧ |z| ≤ 95 / 100 * maxDouble) ∧ (5 ≤ e → X.m10 = O.inf) := by
  have hmod1 : Moderate (1 : ℝ) := by
    rw [Complex.ofReal_one]
    constructor
    · rw [norm_one]; exact pow_le_one₀ (by norm_num) (by norm_num)
    · rw [norm_one]; exact one_le_pow₀ (by norm_num)
  have hbig : e ≤ 2 ^ 500 := by
    have := hm.2
    rw [Complex.norm_real, Real.norm_eq_abs] at this
    exact (le_abs_self e).trans this
  have h1' : A.Val (emb 1) ((1 : ℝ) : ℂ) := by simpa using h1
  have hG : (2 : ℝ) ^ 500 * 2 ^ 500 ≤ maxDouble := by
    rw [← pow_add]
    exact pow_le_max (by norm_num)
  have hP : (10 : ℝ) ^ 14 ≤ 2 ^ 500 := le_trans (by norm_num : (10 : ℝ) ^ 14 ≤ 2 ^ 60) (pow_le_pow_right₀ (by norm_num) (by norm_num))
  obtain ⟨a, b, a', b', va, vb, vb', va', ea, eb, eb', ea'⟩ := A.interface_val h1' he hmod1 hm O.real
  obtain ⟨c, d, c', d', vc, vd, vd', vc', ec, ed, ed', ec'⟩ := A.interface_val he h1' hm hmod1 O.real
  obtain ⟨E, B, vE, v0, v0', vB, hE1, hE2, hB⟩ := A.prop_thick (C := C) O.real
  have hT : (layeredWith (L := L) emb 1 [((e : ℂ), t)] 1).transferMatrixQs (.fin q) =
      .ok (((Stack.interface (emb 1 / emb e)).matmul (Stack.propagation 1 (-1) (CplxOps.ofR (F64.fin expLimit)))).matmul
        (Stack.interface (emb e / emb 1))) := by
    rw [← hp, ← clip_mul]
    rfl
  clear hp
  have hs : 0 < 1 / e := by positivity
  have hs2 : 1 / e ≤ 2 / 3 := by rw [div_le_iff₀ (by linarith)]; linarith
  have n1 : rowNorm (((1 : ℝ) : ℂ) / (e : ℂ)) = 1 := by
    unfold rowNorm
    rw [← Complex.ofReal_div, ← Complex.ofReal_one, ← Complex.ofReal_add, ← Complex.ofReal_sub, Complex.norm_real,
      Complex.norm_real, Real.norm_eq_abs, Real.norm_eq_abs, abs_of_pos (by linarith), abs_of_pos (by linarith)]
    ring
  have n2 : rowNorm ((e : ℂ) / ((1 : ℝ) : ℂ)) = e := by
    unfold rowNorm
    rw [← Complex.ofReal_div, ← Complex.ofReal_one, ← Complex.ofReal_add, ← Complex.ofReal_sub, Complex.norm_real,
      Complex.norm_real, Real.norm_eq_abs, Real.norm_eq_abs, div_one, abs_of_pos (by linarith), abs_of_neg (by linarith)]
    ring
  rw [n1, mul_one] at ea eb eb' ea'
  rw [n2] at ec ed ed' ec'
  rw [div_one] at ec ed ed' ec'
  clear n1 n2 hm hmod1
  have hes : e * (1 / e) = 1 := by field_simp
  generalize 1 / e = s at *
  generalize (2 : ℝ) ^ 500 = Q at *
  have hm := F64.one_le_max
  rw [abs_le] at ea eb eb' ea' ec ed ed' ec' hB
  have hE0 : 0 < E := by nlinarith
  have zz : ∀ x : ℝ, |x| * |(0 : ℝ)| = 0 := fun x => by rw [abs_zero, mul_zero]
  have ha0 : 0 < a := by linarith
  have ha1 : a ≤ 84 / 100 := by linarith
  have hb0 : 0 < b' := by linarith
  have hb1 : b' ≤ 51 / 100 := by linarith
  have haE : a * E ≤ 84 / 100 * maxDouble := mul_le_mul ha1 hE2 hE0.le (by norm_num)
  have hbE : b' * E ≤ 51 / 100 * maxDouble := mul_le_mul hb1 hE2 hE0.le (by norm_num)
  have haE0 : 0 < a * E := by positivity
  have hbE0 : 0 < b' * E := by positivity
  obtain ⟨y0, vy0, ey0⟩ := A.dotR O.real va vE vb v0' (by
    rw [zz, abs_of_pos ha0, abs_of_pos hE0]; linarith)
  obtain ⟨y2, vy2, ey2⟩ := A.dotR O.real vb' vE va' v0' (by
    rw [zz, abs_of_pos hb0, abs_of_pos hE0]; linarith)
  have hbB : |b| * |B| ≤ 2 := by
    calc |b| * |B| ≤ 1 * 2 := mul_le_mul (abs_le.2 ⟨by linarith, by linarith⟩) (abs_le.2 hB) (abs_nonneg _) (by norm_num)
      _ = 2 := by norm_num
  have haB : |a'| * |B| ≤ 2 := by
    calc |a'| * |B| ≤ 1 * 2 := mul_le_mul (abs_le.2 ⟨by linarith, by linarith⟩) (abs_le.2 hB) (abs_nonneg _) (by norm_num)
      _ = 2 := by norm_num
  have hmax14 : (10 : ℝ) ^ 14 ≤ maxDouble := le_trans (by norm_num) (pow_le_max (n := 60) (by norm_num))
  obtain ⟨y1, vy1, ey1⟩ := A.dotR O.real va v0 vb vB (by rw [zz]; linarith)
  obtain ⟨y3, vy3, ey3⟩ := A.dotR O.real vb' v0 va' vB (by rw [zz]; linarith)
  rw [zz, abs_of_pos ha0, abs_of_pos hE0, mul_zero, add_zero, abs_le] at ey0
  rw [zz, abs_of_pos hb0, abs_of_pos hE0, mul_zero, add_zero, abs_le] at ey2
  simp only [zz, mul_zero, zero_add] at ey1 ey3
  have hy1 : |y1| ≤ 3 := by
    have := abs_sub_abs_le_abs_sub y1 (b * B)
    rw [abs_mul] at this
    linarith
  have hy3 : |y3| ≤ 3 := by
    have := abs_sub_abs_le_abs_sub y3 (a' * B)
    rw [abs_mul] at this
    linarith
  have hd' : |d'| ≤ e := abs_le.2 ⟨by linarith, by linarith⟩
  have heG : 3 * e ≤ 1 / 10 ^ 6 * maxDouble := by
    have : Q * 10 ^ 14 ≤ Q * Q := mul_le_mul_of_nonneg_left hP (by linarith)
    linarith
  have hyd1 : |y1| * |d'| ≤ 3 * e := mul_le_mul hy1 hd' (abs_nonneg _) (by norm_num)
  have hyd3 : |y3| * |d'| ≤ 3 * e := mul_le_mul hy3 hd' (abs_nonneg _) (by norm_num)
  obtain ⟨w1, vw1⟩ := A.mulR O.real vy1 vd' (by linarith)
  obtain ⟨w3, vw3⟩ := A.mulR O.real vy3 vd' (by linarith)
  obtain ⟨N1, N2, N3, N4, N5⟩ := film_num hmax14 hE1 hE2 hE0 ha0 hb0 ea.1 eb' hs hs2 hl hes hbE ey0.1 ey2 ec
  refine ⟨_, hT, ?_, fun h4 => ?_, fun h5 => ?_⟩
  · refine (congrArg (· + _) (O.mul_big _ _ _ _ vy0 vc ?_)).trans (O.inf_add _ _ vw1)
    rwa [Complex.ofReal_re, Complex.ofReal_re]
  · have := N4 h4
    obtain ⟨z, vz, ez⟩ := A.dotR O.real vy2 vc vy3 vd' (by
      rw [abs_of_pos N2, abs_of_pos N3]; linarith)
    refine ⟨z, vz, ?_⟩
    rw [abs_of_pos N2, abs_of_pos N3] at ez
    have h1 := abs_sub_abs_le_abs_sub z (y2 * c + y3 * d')
    have h2 := abs_add_le (y2 * c) (y3 * d')
    rw [abs_mul, abs_mul, abs_of_pos N2, abs_of_pos N3] at h2
    linarith
  · refine (congrArg (· + _) (O.mul_big _ _ _ _ vy2 vc ?_)).trans (O.inf_add _ _ vw3)
    rw [Complex.ofReal_re, Complex.ofReal_re]
    exact N5 h5

end Arith

end Snompy
