import Verif.Lemmas.DoubleFdm
import Verif.Model.Stack

/-!
# Lorentz and Drude permittivities in double precision
-/

namespace Snompy

variable {L : Libm}

seal uro eta

theorem C128.clit_I : (clit Complex.I : C128 L) = C128.mk' L Complex.I := by
  show C128.ofComplex Complex.I = _
  unfold C128.ofComplex C128.mk'
  rw [Complex.I_re, Complex.I_im, F64.ofReal_one, F64.ofReal_zero]

theorem C128.ofR_fin (x : ℝ) : (CplxOps.ofR (F64.fin x) : C128 L) = C128.mk' L x := rfl

/-- The square of a double, in absolute terms. -/
theorem sq_err {x P : ℝ} (hx : x ^ 2 ≤ P) (hP1 : 1 ≤ P) (hmax : P * 1000 ≤ maxDouble) :
    ∃ y, (RealOps.npow (F64.fin x) 2 : F64 L) = .fin y ∧ |y - x ^ 2| ≤ uro * x ^ 2 + eta := by
  refine ⟨rnd (x ^ 2), F64.ofReal_fin ?_, by have := rnd_err (x ^ 2); rwa [abs_of_nonneg (sq_nonneg x)] at this⟩
  have := uro_lt
  have := uro_pos
  have := eta_lt
  rw [abs_of_nonneg (sq_nonneg x)]
  have h0 := sq_nonneg x
  nlinarith

theorem sq_le_of_abs {x : ℝ} (hx : |x| ≤ 2 ^ 150) : x ^ 2 ≤ 2 ^ 300 := by
  rw [← sq_abs, show (300 : ℕ) = 150 * 2 from rfl, pow_mul]
  exact pow_le_pow_left₀ (abs_nonneg _) hx 2

theorem sq_ge_of_abs {x : ℝ} (hx : (1 / 2) ^ 150 ≤ |x|) : (1 / 2) ^ 300 ≤ x ^ 2 := by
  rw [← sq_abs, show (300 : ℕ) = 150 * 2 from rfl, pow_mul]
  exact pow_le_pow_left₀ (by positivity) hx 2

theorem pow_mul_le_max {n : ℕ} (h : n ≤ 1000) : (2 : ℝ) ^ n * 1000 ≤ maxDouble := by
  have h1 := pow_le_max (n := 10 + n) (by omega)
  rw [pow_add] at h1
  have : (0 : ℝ) < 2 ^ n := by positivity
  generalize (2 : ℝ) ^ n = P at *
  linarith

/-- Underflow is negligible. -/
theorem eta_small {ν : ℝ} (h1 : (1 / 2) ^ 150 ≤ |ν|) (h2 : |ν| ≤ 2 ^ 150) : eta * (1 + |ν|) ≤ uro / 10 ^ 6 * ν ^ 2 := by
  have hu := uro_pos
  have a1 := sq_ge_of_abs h1
  have a2 : (1 + |ν|) ≤ 2 ^ 151 := by
    have : (1 : ℝ) ≤ 2 ^ 150 := one_le_pow₀ (by norm_num)
    rw [pow_succ (2 : ℝ) 150]
    generalize (2 : ℝ) ^ 150 = P at *
    linarith
  have a3 : (2 : ℝ) ^ 151 / 2 ^ 1000 ≤ 1 / 10 ^ 6 * (1 / 2) ^ 300 := by
    rw [show (1000 : ℕ) = 151 + (300 + 549) from rfl, pow_add, pow_add, one_div_pow]
    have h3 : (10 : ℝ) ^ 6 ≤ 2 ^ 549 :=
      (by norm_num : (10 : ℝ) ^ 6 ≤ 2 ^ 20).trans (pow_le_pow_right₀ one_le_two (by norm_num))
    have hA : (0 : ℝ) < 2 ^ 151 := by positivity
    have hB : (0 : ℝ) < 2 ^ 300 := by positivity
    have hC : (0 : ℝ) < 2 ^ 549 := by positivity
    generalize (2 : ℝ) ^ 151 = A at *
    generalize (2 : ℝ) ^ 300 = B at *
    generalize (2 : ℝ) ^ 549 = C at *
    rw [div_mul_div_comm, div_le_div_iff₀ (by positivity) (by positivity)]
    have := mul_le_mul_of_nonneg_left h3 (mul_pos hA hB).le
    linarith
  have a4 := eta_le
  have hp : (0 : ℝ) ≤ 2 ^ 151 := by positivity
  have hq : (0 : ℝ) < 2 ^ 1000 := by positivity
  have hr := abs_nonneg ν
  clear h1 h2
  generalize (2 : ℝ) ^ 151 = A at *
  generalize (2 : ℝ) ^ 1000 = B at *
  generalize (1 / 2 : ℝ) ^ 300 = C at *
  calc eta * (1 + |ν|) ≤ uro / B * A := mul_le_mul a4 a2 (by positivity) (by positivity)
    _ = uro * (A / B) := by ring
    _ ≤ uro * (1 / 10 ^ 6 * C) := mul_le_mul_of_nonneg_left a3 hu.le
    _ ≤ uro * (1 / 10 ^ 6 * ν ^ 2) := mul_le_mul_of_nonneg_left (mul_le_mul_of_nonneg_left a1 (by norm_num)) hu.le
    _ = _ := by ring

/-- The denominator of `lorentz_perm`. -/
theorem lorentz_den' {ν νj γ P : ℝ} (hP1 : 1 ≤ P) (hmax : P * 1000 ≤ maxDouble) (hν2 : ν ^ 2 ≤ P) (hj2 : νj ^ 2 ≤ P)
    (hgν : |γ| * |ν| ≤ P) (hγP : |γ| ≤ P) (heν : eta * (1 + |ν|) ≤ uro / 10 ^ 6 * ν ^ 2) : ∃ z,
    (CplxOps.ofR (RealOps.npow (F64.fin νj : F64 L) 2 - RealOps.npow (F64.fin ν) 2) -
      clit Complex.I * CplxOps.ofR (F64.fin γ) * CplxOps.ofR (F64.fin ν) : C128 L) = C128.mk' L z ∧
    ‖z - ((νj : ℂ) ^ 2 - ν ^ 2 - Complex.I * γ * ν)‖ ≤ 11 * uro * (νj ^ 2 + ν ^ 2 + |γ * ν|) := by
  have hu := uro_pos
  have hu' := uro_lt
  have he := eta_pos
  obtain ⟨a, ea, ha⟩ := sq_err (L := L) hj2 hP1 hmax
  obtain ⟨b, eb, hb⟩ := sq_err (L := L) hν2 hP1 hmax
  have hν0 := sq_nonneg ν
  have hj0 := sq_nonneg νj
  have hg0 := abs_nonneg (γ * ν)
  have heν' : eta ≤ uro / 10 ^ 6 * ν ^ 2 := by nlinarith [abs_nonneg ν]
  have heν'' : eta * |ν| ≤ uro / 10 ^ 6 * ν ^ 2 := by nlinarith [abs_nonneg ν]
  have huν : uro * ν ^ 2 ≤ 1 / 10 ^ 15 * ν ^ 2 := mul_le_mul_of_nonneg_right hu'.le hν0
  have huj : uro * νj ^ 2 ≤ 1 / 10 ^ 15 * νj ^ 2 := mul_le_mul_of_nonneg_right hu'.le hj0
  -- the real part
  have hab : |a + -b - (νj ^ 2 - ν ^ 2)| ≤ uro * (νj ^ 2 + ν ^ 2) + 2 * eta := by
    rw [show a + -b - (νj ^ 2 - ν ^ 2) = (a - νj ^ 2) - (b - ν ^ 2) by ring]
    refine (abs_sub _ _).trans ?_
    linarith
  have hsub : |νj ^ 2 - ν ^ 2| ≤ νj ^ 2 + ν ^ 2 := by
    rw [abs_le]; constructor <;> linarith
  have hr := rnd_approx hab
  have hr' : |rnd (a + -b) - (νj ^ 2 - ν ^ 2)| ≤ 201 / 100 * uro * (νj ^ 2 + ν ^ 2) := by
    have : uro * (uro * (νj ^ 2 + ν ^ 2) + 2 * eta) ≤ 1 / 10 ^ 15 * (uro * (νj ^ 2 + ν ^ 2) + 2 * eta) :=
      mul_le_mul_of_nonneg_right hu'.le (by positivity)
    have : uro * |νj ^ 2 - ν ^ 2| ≤ uro * (νj ^ 2 + ν ^ 2) := mul_le_mul_of_nonneg_left hsub hu.le
    have : 0 ≤ uro * νj ^ 2 := by positivity
    have : 0 ≤ uro * ν ^ 2 := by positivity
    nlinarith
  have eab : (RealOps.npow (F64.fin νj : F64 L) 2 - RealOps.npow (F64.fin ν) 2 : F64 L) = .fin (rnd (a + -b)) := by
    rw [ea, eb, F64.fin_sub]
    refine F64.ofReal_fin ?_
    have h5 : |a + -b| ≤ 3 * P := by
      have := abs_sub_abs_le_abs_sub (a + -b) (νj ^ 2 - ν ^ 2)
      linarith
    have := eta_lt
    nlinarith [abs_nonneg (a + -b)]
  set c := rnd (a + -b) with hc
  -- the imaginary part
  obtain ⟨m, em, hm⟩ := C128.mul_err (L := L) (v := Complex.I) (w := (γ : ℂ)) (by
    rw [Complex.norm_I, Complex.norm_real, Real.norm_eq_abs, one_mul]; linarith)
  rw [Complex.norm_I, Complex.norm_real, Real.norm_eq_abs, one_mul] at hm
  have hmn : ‖m‖ ≤ |γ| * (1 + 4 * uro) + 8 * eta := by
    have h6 := norm_sub_norm_le m (Complex.I * γ)
    rw [norm_mul, Complex.norm_I, Complex.norm_real, Real.norm_eq_abs, one_mul] at h6
    linarith
  have hmν : ‖m‖ * |ν| ≤ |γ| * |ν| * (1 + 4 * uro) + 8 * (eta * |ν|) := by
    have := mul_le_mul_of_nonneg_right hmn (abs_nonneg ν)
    linarith
  have hg1 : 0 ≤ |γ| * |ν| := by positivity
  have hug : uro * (|γ| * |ν|) ≤ 1 / 10 ^ 15 * (|γ| * |ν|) := mul_le_mul_of_nonneg_right hu'.le hg1
  obtain ⟨n, en, hn⟩ := C128.mul_err (L := L) (v := m) (w := (ν : ℂ)) (by
    rw [Complex.norm_real, Real.norm_eq_abs]; linarith)
  rw [Complex.norm_real, Real.norm_eq_abs] at hn
  have hn' : ‖n - Complex.I * γ * ν‖ ≤ 801 / 100 * uro * (|γ| * |ν|) + uro / 10 ^ 4 * ν ^ 2 := by
    have h7 : n - Complex.I * γ * ν = (n - m * ν) + (m - Complex.I * γ) * ν := by ring
    rw [h7]
    refine (norm_add_le _ _).trans ?_
    rw [norm_mul, Complex.norm_real, Real.norm_eq_abs]
    have h8 := mul_le_mul_of_nonneg_right hm (abs_nonneg ν)
    have h9 : uro * (‖m‖ * |ν|) ≤ uro * (|γ| * |ν| * (1 + 4 * uro) + 8 * (eta * |ν|)) :=
      mul_le_mul_of_nonneg_left hmν hu.le
    have h10 : uro * (uro * (|γ| * |ν|)) ≤ uro * (1 / 10 ^ 15 * (|γ| * |ν|)) := mul_le_mul_of_nonneg_left hug hu.le
    have h11 : uro * (eta * |ν|) ≤ 1 / 10 ^ 15 * (eta * |ν|) :=
      mul_le_mul_of_nonneg_right hu'.le (by positivity)
    have h12 : 0 ≤ uro * (|γ| * |ν|) := by positivity
    have h13 : 0 ≤ uro * ν ^ 2 := by positivity
    nlinarith
  have hnn : ‖n‖ ≤ 101 / 100 * (|γ| * |ν|) + 1 / 100 * ν ^ 2 := by
    have h6 := norm_sub_norm_le n (Complex.I * γ * ν)
    rw [norm_mul, norm_mul, Complex.norm_I, Complex.norm_real, Complex.norm_real, Real.norm_eq_abs, Real.norm_eq_abs,
      one_mul] at h6
    linarith
  have hcn : |c| ≤ 101 / 100 * (νj ^ 2 + ν ^ 2) := by
    have := abs_sub_abs_le_abs_sub c (νj ^ 2 - ν ^ 2)
    linarith
  -- the difference
  obtain ⟨z, ez, hz⟩ := C128.sub_err (L := L) (v := (c : ℂ)) (w := n) (by
    rw [Complex.norm_real, Real.norm_eq_abs]; linarith)
  rw [Complex.norm_real, Real.norm_eq_abs] at hz
  refine ⟨z, ?_, ?_⟩
  · rw [eab, C128.ofR_fin, C128.clit_I, C128.ofR_fin, C128.ofR_fin, em, en, ez]
  · have e : z - ((νj : ℂ) ^ 2 - ν ^ 2 - Complex.I * γ * ν) =
        (z - (c - n)) + (((c - (νj ^ 2 - ν ^ 2) : ℝ) : ℂ) - (n - Complex.I * γ * ν)) := by push_cast; ring
    rw [e]
    refine (norm_add_le _ _).trans ?_
    have h14 := norm_sub_le ((c - (νj ^ 2 - ν ^ 2) : ℝ) : ℂ) (n - Complex.I * γ * ν)
    rw [Complex.norm_real, Real.norm_eq_abs] at h14
    rw [abs_mul]
    have h15 : uro * (|c| + ‖n‖) ≤ uro * (101 / 100 * (νj ^ 2 + ν ^ 2) + (101 / 100 * (|γ| * |ν|) + 1 / 100 * ν ^ 2)) :=
      mul_le_mul_of_nonneg_left (add_le_add hcn hnn) hu.le
    have h12 : 0 ≤ uro * (|γ| * |ν|) := by positivity
    have h13 : 0 ≤ uro * ν ^ 2 := by positivity
    have h16 : 0 ≤ uro * νj ^ 2 := by positivity
    nlinarith

theorem lorentz_den {ν νj γ : ℝ} (h1 : (1 / 2) ^ 150 ≤ |ν|) (h2 : |ν| ≤ 2 ^ 150) (h3 : |νj| ≤ 2 ^ 150)
    (h4 : |γ| ≤ 2 ^ 150) : ∃ z,
    (CplxOps.ofR (RealOps.npow (F64.fin νj : F64 L) 2 - RealOps.npow (F64.fin ν) 2) -
      clit Complex.I * CplxOps.ofR (F64.fin γ) * CplxOps.ofR (F64.fin ν) : C128 L) = C128.mk' L z ∧
    ‖z - ((νj : ℂ) ^ 2 - ν ^ 2 - Complex.I * γ * ν)‖ ≤ 11 * uro * (νj ^ 2 + ν ^ 2 + |γ * ν|) := by
  refine lorentz_den' (P := 2 ^ 300) (one_le_pow₀ (by norm_num)) (pow_mul_le_max (by norm_num)) (sq_le_of_abs h2)
    (sq_le_of_abs h3) ?_ (h4.trans (pow_le_pow_right₀ one_le_two (by norm_num))) (eta_small h1 h2)
  have := mul_le_mul h4 h2 (abs_nonneg _) (by positivity)
  rwa [← pow_add] at this

/-- `eps_inf + a / y` for an approximate denominator. -/
theorem perm_near {A κ k x : ℝ} {εinf D y : ℂ} (hk0 : 0 ≤ k) (hk : k ≤ 10) (hx : |x - A| ≤ k * uro * |A|)
    (hy : ‖y - D‖ ≤ 11 * uro * κ * ‖D‖) (hκ1 : 1 ≤ κ) (hκ' : κ ≤ 10 ^ 11) (hDs : Sized ‖D‖) (hA : |A| * 1000 ≤ maxDouble)
    (hAD : |A| / ‖D‖ * 1000 ≤ maxDouble) (hε : ‖εinf‖ * 1000 ≤ maxDouble) (hη : eta ≤ uro * uro / 100) : ∃ z,
    (C128.mk' L εinf + CplxOps.ofR (F64.fin x) / C128.mk' L y : C128 L) = C128.mk' L z ∧
    ‖z - (εinf + A / D)‖ ≤ (12 * κ + 80) * uro * ‖(A : ℂ) / D‖ + 3 * uro * (‖εinf‖ + uro) := by
  have hu := uro_pos
  have hu' := uro_lt
  have hDp := hDs.pos
  have hA0 := abs_nonneg A
  have hAD0 : 0 ≤ |A| / ‖D‖ := by positivity
  have hκ0 : 0 < κ := by linarith
  have huκ : uro * κ ≤ 1 / 10 ^ 15 * 10 ^ 11 := mul_le_mul hu'.le hκ' hκ0.le (by norm_num)
  have hx' : ‖(x : ℂ) - A‖ ≤ k * uro * ‖(A : ℂ)‖ := by
    rwa [← Complex.ofReal_sub, Complex.norm_real, Complex.norm_real]
  obtain ⟨w, ew, hw⟩ := C128.div_near (L := L) (ε := 11 * uro * κ) (δ := k * uro) (by positivity)
    (by linarith) (by positivity) (by nlinarith) hx' hy (by
      rw [Complex.norm_real, Real.norm_eq_abs]
      linarith) hDs (by
      rw [Complex.norm_real, Real.norm_eq_abs]
      linarith)
  have hQe : ‖(A : ℂ) / D‖ = |A| / ‖D‖ := by rw [norm_div, Complex.norm_real, Real.norm_eq_abs]
  rw [← hQe] at hAD hAD0
  set Q := ‖(A : ℂ) / D‖ with hQ
  have hquot : (k * uro + 11 * uro * κ) / (1 - 11 * uro * κ) ≤ (23 / 2 * κ + 11) * uro := by
    have h9 : 0 < 1 - 11 * uro * κ := by linarith
    have h10 : k * uro ≤ 10 * uro := mul_le_mul_of_nonneg_right hk hu.le
    rw [div_le_iff₀ h9]
    have h11 : 11 * uro * κ ≤ 11 / 10 ^ 3 := by linarith
    have h12 : 0 ≤ uro * κ := by positivity
    have h13 : uro * κ * (uro * κ) ≤ 1 / 10 ^ 3 * (uro * κ) := mul_le_mul_of_nonneg_right (by linarith) h12
    have h14 : uro * (uro * κ) ≤ uro * (1 / 10 ^ 3) := mul_le_mul_of_nonneg_left (by linarith) hu.le
    nlinarith
  have hu3 : uro ^ 3 < uro / 10 ^ 6 := Arith.uro3_lt
  have hu3' : uro ^ 3 ≤ uro * uro / 10 ^ 6 := by nlinarith [mul_pos hu hu]
  have hwe : ‖w - A / D‖ ≤ (23 / 2 * κ + 77) * uro * Q + uro ^ 3 := by
    refine hw.trans ?_
    have := mul_le_mul_of_nonneg_right hquot hAD0
    linarith
  have hκu : (23 / 2 * κ + 77) * uro ≤ 1 / 10 := by nlinarith
  have hwn : ‖w‖ ≤ 11 / 10 * Q + uro ^ 3 := by
    have := norm_sub_norm_le w (A / D)
    have := mul_le_mul_of_nonneg_right hκu hAD0
    linarith
  obtain ⟨z, ez, hz⟩ := C128.add_err (L := L) (v := εinf) (w := w) (by
    have := F64.one_le_max
    linarith)
  refine ⟨z, ?_, ?_⟩
  · rw [C128.ofR_fin, ew, ez]
  · have e : z - (εinf + A / D) = (z - (εinf + w)) + (w - A / D) := by ring
    rw [e]
    refine (norm_add_le _ _).trans ?_
    have hwn' : uro * (‖εinf‖ + ‖w‖) ≤ uro * (‖εinf‖ + (11 / 10 * Q + uro ^ 3)) :=
      mul_le_mul_of_nonneg_left (by linarith) hu.le
    have h13 : uro * uro ^ 3 ≤ 1 / 10 ^ 15 * uro ^ 3 := mul_le_mul_of_nonneg_right hu'.le (by positivity)
    have h14 : 0 ≤ uro * Q := by positivity
    have h15 : 0 ≤ uro * κ * Q := by positivity
    have h16 : 0 ≤ uro * ‖εinf‖ := by positivity
    have h17 : 0 ≤ uro * uro := by positivity
    nlinarith

/-- Bounds on the denominator with condition number `κ`. -/
theorem lorentz_sized {ν νj γ κ : ℝ} (h1 : (1 / 2) ^ 150 ≤ |ν|) (h2 : |ν| ≤ 2 ^ 150) (h3 : |νj| ≤ 2 ^ 150)
    (h4 : |γ| ≤ 2 ^ 150) (hκ : νj ^ 2 + ν ^ 2 + |γ * ν| ≤ κ * ‖(νj : ℂ) ^ 2 - ν ^ 2 - Complex.I * γ * ν‖)
    (hκ' : κ ≤ 10 ^ 11) : 1 ≤ κ ∧ (1 / 2) ^ 340 ≤ ‖(νj : ℂ) ^ 2 - ν ^ 2 - Complex.I * γ * ν‖ ∧
      ‖(νj : ℂ) ^ 2 - ν ^ 2 - Complex.I * γ * ν‖ ≤ 2 ^ 302 := by
  set D : ℂ := (νj : ℂ) ^ 2 - ν ^ 2 - Complex.I * γ * ν with hD
  have hν2 := sq_le_of_abs h2
  have hj2 := sq_le_of_abs h3
  have hS1 : (1 / 2 : ℝ) ^ 300 ≤ νj ^ 2 + ν ^ 2 + |γ * ν| := by
    have a1 := sq_ge_of_abs h1
    have := sq_nonneg νj
    have := abs_nonneg (γ * ν)
    generalize (1 / 2 : ℝ) ^ 300 = P at *
    linarith
  have hDS : ‖D‖ ≤ νj ^ 2 + ν ^ 2 + |γ * ν| := by
    rw [hD]
    refine (norm_sub_le _ _).trans ?_
    refine add_le_add ((norm_sub_le _ _).trans ?_) ?_
    · simp
    · rw [norm_mul, norm_mul, Complex.norm_I, one_mul, Complex.norm_real, Complex.norm_real, abs_mul]
      rfl
  have hSu : νj ^ 2 + ν ^ 2 + |γ * ν| ≤ 2 ^ 302 := by
    have b3 : |γ * ν| ≤ 2 ^ 300 := by
      have := mul_le_mul h4 h2 (abs_nonneg _) (by positivity)
      rwa [← pow_add, ← abs_mul] at this
    rw [show (302 : ℕ) = 300 + 2 from rfl, pow_add]
    have hp : (0 : ℝ) < 2 ^ 300 := by positivity
    clear h1 h2 h3 h4 hS1
    generalize (2 : ℝ) ^ 300 = P at *
    linarith
  have hSp : 0 < νj ^ 2 + ν ^ 2 + |γ * ν| := lt_of_lt_of_le (by positivity) hS1
  have hκD : 0 < κ * ‖D‖ := lt_of_lt_of_le hSp hκ
  have hDp : 0 < ‖D‖ := by
    rcases (norm_nonneg D).eq_or_lt with h | h
    · rw [← h, mul_zero] at hκD; exact absurd hκD (lt_irrefl _)
    · exact h
  refine ⟨?_, ?_, hDS.trans hSu⟩
  · have h5 : ‖D‖ ≤ κ * ‖D‖ := hDS.trans hκ
    by_contra h
    have := mul_lt_mul_of_pos_right (not_le.1 h) hDp
    rw [one_mul] at this
    exact absurd h5 (not_le.2 this)
  · have c1 : (1 / 2 : ℝ) ^ 300 ≤ 10 ^ 11 * ‖D‖ := hS1.trans (hκ.trans (mul_le_mul_of_nonneg_right hκ' hDp.le))
    have c2 : (10 : ℝ) ^ 11 * (1 / 2) ^ 340 ≤ (1 / 2) ^ 300 := by
      rw [show (340 : ℕ) = 40 + 300 from rfl, pow_add, ← mul_assoc]
      exact mul_le_of_le_one_left (by positivity) (by norm_num)
    exact le_of_mul_le_mul_left (c2.trans c1) (by positivity)

theorem eta_uro : eta ≤ uro * uro / 100 := by
  refine eta_le.trans ?_
  have d1 : (100 : ℝ) ≤ uro * 2 ^ 1000 := by
    have h : uro = 1 / 2 ^ 53 := by unfold uro; norm_num
    rw [h, show (1000 : ℕ) = 53 + (7 + 940) from rfl, pow_add, pow_add, ← mul_assoc, one_div_mul_cancel (by positivity), one_mul]
    have : (1 : ℝ) ≤ 2 ^ 940 := one_le_pow₀ (by norm_num)
    generalize (2 : ℝ) ^ 940 = P at *
    linarith
  have hp : (0 : ℝ) < 2 ^ 1000 := by positivity
  generalize (2 : ℝ) ^ 1000 = P at *
  rw [div_le_div_iff₀ hp (by norm_num), mul_assoc]
  exact mul_le_mul_of_nonneg_left d1 uro_pos.le

/-- `eps_inf + A / D`. -/
theorem lorentz_near {ν νj γ A κ k : ℝ} {a : F64 L} {εinf : ℂ} (h1 : (1 / 2) ^ 150 ≤ |ν|) (h2 : |ν| ≤ 2 ^ 150)
    (h3 : |νj| ≤ 2 ^ 150) (h4 : |γ| ≤ 2 ^ 150) (ha : a.Near A k) (hk0 : 0 ≤ k) (hk : k ≤ 10) (hA : |A| ≤ 2 ^ 450)
    (hκ : νj ^ 2 + ν ^ 2 + |γ * ν| ≤ κ * ‖(νj : ℂ) ^ 2 - ν ^ 2 - Complex.I * γ * ν‖) (hκ' : κ ≤ 10 ^ 11)
    (hε : ‖εinf‖ ≤ 2 ^ 900) : ∃ z,
    (C128.mk' L εinf + CplxOps.ofR a / (CplxOps.ofR (RealOps.npow (F64.fin νj : F64 L) 2 - RealOps.npow (F64.fin ν) 2) -
      clit Complex.I * CplxOps.ofR (F64.fin γ) * CplxOps.ofR (F64.fin ν)) : C128 L) = C128.mk' L z ∧
    ‖z - (εinf + A / ((νj : ℂ) ^ 2 - ν ^ 2 - Complex.I * γ * ν))‖ ≤
      (12 * κ + 80) * uro * ‖(A : ℂ) / ((νj : ℂ) ^ 2 - ν ^ 2 - Complex.I * γ * ν)‖ + 3 * uro * (‖εinf‖ + uro) := by
  obtain ⟨y, ey, hy⟩ := lorentz_den (L := L) h1 h2 h3 h4
  obtain ⟨hκ1, hDlow, hDup⟩ := lorentz_sized h1 h2 h3 h4 hκ hκ'
  obtain ⟨x, rfl, hx⟩ := ha
  have hDp : 0 < ‖(νj : ℂ) ^ 2 - ν ^ 2 - Complex.I * γ * ν‖ := lt_of_lt_of_le (by positivity) hDlow
  rw [ey]
  refine perm_near hk0 hk hx ?_ hκ1 hκ' ⟨?_, ?_⟩ ?_ ?_ ?_ eta_uro
  · refine hy.trans ?_
    rw [mul_assoc (11 * uro)]
    exact mul_le_mul_of_nonneg_left hκ (mul_nonneg (by norm_num) uro_pos.le)
  · exact (pow_le_pow_of_le_one (by norm_num) (by norm_num) (by norm_num)).trans hDlow
  · exact hDup.trans (pow_le_pow_right₀ one_le_two (by norm_num))
  · exact (mul_le_mul_of_nonneg_right hA (by norm_num)).trans (pow_mul_le_max (by norm_num))
  · refine (mul_le_mul_of_nonneg_right (?_ : _ ≤ (2 : ℝ) ^ 790) (by norm_num)).trans (pow_mul_le_max (by norm_num))
    rw [div_le_iff₀ hDp]
    refine hA.trans ?_
    refine le_trans ?_ (mul_le_mul_of_nonneg_left hDlow (by positivity))
    rw [show (790 : ℕ) = 450 + 340 from rfl, pow_add, one_div_pow, mul_assoc, mul_one_div_cancel (by positivity), mul_one]
  · exact (mul_le_mul_of_nonneg_right hε (by norm_num)).trans (pow_mul_le_max (by norm_num))

end Snompy
