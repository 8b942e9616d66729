import Verif.Lemmas.DoubleStack

/-!
# Real and complex doubles commit small errors
-/

namespace Snompy

variable {L : Libm}

/-- Rounding of a number known approximately. -/
theorem rnd_approx {x y e : ℝ} (h : |x - y| ≤ e) : |rnd x - y| ≤ uro * |y| + (1 + uro) * e + eta := by
  have h1 := rnd_err x
  have h2 := abs_sub_abs_le_abs_sub x y
  have h3 := abs_sub_le (rnd x) x y
  have h4 : uro * |x| ≤ uro * (|y| + e) := mul_le_mul_of_nonneg_left (by linarith) uro_pos.le
  nlinarith

theorem F64.fl {x M : ℝ} (hx : |x| ≤ M) (h : M * (1 + uro) + eta ≤ maxDouble) :
    (F64.ofReal x : F64 L) = .fin (rnd x) ∧ |rnd x - x| ≤ uro * M + eta ∧ Rep (rnd x) := by
  have hu := uro_pos
  refine ⟨F64.ofReal_fin (by nlinarith), (rnd_err x).trans ?_, rep_rnd x⟩
  have := mul_le_mul_of_nonneg_left hx hu.le
  linarith

/-- The exponential of a double below the limit. -/
theorem F64.exp_fin {p : ℝ} (h : |p| ≤ expLimit) :
    (F64.exp (.fin p) : F64 L) = .fin (rnd (L.exp p)) ∧
      |rnd (L.exp p) - Real.exp p| ≤ (3 * uro + 2 * uro ^ 2) * Real.exp p + eta := by
  have hu := uro_pos
  have hu' := uro_lt
  have he := eta_lt
  have hE := Real.exp_pos p
  have h1 : Real.exp p ≤ maxDouble * (1 - 2 / 10 ^ 14) :=
    (Real.exp_le_exp.2 (abs_le.1 h).2).trans exp_expLimit_le
  have h2 := L.exp_err p
  rw [show ((1 : ℝ) / 2) ^ 52 = 2 * uro by unfold uro; norm_num] at h2
  have h3 := rnd_approx h2
  rw [abs_of_pos hE] at h3
  have hm := maxDouble_pos
  have hm2 := F64.one_le_max
  have h5 : |L.exp p| ≤ Real.exp p * (1 + 2 * uro) := by
    have := abs_sub_abs_le_abs_sub (L.exp p) (Real.exp p)
    rw [abs_of_pos hE] at this
    linarith
  refine ⟨F64.ofReal_fin ?_, by nlinarith⟩
  have h6 : Real.exp p * (1 + 2 * uro) * (1 + uro) ≤ maxDouble * (1 - 1 / 10 ^ 14) := by
    have : (1 + 2 * uro) * (1 + uro) ≤ 1 + 4 / 10 ^ 15 := by nlinarith
    calc Real.exp p * (1 + 2 * uro) * (1 + uro) = Real.exp p * ((1 + 2 * uro) * (1 + uro)) := by ring
      _ ≤ maxDouble * (1 - 2 / 10 ^ 14) * (1 + 4 / 10 ^ 15) :=
        mul_le_mul h1 this (by positivity) (by nlinarith)
      _ ≤ _ := by nlinarith
  have h7 : |L.exp p| * (1 + uro) ≤ Real.exp p * (1 + 2 * uro) * (1 + uro) :=
    mul_le_mul_of_nonneg_right h5 (by linarith)
  linarith

/-- Real doubles. -/
noncomputable def realArith (L : Libm) : Arith L (F64 L) where
  Val a v := ∃ x : ℝ, a = .fin x ∧ v = x
  kdiv := 1
  room := 1
  kdiv_ge := le_rfl
  kdiv_le := by norm_num
  room_ge := le_rfl
  room_le := by norm_num
  one := ⟨1, by show F64.ofReal (Complex.re 1) = _; rw [Complex.one_re, F64.ofReal_one], by simp⟩
  neg_one := ⟨-1, by
    show F64.ofReal (Complex.re (-1)) = _
    rw [Complex.neg_re, Complex.one_re, F64.ofReal_neg_one], by simp⟩
  real x := ⟨x, rfl, rfl⟩
  add := by
    rintro _ _ _ _ ⟨x, rfl, rfl⟩ ⟨y, rfl, rfl⟩ h
    simp only [Complex.norm_real, Real.norm_eq_abs] at h ⊢
    have hu := uro_pos
    have he := eta_pos
    have hxy := abs_add_le x y
    obtain ⟨h1, h2, -⟩ := F64.fl (L := L) hxy (by nlinarith [abs_nonneg x, abs_nonneg y])
    refine ⟨_, ⟨_, h1, rfl⟩, ?_⟩
    rw [← Complex.ofReal_add, ← Complex.ofReal_sub, Complex.norm_real, Real.norm_eq_abs]
    nlinarith [abs_nonneg x, abs_nonneg y]
  mul := by
    rintro _ _ _ _ ⟨x, rfl, rfl⟩ ⟨y, rfl, rfl⟩ h
    simp only [Complex.norm_real, Real.norm_eq_abs] at h ⊢
    have hu := uro_pos
    have he := eta_pos
    have hp : 0 ≤ |x| * |y| := by positivity
    obtain ⟨h1, h2, -⟩ := F64.fl (L := L) (x := x * y) (abs_mul x y).le (by nlinarith)
    refine ⟨_, ⟨_, h1, rfl⟩, ?_⟩
    rw [← Complex.ofReal_mul, ← Complex.ofReal_sub, Complex.norm_real, Real.norm_eq_abs]
    nlinarith
  half := by
    rintro _ _ ⟨x, rfl, rfl⟩ h
    have e2 : (clit 2 : F64 L) = .fin 2 := F64.ofReal_two
    have hv : ((x : ℂ) / 2) = ((x / 2 : ℝ) : ℂ) := by push_cast; rfl
    rw [hv, e2, F64.fin_div _ (by norm_num)]
    simp only [Complex.norm_real, Real.norm_eq_abs] at h ⊢
    have hu := uro_pos
    have he := eta_pos
    have hx := abs_nonneg x
    have hx2 : |x / 2| = |x| / 2 := by rw [abs_div, abs_two]
    obtain ⟨h1, h2, -⟩ := F64.fl (L := L) (x := x / 2) hx2.le (by nlinarith)
    refine ⟨_, ⟨_, h1, rfl⟩, ?_⟩
    rw [← Complex.ofReal_sub, Complex.norm_real, Real.norm_eq_abs, hx2]
    nlinarith
  div := by
    rintro _ _ _ _ ⟨x, rfl, rfl⟩ ⟨y, rfl, rfl⟩ hw _ _ h
    have hy : y ≠ 0 := by
      rintro rfl
      simp only [Complex.ofReal_zero, norm_zero] at hw
      have : (0 : ℝ) < (1 / 2) ^ 900 := by positivity
      linarith
    clear hw
    rw [F64.fin_div _ hy]
    simp only [Complex.norm_real, Real.norm_eq_abs] at h ⊢
    have hu := uro_pos
    have he := eta_pos
    have he3 : eta ≤ uro ^ 3 := by
      refine eta_le.trans ?_
      have : uro ^ 3 = uro * (1 / 2 ^ 106) := by unfold uro; norm_num
      rw [this, div_eq_mul_one_div]
      refine mul_le_mul_of_nonneg_left ?_ hu.le
      exact one_div_le_one_div_of_le (by positivity) (pow_le_pow_right₀ (by norm_num) (by norm_num))
    have hp : 0 ≤ |x| / |y| := by positivity
    obtain ⟨h1, h2, -⟩ := F64.fl (L := L) (x := x / y) (abs_div x y).le (by linarith)
    refine ⟨_, ⟨_, h1, rfl⟩, ?_⟩
    rw [← Complex.ofReal_div, ← Complex.ofReal_sub, Complex.norm_real, Real.norm_eq_abs]
    linarith
  prop := by
    intro p hp hl
    have hu := uro_pos
    have hu' := uro_lt
    have he := eta_pos
    have e1 : (clit 1 : F64 L) = .fin 1 := by
      show F64.ofReal (Complex.re 1) = _; rw [Complex.one_re, F64.ofReal_one]
    have em : (clit (-1) : F64 L) = .fin (-1) := by
      show F64.ofReal (Complex.re (-1)) = _
      rw [Complex.neg_re, Complex.one_re, F64.ofReal_neg_one]
    have e0 : (clit 0 : F64 L) = .fin 0 := by
      show F64.ofReal (Complex.re 0) = _; rw [Complex.zero_re, F64.ofReal_zero]
    have hlm : expLimit ≤ maxDouble := by
      have := F64.one_le_max
      have h1 := Real.add_one_le_exp expLimit
      have h2 := exp_expLimit_le
      nlinarith
    have c1 : (clit 1 * CplxOps.ofR (F64.fin p) : F64 L) = .fin p := by
      rw [e1]
      show (F64.fin 1 * F64.fin p : F64 L) = _
      rw [F64.fin_mul, one_mul, F64.ofReal_rep hp (by linarith)]
    have c2 : (clit (-1) * CplxOps.ofR (F64.fin p) : F64 L) = .fin (-p) := by
      rw [em]
      show (F64.fin (-1) * F64.fin p : F64 L) = _
      rw [F64.fin_mul, neg_one_mul, F64.ofReal_rep hp.neg (by rw [abs_neg]; linarith)]
    obtain ⟨f1, g1⟩ := F64.exp_fin (L := L) hl
    obtain ⟨f2, g2⟩ := F64.exp_fin (L := L) (p := -p) (by rwa [abs_neg])
    have bnd : ∀ s : ℝ, |s| ≤ expLimit → |rnd (L.exp s)| ≤ maxDouble := by
      intro s hs
      obtain ⟨f, -⟩ := F64.exp_fin (L := L) hs
      by_contra hcon
      have : (F64.exp (.fin s) : F64 L) = F64.ofReal (L.exp s) := rfl
      rw [this, F64.ofReal, if_neg hcon] at f
      unfold F64.infOf at f
      split_ifs at f
    unfold Stack.propagation
    rw [c1, c2]
    have hexp1 : (CplxOps.exp (F64.fin p) : F64 L) = .fin (rnd (L.exp p)) := f1
    have hexp2 : (CplxOps.exp (F64.fin (-p)) : F64 L) = .fin (rnd (L.exp (-p))) := f2
    rw [hexp1, hexp2, e1, e0]
    simp only [F64.fin_mul, mul_one, mul_zero, F64.ofReal_zero]
    rw [F64.ofReal_rep (rep_rnd _) (bnd p hl), F64.ofReal_rep (rep_rnd _) (bnd (-p) (by rwa [abs_neg]))]
    refine ⟨_, _, ⟨_, rfl, rfl⟩, ?_, ⟨0, rfl, by simp⟩, ⟨0, rfl, by simp⟩, ⟨_, rfl, rfl⟩, ?_⟩
    · rw [← Complex.ofReal_sub, Complex.norm_real, Real.norm_eq_abs]
      nlinarith [Real.exp_pos p, mul_pos hu (Real.exp_pos p)]
    · rw [← Complex.ofReal_sub, Complex.norm_real, Real.norm_eq_abs]
      nlinarith [Real.exp_pos (-p), mul_pos hu (Real.exp_pos (-p))]

end Snompy
