import Verif.Lemmas.DoubleSigns
import Verif.Lemmas.DoubleExp

/-!
# C113: Lorentz and Drude permittivities in double precision
-/

namespace Snompy.Props

variable {L : Libm}

/-! ## Size of the rounding errors -/

/-- The computed Lorentz permittivity differs from the exact one by `12 κ + 80` units of roundoff of the resonant term,
where `κ` is the condition number of the denominator. -/
theorem C113_lorentz (ν νj γ A f κ : ℝ) (εinf : ℂ) (h1 : (1 / 2) ^ 150 ≤ |ν|) (h2 : |ν| ≤ 2 ^ 150)
    (h3 : |νj| ≤ 2 ^ 150) (h4 : |γ| ≤ 2 ^ 150) (hA : |A| ≤ 2 ^ 450)
    (hκ : νj ^ 2 + ν ^ 2 + |γ * ν| ≤ κ * ‖(νj : ℂ) ^ 2 - ν ^ 2 - Complex.I * γ * ν‖) (hκ' : κ ≤ 10 ^ 11)
    (hε : ‖εinf‖ ≤ 2 ^ 900) : ∃ z : ℂ,
    (lorentzPerm (.fin ν) (.fin νj) (.fin γ) (some (.fin A)) none (.fin f) ⟨.fin εinf.re, .fin εinf.im⟩ : PyM (C128 L)) =
      .ok ⟨.fin z.re, .fin z.im⟩ ∧
    ‖z - (εinf + A / ((νj : ℂ) ^ 2 - ν ^ 2 - Complex.I * γ * ν))‖ ≤
      (12 * κ + 80) * (1 / 2) ^ 53 * ‖(A : ℂ) / ((νj : ℂ) ^ 2 - ν ^ 2 - Complex.I * γ * ν)‖ +
        3 * (1 / 2) ^ 53 * (‖εinf‖ + (1 / 2) ^ 53) := by
  obtain ⟨z, hz, he⟩ := lorentz_near (L := L) (εinf := εinf) h1 h2 h3 h4 (F64.near_fin A) le_rfl (by norm_num) hA hκ hκ' hε
  exact ⟨z, congrArg Except.ok hz, he⟩

/-- The same with the amplitude given by the plasma wavenumber. -/
theorem C113_plasma (ν νj γ νp f κ : ℝ) (εinf : ℂ) (h1 : (1 / 2) ^ 150 ≤ |ν|) (h2 : |ν| ≤ 2 ^ 150)
    (h3 : |νj| ≤ 2 ^ 150) (h4 : |γ| ≤ 2 ^ 150) (hp1 : (1 / 2) ^ 150 ≤ |νp|) (hp2 : |νp| ≤ 2 ^ 150)
    (hf1 : (1 / 2) ^ 150 ≤ |f|) (hf2 : |f| ≤ 2 ^ 150)
    (hκ : νj ^ 2 + ν ^ 2 + |γ * ν| ≤ κ * ‖(νj : ℂ) ^ 2 - ν ^ 2 - Complex.I * γ * ν‖) (hκ' : κ ≤ 10 ^ 11)
    (hε : ‖εinf‖ ≤ 2 ^ 900) : ∃ z : ℂ,
    (lorentzPerm (.fin ν) (.fin νj) (.fin γ) none (some (.fin νp)) (.fin f) ⟨.fin εinf.re, .fin εinf.im⟩ : PyM (C128 L)) =
      .ok ⟨.fin z.re, .fin z.im⟩ ∧
    ‖z - (εinf + (f * νp ^ 2 : ℝ) / ((νj : ℂ) ^ 2 - ν ^ 2 - Complex.I * γ * ν))‖ ≤
      (12 * κ + 80) * (1 / 2) ^ 53 * ‖((f * νp ^ 2 : ℝ) : ℂ) / ((νj : ℂ) ^ 2 - ν ^ 2 - Complex.I * γ * ν)‖ +
        3 * (1 / 2) ^ 53 * (‖εinf‖ + (1 / 2) ^ 53) := by
  have b1 := sq_ge_of_abs hp1
  have b2 := sq_le_of_abs hp2
  have hsq : (RealOps.npow (F64.fin νp) 2 : F64 L).Near (νp ^ 2) 2 := by
    refine (near_ofReal (k := 0) le_rfl (by norm_num) (by simp) ⟨?_, ?_⟩).mono (by norm_num)
    · rw [abs_of_nonneg (sq_nonneg νp)]
      exact (pow_le_pow_of_le_one (by norm_num) (by norm_num) (by norm_num)).trans b1
    · rw [abs_of_nonneg (sq_nonneg νp)]
      exact b2.trans (pow_le_pow_right₀ one_le_two (by norm_num))
  have b3 : |f * νp ^ 2| ≤ 2 ^ 450 := by
    rw [abs_mul, abs_of_nonneg (sq_nonneg νp), show (450 : ℕ) = 150 + 300 from rfl, pow_add]
    exact mul_le_mul hf2 b2 (sq_nonneg _) (by positivity)
  have b4 : (1 / 2) ^ 450 ≤ |f * νp ^ 2| := by
    rw [abs_mul, abs_of_nonneg (sq_nonneg νp), show (450 : ℕ) = 150 + 300 from rfl, pow_add]
    exact mul_le_mul hf1 b1 (by positivity) (abs_nonneg _)
  have hm : (F64.fin f * RealOps.npow (F64.fin νp) 2 : F64 L).Near (f * νp ^ 2) (0 + 2 + 2) :=
    (F64.near_fin f).mul hsq le_rfl (by norm_num) (by norm_num) (by norm_num)
      ⟨(pow_le_pow_of_le_one (by norm_num) (by norm_num) (by norm_num)).trans b4,
        b3.trans (pow_le_pow_right₀ one_le_two (by norm_num))⟩
  obtain ⟨z, hz, he⟩ := lorentz_near (L := L) (εinf := εinf) h1 h2 h3 h4 hm (by norm_num) (by norm_num) b3 hκ hκ' hε
  exact ⟨z, congrArg Except.ok hz, he⟩

/-- The damping bounds the condition number: the wider the resonance, the smaller the error. -/
theorem C113_damped (ν νj γ A f : ℝ) (εinf : ℂ) (h1 : (1 / 2) ^ 150 ≤ |ν|) (h2 : |ν| ≤ 2 ^ 150)
    (h3 : |νj| ≤ 2 ^ 150) (h4 : |γ| ≤ 2 ^ 150) (hA : |A| ≤ 2 ^ 450) (hγ : 0 < |γ * ν|)
    (hκ : (νj ^ 2 + ν ^ 2) / |γ * ν| ≤ 10 ^ 10) (hε : ‖εinf‖ ≤ 2 ^ 900) : ∃ z : ℂ,
    (lorentzPerm (.fin ν) (.fin νj) (.fin γ) (some (.fin A)) none (.fin f) ⟨.fin εinf.re, .fin εinf.im⟩ : PyM (C128 L)) =
      .ok ⟨.fin z.re, .fin z.im⟩ ∧
    ‖z - (εinf + A / ((νj : ℂ) ^ 2 - ν ^ 2 - Complex.I * γ * ν))‖ ≤
      (12 * ((νj ^ 2 + ν ^ 2) / |γ * ν|) + 92) * (1 / 2) ^ 53 *
        ‖(A : ℂ) / ((νj : ℂ) ^ 2 - ν ^ 2 - Complex.I * γ * ν)‖ + 3 * (1 / 2) ^ 53 * (‖εinf‖ + (1 / 2) ^ 53) := by
  have hD : |γ * ν| ≤ ‖(νj : ℂ) ^ 2 - ν ^ 2 - Complex.I * γ * ν‖ := by
    have h := Complex.abs_im_le_norm ((νj : ℂ) ^ 2 - ν ^ 2 - Complex.I * γ * ν)
    have e : ((νj : ℂ) ^ 2 - ν ^ 2 - Complex.I * γ * ν).im = -(γ * ν) := by
      rw [Complex.sub_im, Complex.sub_im, ← Complex.ofReal_pow, ← Complex.ofReal_pow, Complex.ofReal_im, Complex.ofReal_im]
      simp
    rwa [e, abs_neg] at h
  have hq : 0 ≤ (νj ^ 2 + ν ^ 2) / |γ * ν| := by positivity
  obtain ⟨z, hz, he⟩ := C113_lorentz (L := L) ν νj γ A f ((νj ^ 2 + ν ^ 2) / |γ * ν| + 1) εinf h1 h2 h3 h4 hA (by
    refine le_trans (le_of_eq ?_) (mul_le_mul_of_nonneg_left hD (by positivity))
    rw [add_mul, div_mul_cancel₀ _ hγ.ne', one_mul]) (by linarith) hε
  refine ⟨z, hz, he.trans (le_of_eq ?_)⟩
  ring

/-- The denominator of the Drude permittivity is always well conditioned. -/
theorem drude_condition (ν γ : ℝ) :
    (0 : ℝ) ^ 2 + ν ^ 2 + |γ * ν| ≤ 3 / 2 * ‖((0 : ℝ) : ℂ) ^ 2 - ν ^ 2 - Complex.I * γ * ν‖ := by
  have e : ((0 : ℝ) : ℂ) ^ 2 - ν ^ 2 - Complex.I * γ * ν = -(ν * (ν + γ * Complex.I)) := by push_cast; ring
  rw [e, norm_neg, norm_mul, Complex.norm_real, Complex.norm_add_mul_I, Real.norm_eq_abs, abs_mul, ← sq_abs ν, ← sq_abs γ]
  have h1 : |ν| + |γ| ≤ 3 / 2 * Real.sqrt (|ν| ^ 2 + |γ| ^ 2) := by
    have : ((|ν| + |γ|) / (3 / 2)) ≤ Real.sqrt (|ν| ^ 2 + |γ| ^ 2) := by
      apply Real.le_sqrt_of_sq_le
      nlinarith [sq_nonneg (|ν| - |γ|), sq_nonneg |ν|, sq_nonneg |γ|]
    linarith
  have := mul_le_mul_of_nonneg_left h1 (abs_nonneg ν)
  nlinarith

/-- The computed Drude permittivity is accurate to `10⁻¹⁴` of the free-carrier term, whatever the damping. -/
theorem C113_drude (ν νp γ : ℝ) (εinf : ℂ) (h1 : (1 / 2) ^ 150 ≤ |ν|) (h2 : |ν| ≤ 2 ^ 150)
    (h4 : |γ| ≤ 2 ^ 150) (hp1 : (1 / 2) ^ 150 ≤ |νp|) (hp2 : |νp| ≤ 2 ^ 150) (hε : ‖εinf‖ ≤ 2 ^ 900) : ∃ z : ℂ,
    (drudePerm (.fin ν) (.fin νp) (.fin γ) ⟨.fin εinf.re, .fin εinf.im⟩ : PyM (C128 L)) = .ok ⟨.fin z.re, .fin z.im⟩ ∧
    ‖z - (εinf - (νp : ℂ) ^ 2 / (ν ^ 2 + Complex.I * γ * ν))‖ ≤
      11 / 10 ^ 15 * ‖(νp : ℂ) ^ 2 / (ν ^ 2 + Complex.I * γ * ν)‖ + 1 / 10 ^ 15 * ‖εinf‖ + 1 / 10 ^ 31 := by
  have l1 : (lit 1 : F64 L) = .fin 1 := F64.ofReal_one
  have l0 : (lit 0 : F64 L) = .fin 0 := F64.ofReal_zero
  obtain ⟨z, hz, he⟩ := C113_plasma (L := L) ν 0 γ νp 1 (3 / 2) εinf h1 h2 (by rw [abs_zero]; positivity) h4 hp1 hp2
    (by rw [abs_one]; exact pow_le_one₀ (by norm_num) (by norm_num)) (by rw [abs_one]; exact one_le_pow₀ (by norm_num))
    (drude_condition ν γ) (by norm_num) hε
  refine ⟨z, ?_, ?_⟩
  · unfold drudePerm
    rw [l0, l1]
    exact hz
  · have e : ((1 * νp ^ 2 : ℝ) : ℂ) / (((0 : ℝ) : ℂ) ^ 2 - ν ^ 2 - Complex.I * γ * ν) =
        -((νp : ℂ) ^ 2 / (ν ^ 2 + Complex.I * γ * ν)) := by
      rw [← div_neg]
      push_cast
      congr 1 <;> ring
    rw [e, norm_neg, ← sub_eq_add_neg] at he
    refine he.trans ?_
    have hQ := norm_nonneg ((νp : ℂ) ^ 2 / (ν ^ 2 + Complex.I * γ * ν))
    have hE := norm_nonneg εinf
    have hu : ((1 : ℝ) / 2) ^ 53 ≤ 1112 / 10 ^ 19 := by norm_num
    have hu0 : (0 : ℝ) ≤ (1 / 2) ^ 53 := by positivity
    generalize ((1 : ℝ) / 2) ^ 53 = u at *
    have c1 := mul_le_mul_of_nonneg_right hu hQ
    have c2 := mul_le_mul_of_nonneg_right hu hE
    have c3 := mul_le_mul hu hu hu0 (by norm_num)
    nlinarith

/-- A phonon resonance of silicon carbide and a metal, in inverse centimetres. -/
example := C113_damped (L := Libm.exact) 930 797 5 1 1 6.5 (by rw [abs_of_pos (by norm_num)]; norm_num)
  (by rw [abs_of_pos (by norm_num)]; norm_num) (by rw [abs_of_pos (by norm_num)]; norm_num)
  (by rw [abs_of_pos (by norm_num)]; norm_num) (by rw [abs_one]; exact one_le_pow₀ (by norm_num)) (by norm_num)
  (by norm_num) (by
    have : ‖(6.5 : ℂ)‖ ≤ 2 ^ 3 := by norm_num
    exact this.trans (pow_le_pow_right₀ one_le_two (by norm_num)))

example := C113_drude (L := Libm.exact) 1000 70000 200 1 (by rw [abs_of_pos (by norm_num)]; norm_num)
  (by rw [abs_of_pos (by norm_num)]; norm_num) (by rw [abs_of_pos (by norm_num)]; norm_num)
  (by rw [abs_of_pos (by norm_num)]; norm_num) (by rw [abs_of_pos (by norm_num)]; norm_num)
  (by rw [norm_one]; exact one_le_pow₀ (by norm_num))

/-! ## Signs -/

/-- The computed permittivity of a passive material is passive: its imaginary part is never a negative number, whatever is
rounded, overflows or underflows. -/
theorem C113_passive (ν νj γ A f : F64 L) (εinf : C128 L) (hν : ν.NotNeg) (hγ : γ.NotNeg) (hA : A.NotNeg)
    (hε : εinf.im.NotNeg) : ∃ w : C128 L, lorentzPerm ν νj γ (some A) none f εinf = .ok w ∧ w.im.NotNeg := by
  refine ⟨_, rfl, hε.add ?_⟩
  have h0 : (F64.fin 0 : F64 L).NotNeg := le_refl (0 : ℝ)
  have h1 : (F64.fin 1 : F64 L).NotNeg := zero_le_one (α := ℝ)
  have h0' : (F64.fin 0 : F64 L).NotPos := le_refl (0 : ℝ)
  refine C128.div_im_notNeg hA ?_ (F64.stored_add _ _) (F64.stored_add _ _)
  -- the imaginary part of `- 1j * gamma * nu`
  have e : ((clit Complex.I : C128 L) * CplxOps.ofR γ).im.NotNeg := by
    rw [C128.clit_I]
    show (F64.fin Complex.I.re * F64.fin 0 + F64.fin Complex.I.im * γ : F64 L).NotNeg
    rw [Complex.I_re, Complex.I_im]
    exact (h0.mul h0).add (h1.mul hγ)
  refine h0'.sub ?_
  show (((clit Complex.I : C128 L) * CplxOps.ofR γ).re * F64.fin 0 + ((clit Complex.I : C128 L) * CplxOps.ofR γ).im * ν).NotNeg
  refine F64.NotNeg.add ?_ (e.mul hν)
  have hz : ∀ x : F64 L, (x * F64.fin 0 : F64 L).NotNeg := by
    intro x
    show (F64.mul _ _).NotNeg
    cases x with
    | fin y => exact F64.ofReal_notNeg (by rw [mul_zero])
    | pinf => exact F64.infOf_notNeg le_rfl
    | ninf => exact F64.infOf_notNeg (by rw [neg_zero])
    | nan => trivial
  exact hz _

theorem npow_two_notNeg (x : F64 L) : (RealOps.npow x 2 : F64 L).NotNeg := by
  show (F64.npow x 2).NotNeg
  cases x with
  | fin y => exact F64.ofReal_notNeg (sq_nonneg y)
  | pinf => trivial
  | ninf => trivial
  | nan => trivial

theorem C113_passive_plasma (ν νj γ νp f : F64 L) (εinf : C128 L) (hν : ν.NotNeg) (hγ : γ.NotNeg) (hf : f.NotNeg)
    (hε : εinf.im.NotNeg) : ∃ w : C128 L, lorentzPerm ν νj γ none (some νp) f εinf = .ok w ∧ w.im.NotNeg :=
  C113_passive ν νj γ (f * RealOps.npow νp 2) f εinf hν hγ (hf.mul (npow_two_notNeg νp)) hε

theorem C113_passive_drude (ν νp γ : F64 L) (εinf : C128 L) (hν : ν.NotNeg) (hγ : γ.NotNeg) (hε : εinf.im.NotNeg) :
    ∃ w : C128 L, drudePerm ν νp γ εinf = .ok w ∧ w.im.NotNeg :=
  C113_passive_plasma ν (lit 0) γ νp (lit 1) εinf hν hγ (by
    rw [show (lit 1 : F64 L) = .fin 1 from F64.ofReal_one]
    exact zero_le_one (α := ℝ)) hε

example := C113_passive (L := Libm.exact) (.fin 930) (.fin 797) (.fin 5) (.fin 1) (.fin 1) ⟨.fin 6.5, .fin 0⟩
  (show (0 : ℝ) ≤ 930 by norm_num) (show (0 : ℝ) ≤ 5 by norm_num) (show (0 : ℝ) ≤ 1 by norm_num) (le_refl (0 : ℝ))

/-! ## Loss of accuracy -/

/-- On an undamped resonance the real part is infinite and the imaginary part is not a number. -/
theorem C113_pole (ν A f : ℝ) (εinf : ℂ) (hA : 0 < A) (hν : |ν| ≤ 2 ^ 150) :
    (lorentzPerm (.fin ν) (.fin ν) (.fin 0) (some (.fin A)) none (.fin f) ⟨.fin εinf.re, .fin εinf.im⟩ : PyM (C128 L)) =
      .ok ⟨.pinf, .nan⟩ := by
  obtain ⟨y, ey, -⟩ := sq_err (L := L) (sq_le_of_abs hν) (one_le_pow₀ (by norm_num)) (pow_mul_le_max (by norm_num))
  have e : (CplxOps.ofR (RealOps.npow (F64.fin ν : F64 L) 2 - RealOps.npow (F64.fin ν) 2) -
      clit Complex.I * CplxOps.ofR (F64.fin 0) * CplxOps.ofR (F64.fin ν) : C128 L) = C128.mk' L 0 := by
    rw [ey, F64.fin_sub, add_neg_cancel, F64.ofReal_zero, C128.clit_I, C128.ofR_fin, C128.ofR_fin, Complex.ofReal_zero,
      C128.mk'_mul_zero, C128.mk'_mul]
    simp only [Complex.zero_re, Complex.zero_im, zero_mul, F64.ofReal_zero, F64.fin_sub, F64.fin_add, neg_zero, add_zero]
    show C128.sub _ _ = _
    unfold C128.sub C128.mk'
    simp only [Complex.zero_re, Complex.zero_im, F64.ofReal_zero, F64.fin_sub, neg_zero, add_zero]
  have d : (CplxOps.ofR (F64.fin A) / C128.mk' L 0 : C128 L) = ⟨.pinf, .nan⟩ := by
    show C128.div _ _ = _
    unfold C128.div C128.mk'
    have hg : C128.absGe (F64.fin (0 : ℂ).re : F64 L) (F64.fin (0 : ℂ).im) = true := by
      simp [C128.absGe]
    rw [if_pos hg, if_pos ⟨rfl, rfl⟩]
    show (⟨F64.div (.fin A) (F64.fin |(0 : ℂ).re|), F64.div (.fin 0) (F64.fin |(0 : ℂ).re|)⟩ : C128 L) = _
    rw [Complex.zero_re, abs_zero]
    simp [F64.div, F64.infOf, hA]
  show Except.ok ((⟨.fin εinf.re, .fin εinf.im⟩ : C128 L) + CplxOps.ofR (F64.fin A) / _) = _
  rw [e, d]
  rfl

example := C113_pole (L := Libm.exact) 797 1 1 6.5 one_pos (by rw [abs_of_pos (by norm_num)]; norm_num)

/-- The condition number cannot be left out: with `nu_j = 1 + 2⁻²⁷`, `nu_vac = 1` and no damping, about half of
the bits are lost. -/
theorem C113_cancellation : ∃ z : ℝ,
    (lorentzPerm (.fin 1) (.fin (1 + (1 / 2) ^ 27)) (.fin 0) (some (.fin 1)) none (.fin 1) ⟨.fin 0, .fin 0⟩ : PyM (C128 L)) =
      .ok ⟨.fin z, .fin 0⟩ ∧
    (1 / 2) ^ 29 * ‖(1 : ℂ) / ((1 + (1 / 2) ^ 27 : ℂ) ^ 2 - 1 ^ 2 - Complex.I * 0 * 1)‖ ≤
      ‖(z : ℂ) - (0 + 1 / ((1 + (1 / 2) ^ 27 : ℂ) ^ 2 - 1 ^ 2 - Complex.I * 0 * 1))‖ := by
  have hmax : ∀ x : ℝ, |x| ≤ 2 ^ 40 → |x| ≤ maxDouble := fun x hx => hx.trans (pow_le_max (by norm_num))
  -- the square of the centre wavenumber is rounded to `1 + 2⁻²⁶`
  have r1 : rnd ((1 + (1 / 2) ^ 27) ^ 2) = 1 + (1 / 2) ^ 26 := by
    have hl : Int.log 2 |((1 + (1 / 2) ^ 27) ^ 2 : ℝ)| = 0 := by
      rw [abs_of_pos (by positivity)]
      refine le_antisymm (Int.lt_add_one_iff.1 ?_) ?_
      · rw [← Int.lt_zpow_iff_log_lt (by norm_num) (by positivity)]
        norm_num
      · rw [← Int.zpow_le_iff_le_log (by norm_num) (by positivity)]
        norm_num
    unfold rnd ulpExp
    rw [hl, show max (0 - 52 : ℤ) (-1074) = -52 by norm_num, roundEven_eq (n := 2 ^ 52 + 2 ^ 26) (by
      rw [abs_lt]; constructor <;> norm_num)]
    norm_num
  have e1 : (RealOps.npow (F64.fin (1 + (1 / 2) ^ 27)) 2 : F64 L) = .fin (1 + (1 / 2) ^ 26) := by
    show F64.ofReal _ = _
    unfold F64.ofReal
    rw [r1, if_pos (hmax _ (by rw [abs_of_pos (by norm_num)]; norm_num))]
  have e2 : (RealOps.npow (F64.fin 1) 2 : F64 L) = .fin 1 := by
    show F64.ofReal _ = _
    rw [one_pow, F64.ofReal_one]
  have e3 : (F64.fin (1 + (1 / 2) ^ 26) - F64.fin 1 : F64 L) = .fin ((1 / 2) ^ 26) := by
    rw [F64.fin_sub, show (1 + (1 / 2) ^ 26 + -1 : ℝ) = (1 / 2) ^ 26 by ring]
    exact F64.ofReal_rep ⟨1, -26, by norm_num, by norm_num, by norm_num⟩
      (hmax _ (by rw [abs_of_pos (by positivity)]; norm_num))
  have hr : ∀ {x : ℝ}, Rep x → |x| ≤ 2 ^ 40 → (F64.ofReal x : F64 L) = .fin x := fun h h' => F64.ofReal_rep h (hmax _ h')
  have e4 : (CplxOps.ofR (RealOps.npow (F64.fin (1 + (1 / 2) ^ 27) : F64 L) 2 - RealOps.npow (F64.fin 1) 2) -
      clit Complex.I * CplxOps.ofR (F64.fin 0) * CplxOps.ofR (F64.fin 1) : C128 L) = ⟨.fin ((1 / 2) ^ 26), .fin 0⟩ := by
    rw [e1, e2, e3, C128.clit_I, C128.ofR_fin, C128.ofR_fin, C128.ofR_fin, Complex.ofReal_zero, C128.mk'_mul_zero, C128.mk'_mul]
    simp only [Complex.zero_re, Complex.zero_im, zero_mul, F64.ofReal_zero, F64.fin_sub, F64.fin_add, neg_zero, add_zero]
    show C128.sub _ _ = _
    unfold C128.sub C128.mk'
    simp only [Complex.ofReal_re, Complex.ofReal_im, F64.fin_sub, neg_zero, add_zero, F64.ofReal_zero]
    rw [hr ⟨1, -26, by norm_num, by norm_num, by norm_num⟩ (by rw [abs_of_pos (by positivity)]; norm_num)]
  have e5 : (CplxOps.ofR (F64.fin 1) / (⟨.fin ((1 / 2) ^ 26), .fin 0⟩ : C128 L) : C128 L) = ⟨.fin (2 ^ 26), .fin 0⟩ := by
    show C128.div _ _ = _
    unfold C128.div
    have hg : C128.absGe (F64.fin ((1 / 2) ^ 26) : F64 L) (F64.fin 0) = true := by
      simp [C128.absGe]
    have hn : ¬((F64.fin ((1 / 2) ^ 26) : F64 L) = .fin 0 ∧ (F64.fin 0 : F64 L) = .fin 0) := by
      rintro ⟨h, -⟩
      injection h with h
      exact absurd h (by positivity)
    dsimp only
    rw [if_pos hg, if_neg hn]
    show (⟨(F64.fin 1 + F64.fin 0 * _) * _, (F64.fin 0 - F64.fin 1 * _) * _⟩ : C128 L) = _
    rw [F64.fin_div _ (by positivity), zero_div, F64.ofReal_zero]
    simp only [F64.fin_mul, mul_zero, F64.ofReal_zero, F64.fin_add, add_zero, F64.fin_sub, neg_zero, F64.ofReal_one]
    rw [hr ⟨1, -26, by norm_num, by norm_num, by norm_num⟩ (by rw [abs_of_pos (by positivity)]; norm_num),
      F64.fin_div _ (by positivity), show (1 / (1 / 2) ^ 26 : ℝ) = 2 ^ 26 by norm_num,
      hr ⟨1, 26, by norm_num, by norm_num, by norm_num⟩ (by rw [abs_of_pos (by positivity)]; norm_num)]
    simp only [F64.fin_mul, one_mul, zero_mul, F64.ofReal_zero]
    rw [hr ⟨1, 26, by norm_num, by norm_num, by norm_num⟩ (by rw [abs_of_pos (by positivity)]; norm_num)]
  refine ⟨2 ^ 26, ?_, ?_⟩
  · show Except.ok ((⟨.fin 0, .fin 0⟩ : C128 L) + CplxOps.ofR (F64.fin 1) / _) = _
    rw [e4, e5]
    show Except.ok (C128.mk (F64.fin 0 + F64.fin (2 ^ 26)) (F64.fin 0 + F64.fin 0)) = _
    rw [F64.fin_add, F64.fin_add, zero_add, zero_add, F64.ofReal_zero,
      hr ⟨1, 26, by norm_num, by norm_num, by norm_num⟩ (by rw [abs_of_pos (by positivity)]; norm_num)]
  · have c1 : (1 : ℂ) / ((1 + (1 / 2) ^ 27 : ℂ) ^ 2 - 1 ^ 2 - Complex.I * 0 * 1) = ((2 ^ 54 / (2 ^ 28 + 1) : ℝ) : ℂ) := by
      push_cast
      norm_num
    rw [c1, zero_add, ← Complex.ofReal_sub, Complex.norm_real, Complex.norm_real, Real.norm_eq_abs, Real.norm_eq_abs,
      abs_of_pos (by positivity), abs_of_pos (by norm_num)]
    norm_num

end Snompy.Props
