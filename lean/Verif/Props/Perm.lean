import Verif.Lemmas.Qs
import Verif.Spec.Limit

/-!
# C54–C55: Lorentz and Drude permittivities
-/

namespace Snompy.Props

open Snompy Filter Topology

/-! ## C55 Lorentz/Drude argument handling -/

/-- Both or neither of `A_j` and `nu_plasma`: `ValueError`; otherwise a value. -/
theorem C55_raises (nu nuJ gamma f : FP ℝ) (A nuP : Option (FP ℝ)) (epsInf : FP ℂ) :
    ((A.isSome = nuP.isSome) ↔ ∃ m, lorentzPerm nu nuJ gamma A nuP f epsInf =
      (.error (.valueError m) : PyM (FP ℂ))) ∧
    ((A.isSome ≠ nuP.isSome) ↔ ∃ v, lorentzPerm nu nuJ gamma A nuP f epsInf =
      (.ok v : PyM (FP ℂ))) := by
  unfold lorentzPerm
  cases A <;> cases nuP <;> simp [Bind.bind, Except.bind, Pure.pure, Except.pure]

/-- With `nu_plasma` the amplitude is `f_j nu_plasma²`. -/
theorem C55_plasma (nu nuJ gamma f nuP : ℝ) (epsInf : FP ℂ) :
    (lorentzPerm (FP.num nu) (FP.num nuJ) (FP.num gamma) none (some (FP.num nuP)) (FP.num f) epsInf :
      PyM (FP ℂ)) =
    lorentzPerm (FP.num nu) (FP.num nuJ) (FP.num gamma) (some (FP.num (f * nuP ^ 2))) none (FP.num f)
      epsInf := rfl

/-- With `A_j`, `f_j` has no effect. -/
theorem C55_oscillator (nu nuJ gamma f f' A : FP ℝ) (epsInf : FP ℂ) :
    (lorentzPerm nu nuJ gamma (some A) none f epsInf : PyM (FP ℂ)) =
      lorentzPerm nu nuJ gamma (some A) none f' epsInf := rfl

/-- The Lorentz formula, wherever its denominator is non-zero. -/
theorem C55_lorentz (nu nuJ gamma f A : ℝ) (epsInf : ℂ)
    (h : (nuJ : ℂ) ^ 2 - nu ^ 2 - Complex.I * gamma * nu ≠ 0) :
    (lorentzPerm (FP.num nu) (FP.num nuJ) (FP.num gamma) (some (FP.num A)) none (FP.num f)
      (FP.num epsInf) : PyM (FP ℂ)) =
    .ok (FP.num (epsInf + A / ((nuJ : ℂ) ^ 2 - nu ^ 2 - Complex.I * gamma * nu))) := by
  unfold lorentzPerm
  simp only [PyM.ok_bind, snpow, FP.num_sub, sofR, sclit, FP.num_mul]
  rw [FP.num_div _ (by push_cast; exact h), FP.num_add]
  push_cast
  rfl

/-- On a zero denominator the result is not finite. -/
theorem C55_pole (nu nuJ gamma f A : ℝ) (epsInf : ℂ)
    (h : (nuJ : ℂ) ^ 2 - nu ^ 2 - Complex.I * gamma * nu = 0) :
    (lorentzPerm (FP.num nu) (FP.num nuJ) (FP.num gamma) (some (FP.num A)) none (FP.num f)
      (FP.num epsInf) : PyM (FP ℂ)) = .ok FP.nan := by
  unfold lorentzPerm
  simp only [PyM.ok_bind, snpow, FP.num_sub, sofR, sclit, FP.num_mul]
  rw [show ((nuJ ^ 2 - nu ^ 2 : ℝ) : ℂ) - Complex.I * gamma * nu = 0 by push_cast; exact h,
    FP.num_div_zero]
  rfl

example := C55_pole 2 2 0 1 1 1 (by norm_num)

theorem C55_drude (nu nuP gamma : ℝ) (epsInf : ℂ)
    (h : (nu : ℂ) ^ 2 + Complex.I * gamma * nu ≠ 0) :
    (drudePerm (FP.num nu) (FP.num nuP) (FP.num gamma) (FP.num epsInf) : PyM (FP ℂ)) =
    .ok (FP.num (epsInf - nuP ^ 2 / ((nu : ℂ) ^ 2 + Complex.I * gamma * nu))) := by
  have hd : ((0 : ℝ) : ℂ) ^ 2 - nu ^ 2 - Complex.I * gamma * nu =
      -((nu : ℂ) ^ 2 + Complex.I * gamma * nu) := by push_cast; ring
  unfold drudePerm
  rw [slit, slit, C55_plasma, C55_lorentz _ _ _ _ _ _ (by rw [hd]; exact neg_ne_zero.2 h), hd]
  push_cast
  rw [div_neg, one_mul, ← sub_eq_add_neg]

example := C55_drude 1 2 3 1 (by simp [Complex.ext_iff])

/-! ## C54 Lorentz and Drude permittivities are passive -/

theorem lorentz_den (nu nuJ gamma : ℝ) :
    (nuJ : ℂ) ^ 2 - nu ^ 2 - Complex.I * gamma * nu = ⟨nuJ ^ 2 - nu ^ 2, -(gamma * nu)⟩ := by
  apply Complex.ext <;> simp [← Complex.ofReal_pow]

theorem C54_lorentz (nu nuJ gamma f A epsInf : ℝ) (hnu : 0 < nu) (hg : 0 < gamma) (hA : 0 < A) :
    ∃ eps : ℂ, (lorentzPerm (FP.num nu) (FP.num nuJ) (FP.num gamma) (some (FP.num A)) none (FP.num f)
      (FP.num epsInf) : PyM (FP ℂ)) = .ok (FP.num eps) ∧ 0 < eps.im := by
  have hgn := mul_pos hg hnu
  have hd : (nuJ : ℂ) ^ 2 - nu ^ 2 - Complex.I * gamma * nu ≠ 0 := by
    rw [lorentz_den, Ne, Complex.ext_iff]
    simp only [Complex.zero_im, neg_eq_zero, not_and]
    intro _
    exact hgn.ne'
  refine ⟨_, C55_lorentz nu nuJ gamma f A epsInf hd, ?_⟩
  have hn := Complex.normSq_pos.2 hd
  rw [Complex.add_im, Complex.ofReal_im, zero_add, Complex.div_im]
  rw [lorentz_den] at hn ⊢
  simp only [Complex.ofReal_im, Complex.ofReal_re, zero_mul, zero_div, zero_sub]
  rw [mul_neg, neg_div, neg_neg]
  positivity

example := C54_lorentz 1 2 3 1 1 2.5 (by norm_num) (by norm_num) (by norm_num)

theorem C54_drude (nu nuP gamma epsInf : ℝ) (hnu : 0 < nu) (hg : 0 < gamma) (hP : 0 < nuP) :
    ∃ eps : ℂ, (drudePerm (FP.num nu) (FP.num nuP) (FP.num gamma) (FP.num epsInf) : PyM (FP ℂ)) =
      .ok (FP.num eps) ∧ 0 < eps.im :=
  C54_lorentz nu 0 gamma 1 (1 * nuP ^ 2) epsInf hnu hg (by positivity)

example := C54_drude 1 2 3 2.5 (by norm_num) (by norm_num) (by norm_num)

/-- Reality of the response in time: `eps(-nu) = conj(eps(nu))`. -/
theorem C54_reality (nu nuJ gamma f A epsInf : ℝ) (hnu : 0 < nu) (hg : 0 < gamma) :
    ∃ eps : ℂ, (lorentzPerm (FP.num nu) (FP.num nuJ) (FP.num gamma) (some (FP.num A)) none (FP.num f)
        (FP.num epsInf) : PyM (FP ℂ)) = .ok (FP.num eps) ∧
      (lorentzPerm (FP.num (-nu)) (FP.num nuJ) (FP.num gamma) (some (FP.num A)) none (FP.num f)
        (FP.num epsInf) : PyM (FP ℂ)) = .ok (FP.num ((starRingEnd ℂ) eps)) := by
  have hgn := mul_pos hg hnu
  have hd : ∀ s : ℝ, s ≠ 0 → (nuJ : ℂ) ^ 2 - s ^ 2 - Complex.I * gamma * s ≠ 0 := by
    intro s hs
    rw [lorentz_den, Ne, Complex.ext_iff]
    simp only [Complex.zero_im, neg_eq_zero, not_and]
    intro _
    exact mul_ne_zero hg.ne' hs
  refine ⟨_, C55_lorentz nu nuJ gamma f A epsInf (hd nu hnu.ne'), ?_⟩
  rw [C55_lorentz (-nu) nuJ gamma f A epsInf (hd (-nu) (neg_ne_zero.2 hnu.ne'))]
  simp

example := C54_reality 1 2 3 1 1 2.5 (by norm_num) (by norm_num)

theorem C54_reality_drude (nu nuP gamma epsInf : ℝ) (hnu : 0 < nu) (hg : 0 < gamma) :
    ∃ eps : ℂ, (drudePerm (FP.num nu) (FP.num nuP) (FP.num gamma) (FP.num epsInf) : PyM (FP ℂ)) =
        .ok (FP.num eps) ∧
      (drudePerm (FP.num (-nu)) (FP.num nuP) (FP.num gamma) (FP.num epsInf) : PyM (FP ℂ)) =
        .ok (FP.num ((starRingEnd ℂ) eps)) :=
  C54_reality nu 0 gamma 1 (1 * nuP ^ 2) epsInf hnu hg

/-- Far above the resonance only `eps_inf` is left. -/
theorem C54_limit (nuJ gamma f A : ℝ) (epsInf : ℂ) :
    EvalTendsto (fun nu : ℝ => lorentzPerm (FP.num nu) (FP.num nuJ) (FP.num gamma) (some (FP.num A))
      none (FP.num f) (FP.num epsInf)) atTop epsInf := by
  have hre : ∀ nu : ℝ, |nuJ| < nu → nuJ ^ 2 - nu ^ 2 < 0 := by
    intro nu h
    have := sq_lt_sq' (by linarith [abs_nonneg nuJ]) h
    rw [sq_abs] at this
    linarith
  refine ⟨fun nu => epsInf + A / ((nuJ : ℂ) ^ 2 - nu ^ 2 - Complex.I * gamma * nu), ?_, ?_⟩
  · filter_upwards [eventually_gt_atTop |nuJ|] with nu h
    refine C55_lorentz nu nuJ gamma f A epsInf fun h0 => ?_
    rw [lorentz_den] at h0
    have := congrArg Complex.re h0
    simp only [Complex.zero_re] at this
    linarith [hre nu h]
  · have h0 : Tendsto (fun nu : ℝ => (A : ℂ) / ((nuJ : ℂ) ^ 2 - nu ^ 2 - Complex.I * gamma * nu)) atTop
        (𝓝 0) := by
      rw [tendsto_zero_iff_norm_tendsto_zero]
      have hb : Tendsto (fun nu : ℝ => |A| / (nu ^ 2 - nuJ ^ 2)) atTop (𝓝 0) := by
        refine Tendsto.div_atTop tendsto_const_nhds ?_
        exact tendsto_atTop_add_const_right _ (-nuJ ^ 2) (tendsto_pow_atTop two_ne_zero)
      refine squeeze_zero' (Eventually.of_forall fun _ => norm_nonneg _) ?_ hb
      filter_upwards [eventually_gt_atTop |nuJ|] with nu h
      have hlt := hre nu h
      rw [norm_div, Complex.norm_real, Real.norm_eq_abs]
      refine div_le_div_of_nonneg_left (abs_nonneg A) (by linarith) ?_
      rw [lorentz_den]
      refine le_trans ?_ (Complex.abs_re_le_norm _)
      simp only
      rw [abs_of_neg hlt]
      linarith
    simpa using h0.const_add epsInf

theorem C54_limit_drude (nuP gamma : ℝ) (epsInf : ℂ) :
    EvalTendsto (fun nu : ℝ => drudePerm (FP.num nu) (FP.num nuP) (FP.num gamma) (FP.num epsInf))
      atTop epsInf :=
  C54_limit 0 gamma 1 (1 * nuP ^ 2) epsInf

end Snompy.Props
