import Verif.Props.Perm
import Verif.Props.Quasistatic
import Mathlib.Algebra.BigOperators.Group.List.Basic

/-!
# C87: spectra of oscillators
-/

namespace Snompy.Props

open Snompy Filter Topology

/-! ## C87 Spectra of Lorentz oscillators and Drude metals -/

/-- `lorentz_perm(nu, nu_j, gamma_j, A_j=A, eps_inf=eps_inf)`. -/
noncomputable def lorentz (nu nuJ gamma A : ℝ) (epsInf : FP ℂ) : PyM (FP ℂ) :=
  lorentzPerm (FP.num nu) (FP.num nuJ) (FP.num gamma) (some (FP.num A)) none (epsInf := epsInf)

theorem lorentz_eq (nu nuJ gamma A : ℝ) (epsInf : ℂ) (h : nuJ ^ 2 - nu ^ 2 ≠ 0 ∨ gamma * nu ≠ 0) :
    lorentz nu nuJ gamma A (FP.num epsInf) =
      .ok (FP.num (epsInf + A / ((nuJ : ℂ) ^ 2 - nu ^ 2 - Complex.I * gamma * nu))) := by
  refine C55_lorentz nu nuJ gamma 1 A epsInf fun h0 => ?_
  rw [lorentz_den] at h0
  have h1 := congrArg Complex.re h0
  have h2 := congrArg Complex.im h0
  simp only [Complex.zero_re, Complex.zero_im, neg_eq_zero] at h1 h2
  rcases h with h | h
  · exact h h1
  · exact h h2

/-- The static permittivity. -/
theorem C87_static (nuJ gamma A : ℝ) (epsInf : ℂ) (hJ : nuJ ≠ 0) :
    lorentz 0 nuJ gamma A (FP.num epsInf) = .ok (FP.num (epsInf + ((A / nuJ ^ 2 : ℝ) : ℂ))) := by
  rw [lorentz_eq _ _ _ _ _ (Or.inl (by simpa using hJ))]
  push_cast
  simp

example : lorentz 0 2 1 8 (FP.num 3) = .ok (FP.num (3 + ((8 / 2 ^ 2 : ℝ) : ℂ))) := C87_static 2 1 8 3 (by norm_num)

/-- On resonance. -/
theorem C87_resonance (nuJ gamma A : ℝ) (epsInf : ℂ) (hJ : nuJ ≠ 0) (hg : gamma ≠ 0) :
    lorentz nuJ nuJ gamma A (FP.num epsInf) =
      .ok (FP.num (epsInf + Complex.I * ((A / (gamma * nuJ) : ℝ) : ℂ))) := by
  rw [lorentz_eq _ _ _ _ _ (Or.inr (mul_ne_zero hg hJ))]
  have h1 : (nuJ : ℂ) ≠ 0 := by exact_mod_cast hJ
  have h2 : (gamma : ℂ) ≠ 0 := by exact_mod_cast hg
  congr 3
  push_cast
  rw [sub_self, zero_sub, div_neg, ← neg_div]
  rw [div_eq_iff (mul_ne_zero (mul_ne_zero Complex.I_ne_zero h2) h1)]
  have : Complex.I * ((A : ℂ) / (gamma * nuJ)) * (Complex.I * gamma * nuJ) =
      (Complex.I * Complex.I) * (A / (gamma * nuJ) * (gamma * nuJ)) := by ring
  rw [this, div_mul_cancel₀ _ (mul_ne_zero h2 h1), Complex.I_mul_I]
  ring

example : lorentz 2 2 1 8 (FP.num 3) = .ok (FP.num (3 + Complex.I * ((8 / (1 * 2) : ℝ) : ℂ))) :=
  C87_resonance 2 1 8 3 (by norm_num) one_ne_zero

/-- The real and the imaginary part. -/
theorem lorentz_parts (nu nuJ gamma A epsInf : ℝ) :
    ((epsInf : ℂ) + A / ((nuJ : ℂ) ^ 2 - nu ^ 2 - Complex.I * gamma * nu)).re =
        epsInf + A * (nuJ ^ 2 - nu ^ 2) / ((nuJ ^ 2 - nu ^ 2) ^ 2 + (gamma * nu) ^ 2) ∧
      ((epsInf : ℂ) + A / ((nuJ : ℂ) ^ 2 - nu ^ 2 - Complex.I * gamma * nu)).im =
        A * (gamma * nu) / ((nuJ ^ 2 - nu ^ 2) ^ 2 + (gamma * nu) ^ 2) := by
  have hn : Complex.normSq (⟨nuJ ^ 2 - nu ^ 2, -(gamma * nu)⟩ : ℂ) =
      (nuJ ^ 2 - nu ^ 2) ^ 2 + (gamma * nu) ^ 2 := by
    rw [Complex.normSq_mk]; ring
  rw [lorentz_den]
  constructor
  · rw [Complex.add_re, Complex.ofReal_re, Complex.div_re, hn]
    simp
  · rw [Complex.add_im, Complex.ofReal_im, Complex.div_im, hn]
    simp
    ring

/-- The absorption is at most `A/(γν)`, and that is reached on resonance only. -/
theorem C87_peak (nu nuJ gamma A epsInf : ℝ) (hnu : 0 < nu) (hg : 0 < gamma) (hA : 0 < A) :
    ∃ eps : ℂ, lorentz nu nuJ gamma A (FP.num epsInf) = .ok (FP.num eps) ∧ eps.im ≤ A / (gamma * nu) ∧
      (eps.im = A / (gamma * nu) ↔ nu = |nuJ|) := by
  have hgn := mul_pos hg hnu
  refine ⟨_, lorentz_eq nu nuJ gamma A epsInf (Or.inr hgn.ne'), ?_, ?_⟩
  · rw [(lorentz_parts nu nuJ gamma A epsInf).2, div_le_div_iff₀ (by positivity) hgn]
    have : 0 ≤ A * (nuJ ^ 2 - nu ^ 2) ^ 2 := by positivity
    nlinarith
  · rw [(lorentz_parts nu nuJ gamma A epsInf).2, div_eq_div_iff (by positivity) hgn.ne']
    constructor
    · intro h
      have h1 : A * (nuJ ^ 2 - nu ^ 2) ^ 2 = 0 := by nlinarith
      have h2 := pow_eq_zero_iff two_ne_zero |>.1 ((mul_eq_zero.1 h1).resolve_left hA.ne')
      rw [← abs_of_pos hnu]
      exact (sq_eq_sq_iff_abs_eq_abs nu nuJ).1 (by linarith)
    · intro h
      have : nuJ ^ 2 = nu ^ 2 := by rw [h, sq_abs]
      rw [this]
      ring

example : ∃ eps : ℂ, lorentz 1 2 3 4 (FP.num (5 : ℝ)) = .ok (FP.num eps) ∧ eps.im ≤ 4 / (3 * 1) ∧
    (eps.im = 4 / (3 * 1) ↔ (1 : ℝ) = |2|) :=
  C87_peak 1 2 3 4 5 (by norm_num) (by norm_num) (by norm_num)

/-- The zero of an undamped oscillator (longitudinal phonon). -/
theorem C87_zero (nu nuJ A epsInf : ℝ) (he : epsInf ≠ 0) (hnu : nu ^ 2 ≠ nuJ ^ 2) :
    lorentz nu nuJ 0 A (FP.num epsInf) = .ok (FP.num 0) ↔ nu ^ 2 = nuJ ^ 2 + A / epsInf := by
  have hd : nuJ ^ 2 - nu ^ 2 ≠ 0 := fun h => hnu (by linarith)
  rw [lorentz_eq _ _ _ _ _ (Or.inl hd)]
  have e : (epsInf : ℂ) + A / ((nuJ : ℂ) ^ 2 - nu ^ 2 - Complex.I * ((0 : ℝ) : ℂ) * nu) =
      ((epsInf + A / (nuJ ^ 2 - nu ^ 2) : ℝ) : ℂ) := by push_cast; ring
  rw [e]
  constructor
  · intro h
    have h1 : epsInf + A / (nuJ ^ 2 - nu ^ 2) = 0 := Complex.ofReal_eq_zero.1 (FP.num.inj (Except.ok.inj h))
    field_simp at h1 ⊢
    linarith
  · intro h
    have h1 : epsInf + A / (nuJ ^ 2 - nu ^ 2) = 0 := by
      have : nuJ ^ 2 - nu ^ 2 = -(A / epsInf) := by linarith
      rw [this] at hd ⊢
      have hA : A ≠ 0 := by
        rintro rfl
        simp at hd
      field_simp
      ring
    rw [h1, Complex.ofReal_zero]

/-- Lyddane, Sachs and Teller: the static permittivity from the frequencies of the longitudinal and the
transverse phonon. -/
theorem C87_lst (nuLO nuJ A epsInf gamma : ℝ) (he : epsInf ≠ 0) (hJ : nuJ ≠ 0) (hnu : nuLO ^ 2 ≠ nuJ ^ 2)
    (h : lorentz nuLO nuJ 0 A (FP.num epsInf) = .ok (FP.num 0)) :
    lorentz 0 nuJ gamma A (FP.num epsInf) = .ok (FP.num ((epsInf * (nuLO ^ 2 / nuJ ^ 2) : ℝ) : ℂ)) := by
  rw [C87_static nuJ gamma A epsInf hJ, (C87_zero nuLO nuJ A epsInf he hnu).1 h]
  congr 2
  rw [← Complex.ofReal_add]
  congr 1
  field_simp

/-- `eps_inf = 2`, `A = 10`: phonons at 2 and 3. -/
example : lorentz 0 2 1 10 (FP.num ((2 : ℝ) : ℂ)) = .ok (FP.num ((2 * (3 ^ 2 / 2 ^ 2) : ℝ) : ℂ)) :=
  C87_lst 3 2 10 2 1 (by norm_num) (by norm_num) (by norm_num)
    ((C87_zero 3 2 10 2 (by norm_num) (by norm_num)).2 (by norm_num))

/-- The reststrahlen band: an undamped oscillator is metallic exactly between the two phonons. -/
theorem C87_reststrahlen (nu nuJ A epsInf : ℝ) (he : 0 < epsInf) (hA : 0 < A) (hnu : nu ^ 2 ≠ nuJ ^ 2) :
    ∃ x : ℝ, lorentz nu nuJ 0 A (FP.num epsInf) = .ok (FP.num x) ∧
      (x < 0 ↔ nuJ ^ 2 < nu ^ 2 ∧ nu ^ 2 < nuJ ^ 2 + A / epsInf) := by
  have hd : nuJ ^ 2 - nu ^ 2 ≠ 0 := fun h => hnu (by linarith)
  refine ⟨epsInf + A / (nuJ ^ 2 - nu ^ 2), ?_, ?_⟩
  · rw [lorentz_eq _ _ _ _ _ (Or.inl hd)]
    congr 2
    push_cast
    ring
  · constructor
    · intro h
      have h1 : nuJ ^ 2 - nu ^ 2 < 0 := by
        by_contra hn
        have : 0 < nuJ ^ 2 - nu ^ 2 := lt_of_le_of_ne (not_lt.1 hn) (Ne.symm hd)
        have := div_pos hA this
        linarith
      refine ⟨by linarith, ?_⟩
      have h2 : A / (nuJ ^ 2 - nu ^ 2) < -epsInf := by linarith
      rw [div_lt_iff_of_neg h1] at h2
      have h3 : nu ^ 2 - nuJ ^ 2 < A / epsInf := by
        rw [lt_div_iff₀ he]
        linarith
      linarith
    · rintro ⟨h1, h2⟩
      have h3 : nu ^ 2 - nuJ ^ 2 < A / epsInf := by linarith
      rw [lt_div_iff₀ he] at h3
      have h4 : A / (nuJ ^ 2 - nu ^ 2) < -epsInf := by
        rw [div_lt_iff_of_neg (by linarith)]
        linarith
      linarith

example : ∃ x : ℝ, lorentz (5 / 2) 2 0 10 (FP.num ((2 : ℝ) : ℂ)) = .ok (FP.num x) ∧ (x < 0 ↔ (2 : ℝ) ^ 2 < (5 / 2) ^ 2 ∧
    (5 / 2 : ℝ) ^ 2 < 2 ^ 2 + 10 / 2) :=
  C87_reststrahlen (5 / 2) 2 10 2 (by norm_num) (by norm_num) (by norm_num)

/-- The surface phonon: where the quasistatic reflection of an undamped sample is not finite. -/
theorem C87_surface (nu nuJ A epsInf env : ℝ) (snu : Option ℝ) (q : ℝ) (he : 0 < epsInf) (henv : 0 < env)
    (hnu : nu ^ 2 ≠ nuJ ^ 2) (eps : ℂ) (h : lorentz nu nuJ 0 A (FP.num epsInf) = .ok (FP.num eps)) :
    (bulk env eps snu).reflCoefQs (FP.num q) = .ok FP.nan ↔
      nu ^ 2 = nuJ ^ 2 + A / (epsInf + env) ∨ nu ^ 2 = nuJ ^ 2 + A / epsInf := by
  have h1 : eps + env = 0 ↔ nu ^ 2 = nuJ ^ 2 + A / (epsInf + env) := by
    rw [← C87_zero nu nuJ A (epsInf + env) (by positivity) hnu]
    have hd : nuJ ^ 2 - nu ^ 2 ≠ 0 := fun h => hnu (by linarith)
    rw [lorentz_eq _ _ _ _ _ (Or.inl hd)] at h ⊢
    rw [← FP.num.inj (Except.ok.inj h)]
    constructor
    · intro h0
      rw [← h0]
      congr 2
      push_cast
      ring
    · intro h0
      rw [← FP.num.inj (Except.ok.inj h0)]
      push_cast
      ring
  have h2 : eps = 0 ↔ nu ^ 2 = nuJ ^ 2 + A / epsInf := by
    rw [← C87_zero nu nuJ A epsInf he.ne' hnu, h]
    constructor
    · rintro rfl
      rfl
    · intro h0
      exact FP.num.inj (Except.ok.inj h0)
  rw [← h1, ← h2]
  constructor
  · intro h0
    by_contra hc
    rw [not_or] at hc
    rw [C09_refl (env : ℂ) eps snu (FP.num q) hc.2 hc.1] at h0
    simp at h0
  · intro h0
    exact (C09_pole (env : ℂ) eps snu q h0).1

/-- `eps_inf = 2`, `A = 12`, in vacuum: resonance at `nu² = 2² + 12/3`. -/
example (eps : ℂ) (h : lorentz (Real.sqrt 8) 2 0 12 (FP.num ((2 : ℝ) : ℂ)) = .ok (FP.num eps)) :
    (bulk ((1 : ℝ) : ℂ) eps).reflCoefQs (FP.num 1) = .ok FP.nan := by
  have h8 : Real.sqrt 8 ^ 2 = 8 := Real.sq_sqrt (by norm_num)
  exact (C87_surface (Real.sqrt 8) 2 12 2 1 none 1 (by norm_num) one_pos (by rw [h8]; norm_num) eps h).2
    (Or.inl (by rw [h8]; norm_num))

/-- A sample reflects more than everything exactly where the real part of its permittivity is negative. -/
theorem C87_enhance (env : ℝ) (snu : Option ℝ) (q : ℝ) (henv : 0 < env) (eps : ℂ) (him : 0 < eps.im) :
    ∃ β : ℂ, (bulk env eps snu).reflCoefQs (FP.num q) = .ok (FP.num β) ∧ (1 < ‖β‖ ↔ eps.re < 0) := by
  have hs : eps ≠ 0 := fun h => by rw [h] at him; simp at him
  have hd : eps + env ≠ 0 := fun h => by
    have := congrArg Complex.im h
    simp only [Complex.add_im, Complex.ofReal_im, add_zero, Complex.zero_im] at this
    exact him.ne' this
  refine ⟨_, C09_refl (env : ℂ) eps snu (FP.num q) hs hd, ?_⟩
  rw [norm_div, one_lt_div (norm_pos_iff.2 hd), ← sq_lt_sq₀ (norm_nonneg _) (norm_nonneg _),
    ← Complex.normSq_eq_norm_sq, ← Complex.normSq_eq_norm_sq, Complex.normSq_apply, Complex.normSq_apply]
  simp only [Complex.add_re, Complex.add_im, Complex.sub_re, Complex.sub_im, Complex.ofReal_re, Complex.ofReal_im]
  constructor
  · intro h
    nlinarith
  · intro h
    nlinarith [mul_pos henv (neg_pos.2 h)]

example : ∃ β : ℂ, (bulk ((1 : ℝ) : ℂ) (⟨-2, 1⟩ : ℂ)).reflCoefQs (FP.num 1) = .ok (FP.num β) ∧
    (1 < ‖β‖ ↔ (⟨-2, 1⟩ : ℂ).re < 0) :=
  C87_enhance 1 none 1 one_pos ⟨-2, 1⟩ (by norm_num)

/-- The weight of the oscillator can be read off the decay at large wavenumbers. -/
theorem C87_fsum (nuJ gamma A : ℝ) (epsInf : ℂ) :
    EvalTendsto (fun nu : ℝ => do
      let eps ← lorentz nu nuJ gamma A (FP.num epsInf)
      pure (FP.num ((nu : ℂ) ^ 2) * (FP.num epsInf - eps))) atTop A := by
  refine ⟨fun nu => (nu : ℂ) ^ 2 * (epsInf - (epsInf + A / ((nuJ : ℂ) ^ 2 - nu ^ 2 - Complex.I * gamma * nu))), ?_, ?_⟩
  · filter_upwards [eventually_gt_atTop |nuJ|] with nu h
    have h2 : nuJ ^ 2 - nu ^ 2 ≠ 0 := by
      have := sq_lt_sq' (by linarith [abs_nonneg nuJ]) h
      rw [sq_abs] at this
      intro h0
      linarith
    rw [lorentz_eq _ _ _ _ _ (Or.inl h2), PyM.ok_bind, FP.num_sub, FP.num_mul, PyM.pure_eq_ok]
  · have hinv : Tendsto (fun nu : ℝ => ((nu⁻¹ : ℝ) : ℂ)) atTop (𝓝 0) := by
      have := (Complex.continuous_ofReal.tendsto 0).comp (tendsto_inv_atTop_zero (𝕜 := ℝ))
      rw [Complex.ofReal_zero] at this
      exact this
    have hlim : Tendsto (fun nu : ℝ => -(A : ℂ) / ((nuJ : ℂ) ^ 2 * ((nu⁻¹ : ℝ) : ℂ) ^ 2 - 1 -
        Complex.I * gamma * ((nu⁻¹ : ℝ) : ℂ))) atTop (𝓝 (-(A : ℂ) / ((nuJ : ℂ) ^ 2 * 0 ^ 2 - 1 - Complex.I * gamma * 0))) := by
      refine Tendsto.div tendsto_const_nhds ?_ (by simp)
      exact (((hinv.pow 2).const_mul _).sub tendsto_const_nhds).sub (hinv.const_mul _)
    have e : -(A : ℂ) / ((nuJ : ℂ) ^ 2 * 0 ^ 2 - 1 - Complex.I * gamma * 0) = A := by
      rw [zero_pow two_ne_zero, mul_zero, mul_zero, zero_sub, sub_zero, neg_div_neg_eq, div_one]
    rw [e] at hlim
    refine hlim.congr' ?_
    filter_upwards [eventually_gt_atTop (max 0 |nuJ|)] with nu h
    have hnu : (nu : ℂ) ≠ 0 := by exact_mod_cast ((le_max_left _ _).trans_lt h).ne'
    rw [sub_add_cancel_left]
    have hden : (nuJ : ℂ) ^ 2 - nu ^ 2 - Complex.I * gamma * nu =
        (nu : ℂ) ^ 2 * ((nuJ : ℂ) ^ 2 * ((nu⁻¹ : ℝ) : ℂ) ^ 2 - 1 - Complex.I * gamma * ((nu⁻¹ : ℝ) : ℂ)) := by
      push_cast
      field_simp
    rw [hden, mul_neg, ← mul_div_assoc, mul_div_mul_left _ _ (pow_ne_zero 2 hnu), neg_div]

/-- The conductivity of a Drude metal at small wavenumbers. -/
theorem C87_conductivity (nuP gamma : ℝ) (epsInf : ℂ) (hg : gamma ≠ 0) :
    EvalTendsto (fun nu : ℝ => do
      let eps ← drudePerm (FP.num nu) (FP.num nuP) (FP.num gamma) (FP.num epsInf)
      pure (FP.num (nu : ℂ) * (eps - FP.num epsInf))) (𝓝[>] 0) (Complex.I * ((nuP ^ 2 / gamma : ℝ) : ℂ)) := by
  refine ⟨fun nu => (nu : ℂ) * ((epsInf - nuP ^ 2 / ((nu : ℂ) ^ 2 + Complex.I * gamma * nu)) - epsInf), ?_, ?_⟩
  · filter_upwards [self_mem_nhdsWithin] with nu hnu
    have hnu : (0 : ℝ) < nu := hnu
    have hd : (nu : ℂ) ^ 2 + Complex.I * gamma * nu ≠ 0 := by
      intro h
      have := congrArg Complex.im h
      simp [← Complex.ofReal_pow, hg, hnu.ne'] at this
    rw [C55_drude nu nuP gamma epsInf hd, PyM.ok_bind, FP.num_sub, FP.num_mul, PyM.pure_eq_ok]
  · have hg' : (gamma : ℂ) ≠ 0 := by exact_mod_cast hg
    have hc : Tendsto (fun nu : ℝ => -(nuP : ℂ) ^ 2 / ((nu : ℂ) + Complex.I * gamma)) (𝓝[>] 0)
        (𝓝 (-(nuP : ℂ) ^ 2 / (((0 : ℝ) : ℂ) + Complex.I * gamma))) := by
      refine Tendsto.div tendsto_const_nhds ?_ (by simp [hg])
      exact ((Complex.continuous_ofReal.tendsto 0).mono_left nhdsWithin_le_nhds).add tendsto_const_nhds
    have e : -(nuP : ℂ) ^ 2 / (((0 : ℝ) : ℂ) + Complex.I * gamma) = Complex.I * ((nuP ^ 2 / gamma : ℝ) : ℂ) := by
      rw [Complex.ofReal_zero, zero_add, div_eq_iff (mul_ne_zero Complex.I_ne_zero hg')]
      push_cast
      have : Complex.I * ((nuP : ℂ) ^ 2 / gamma) * (Complex.I * gamma) =
          (Complex.I * Complex.I) * (nuP ^ 2 / gamma * gamma) := by ring
      rw [this, div_mul_cancel₀ _ hg', Complex.I_mul_I]
      ring
    rw [e] at hc
    refine hc.congr' ?_
    filter_upwards [self_mem_nhdsWithin] with nu hnu
    have hnu : (nu : ℂ) ≠ 0 := by exact_mod_cast (show (0 : ℝ) < nu from hnu).ne'
    have hden : (nu : ℂ) ^ 2 + Complex.I * gamma * nu = nu * ((nu : ℂ) + Complex.I * gamma) := by ring
    rw [hden, sub_sub_cancel_left, mul_neg, ← mul_div_assoc, mul_div_mul_left _ _ hnu, neg_div]

/-- Several oscillators `(nu_j, gamma_j, A_j)`: each call gets the previous result as its `eps_inf`. -/
noncomputable def oscillators (nu : ℝ) (L : List (ℝ × ℝ × ℝ)) (epsInf : FP ℂ) : PyM (FP ℂ) :=
  L.foldlM (fun eps l => lorentz nu l.1 l.2.1 l.2.2 eps) epsInf

/-- Chained calls add up. -/
theorem C87_superposition (nu : ℝ) (L : List (ℝ × ℝ × ℝ)) (epsInf : ℂ)
    (hL : ∀ l ∈ L, l.1 ^ 2 - nu ^ 2 ≠ 0 ∨ l.2.1 * nu ≠ 0) :
    oscillators nu L (FP.num epsInf) = .ok (FP.num (epsInf +
      (L.map fun l => (l.2.2 : ℂ) / ((l.1 : ℂ) ^ 2 - nu ^ 2 - Complex.I * l.2.1 * nu)).sum)) := by
  unfold oscillators
  induction L generalizing epsInf with
  | nil => simp [Pure.pure, Except.pure]
  | cons l L ih =>
    rw [List.foldlM_cons, lorentz_eq nu l.1 l.2.1 l.2.2 epsInf (hL l (by simp)), PyM.ok_bind,
      ih _ fun l hl => hL l (by simp [hl]), List.map_cons, List.sum_cons, add_assoc]

example : oscillators 1 [(2, 0, 3), (1, 1, 4)] (FP.num 5) = .ok (FP.num (5 +
    (([(2, 0, 3), (1, 1, 4)] : List (ℝ × ℝ × ℝ)).map fun l =>
      (l.2.2 : ℂ) / ((l.1 : ℂ) ^ 2 - (1 : ℝ) ^ 2 - Complex.I * l.2.1 * (1 : ℝ))).sum)) :=
  C87_superposition 1 [(2, 0, 3), (1, 1, 4)] 5 (by
    intro l hl
    simp only [List.mem_cons, List.not_mem_nil, or_false] at hl
    rcases hl with rfl | rfl <;> norm_num)

/-- The order of the oscillators does not matter, poles included. -/
theorem C87_order (nu : ℝ) (L L' : List (ℝ × ℝ × ℝ)) (epsInf : ℂ) (h : L.Perm L') :
    oscillators nu L (FP.num epsInf) = oscillators nu L' (FP.num epsInf) := by
  have hnan : ∀ L : List (ℝ × ℝ × ℝ), oscillators nu L FP.nan = .ok FP.nan := by
    intro L
    induction L with
    | nil => rfl
    | cons l L ih =>
      unfold oscillators at ih ⊢
      rw [List.foldlM_cons]
      have : lorentz nu l.1 l.2.1 l.2.2 FP.nan = .ok FP.nan := by
        unfold lorentz lorentzPerm
        simp only [PyM.ok_bind]
        rfl
      rw [this, PyM.ok_bind, ih]
  have hpole : ∀ (L : List (ℝ × ℝ × ℝ)) (e : ℂ), (∃ l ∈ L, l.1 ^ 2 - nu ^ 2 = 0 ∧ l.2.1 * nu = 0) →
      oscillators nu L (FP.num e) = .ok FP.nan := by
    intro L
    induction L with
    | nil => rintro e ⟨l, hl, -⟩; simp at hl
    | cons l L ih =>
      rintro e ⟨l', hl, h1, h2⟩
      by_cases hp : l.1 ^ 2 - nu ^ 2 = 0 ∧ l.2.1 * nu = 0
      · have : lorentz nu l.1 l.2.1 l.2.2 (FP.num e) = .ok FP.nan := by
          refine C55_pole nu l.1 l.2.1 1 l.2.2 e ?_
          rw [lorentz_den, hp.1, hp.2, neg_zero]
          rfl
        unfold oscillators
        rw [List.foldlM_cons, this, PyM.ok_bind]
        exact hnan L
      · have hne : l.1 ^ 2 - nu ^ 2 ≠ 0 ∨ l.2.1 * nu ≠ 0 := not_and_or.1 hp
        unfold oscillators
        rw [List.foldlM_cons, lorentz_eq _ _ _ _ _ hne, PyM.ok_bind]
        refine ih _ ⟨l', ?_, h1, h2⟩
        rcases List.mem_cons.1 hl with rfl | hl
        · exact absurd ⟨h1, h2⟩ hp
        · exact hl
  by_cases hL : ∀ l ∈ L, l.1 ^ 2 - nu ^ 2 ≠ 0 ∨ l.2.1 * nu ≠ 0
  · rw [C87_superposition nu L epsInf hL, C87_superposition nu L' epsInf fun l hl => hL l (h.mem_iff.2 hl),
      (h.map _).sum_eq]
  · push Not at hL
    obtain ⟨l, hl, h1, h2⟩ := hL
    rw [hpole L epsInf ⟨l, hl, h1, h2⟩, hpole L' epsInf ⟨l, h.mem_iff.1 hl, h1, h2⟩]

/-- Any number of damped oscillators is passive. -/
theorem C87_passive (nu epsInf : ℝ) (L : List (ℝ × ℝ × ℝ)) (hnu : 0 < nu) (hne : L ≠ [])
    (hL : ∀ l ∈ L, 0 < l.2.1 ∧ 0 < l.2.2) :
    ∃ eps : ℂ, oscillators nu L (FP.num epsInf) = .ok (FP.num eps) ∧ 0 < eps.im := by
  refine ⟨_, C87_superposition nu L epsInf fun l hl => Or.inr (mul_pos (hL l hl).1 hnu).ne', ?_⟩
  have key : ∀ (L : List (ℝ × ℝ × ℝ)) (e : ℂ), 0 ≤ e.im → (L ≠ [] ∨ 0 < e.im) → (∀ l ∈ L, 0 < l.2.1 ∧ 0 < l.2.2) →
      0 < (e + (L.map fun l => (l.2.2 : ℂ) / ((l.1 : ℂ) ^ 2 - nu ^ 2 - Complex.I * l.2.1 * nu)).sum).im := by
    intro L
    induction L with
    | nil =>
      intro e _ h _
      simpa using h
    | cons l L ih =>
      intro e he _ hL
      have h2 := (lorentz_parts nu l.1 l.2.1 l.2.2 0).2
      rw [Complex.ofReal_zero, zero_add] at h2
      have h3 := hL l (by simp)
      have h4 := mul_pos h3.1 hnu
      have h5 : 0 < ((l.2.2 : ℂ) / ((l.1 : ℂ) ^ 2 - nu ^ 2 - Complex.I * l.2.1 * nu)).im := by
        rw [h2]
        have := h3.2
        positivity
      rw [List.map_cons, List.sum_cons, ← add_assoc]
      refine ih _ ?_ (Or.inr ?_) fun l hl => hL l (by simp [hl]) <;> rw [Complex.add_im] <;> linarith
  exact key L epsInf (by simp) (Or.inl hne) hL

example : ∃ eps : ℂ, oscillators 1 [(2, 1, 3), (1, 1 / 2, 4)] (FP.num ((5 : ℝ) : ℂ)) = .ok (FP.num eps) ∧ 0 < eps.im :=
  C87_passive 1 5 [(2, 1, 3), (1, 1 / 2, 4)] one_pos (by simp) (by
    intro l hl
    simp only [List.mem_cons, List.not_mem_nil, or_false] at hl
    rcases hl with rfl | rfl <;> norm_num)

end Snompy.Props
