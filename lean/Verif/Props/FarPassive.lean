import Verif.Lemmas.FarPassive
import Verif.Props.FarField

/-!
# C65: energy in absorbing stacks
-/

namespace Snompy.Props

open Snompy

/-! ## C65 Passive stacks do not reflect more than they receive -/

/-- Energy flux of a unit wave into a (possibly absorbing) substrate over that of the incoming wave. -/
noncomputable def fluxInto (pol : String) (nu q env : ℝ) (sub : ℂ) : ℝ :=
  if pol = "p" then
    (Complex.sqrt (sub * (nu : ℂ) ^ 2 - (q : ℂ) ^ 2) / sub).re / (Real.sqrt (env * nu ^ 2 - q ^ 2) / env)
  else (Complex.sqrt (sub * (nu : ℂ) ^ 2 - (q : ℂ) ^ 2)).re / Real.sqrt (env * nu ^ 2 - q ^ 2)

/-- The substrate carries energy away, not towards the surface. -/
theorem fluxInto_nonneg (pol : String) (nu q env : ℝ) (sub : ℂ) (h0 : q ^ 2 < env * nu ^ 2) (hs : Passive sub) :
    0 ≤ fluxInto pol nu q env sub := by
  have hnu : 0 < nu ^ 2 := by
    refine lt_of_le_of_ne (sq_nonneg nu) fun h => ?_
    rw [← h, mul_zero] at h0
    exact absurd h0 (not_lt.2 (sq_nonneg q))
  have henv : 0 < env := by
    by_contra h
    exact absurd h0 (not_lt.2 ((mul_nonpos_of_nonpos_of_nonneg (not_lt.1 h) hnu.le).trans (sq_nonneg q)))
  have hk := kz_sq nu q sub
  have hre := csqrt_re_nonneg (sub * (nu : ℂ) ^ 2 - (q : ℂ) ^ 2)
  unfold kz at hk
  unfold fluxInto
  set k := Complex.sqrt (sub * (nu : ℂ) ^ 2 - (q : ℂ) ^ 2)
  split_ifs
  · refine div_nonneg ?_ (by positivity)
    have hs0 : sub ≠ 0 := posCone_upper.ne_zero hs
    have h1 : (k ^ 2).re = sub.re * nu ^ 2 - q ^ 2 := by
      rw [hk]
      simp [← Complex.ofReal_pow]
    have h2 : (k ^ 2).im = sub.im * nu ^ 2 := by
      rw [hk]
      simp [← Complex.ofReal_pow]
    rw [sq, Complex.mul_re] at h1
    rw [sq, Complex.mul_im] at h2
    rw [Complex.div_re, ← add_div]
    refine div_nonneg ?_ (Complex.normSq_nonneg _)
    have h3 : (k.re * sub.re + k.im * sub.im) * nu ^ 2 = k.re * (k.re ^ 2 + k.im ^ 2 + q ^ 2) := by
      linear_combination (-k.re) * h1 - k.im * h2
    have h4 : 0 ≤ (k.re * sub.re + k.im * sub.im) * nu ^ 2 := by
      rw [h3]
      positivity
    exact nonneg_of_mul_nonneg_left h4 hnu
  · exact div_nonneg hre (Real.sqrt_nonneg _)

theorem C65_energy (env : ℝ) (L : List (ℂ × ℝ)) (sub : ℂ) (snu : Option ℝ) (nu q : ℝ) (pol : String)
    (hpol : pol = "p" ∨ pol = "s") (h0 : q ^ 2 < env * nu ^ 2)
    (hL : ∀ l ∈ L, Passive l.1 ∧ 0 ≤ l.2 ∧ l.1 * (nu : ℂ) ^ 2 ≠ (q : ℂ) ^ 2) (hs : Passive sub) :
    ∃ r t : ℂ, (layered env L sub snu).reflCoef (atQ q nu pol) = .ok (FP.num r) ∧
      (layered env L sub snu).transCoef (atQ q nu pol) = .ok (FP.num t) ∧
      ‖r‖ ^ 2 + fluxInto pol nu q env sub * ‖t‖ ^ 2 ≤ 1 := by
  have hnu : 0 < nu ^ 2 := by
    refine lt_of_le_of_ne (sq_nonneg nu) fun h => ?_
    rw [← h, mul_zero] at h0
    exact absurd h0 (not_lt.2 (sq_nonneg q))
  have henv : 0 < env := by
    by_contra h
    exact absurd h0 (not_lt.2 ((mul_nonpos_of_nonpos_of_nonneg (not_lt.1 h) hnu.le).trans (sq_nonneg q)))
  have hk0 : kz nu q (env : ℂ) = (Real.sqrt (env * nu ^ 2 - q ^ 2) : ℝ) := kz_real (by linarith)
  have hkp : 0 < Real.sqrt (env * nu ^ 2 - q ^ 2) := Real.sqrt_pos.2 (by linarith)
  have hpn : ∀ e : ℂ, Passive e → e ≠ 0 := fun e he => posCone_upper.ne_zero he
  have hpi : ∀ e : ℂ, Passive e → 0 ≤ e.im := by
    intro e he; rcases he with h | ⟨h, _⟩ <;> linarith
  have hkl : ∀ l ∈ L, kz nu q l.1 ≠ 0 := fun l hl => by
    rw [Ne, kz_eq_zero, sub_eq_zero]; exact (hL l hl).2.2
  have hr : FarRegular pol nu q env L sub :=
    ⟨⟨by rw [hk0]; exact_mod_cast hkp.ne', hkl⟩, fun _ => ⟨fun l hl => hpn _ (hL l hl).1, hpn _ hs⟩⟩
  -- the admittance of the environment is positive
  obtain ⟨y0, hy0, hadm0⟩ : ∃ y0 : ℝ, 0 < y0 ∧ adm pol nu q (env : ℂ) = (y0 : ℂ) ∧
      fluxInto pol nu q env sub = y0 * (1 / adm pol nu q sub).re := by
    rcases hpol with rfl | rfl
    · refine ⟨env / Real.sqrt (env * nu ^ 2 - q ^ 2), div_pos henv hkp, ?_, ?_⟩
      · simp only [adm, if_true, hk0]
        push_cast
        rfl
      · simp only [fluxInto, if_true, adm, one_div_div]
        rw [show kz nu q sub = Complex.sqrt (sub * (nu : ℂ) ^ 2 - (q : ℂ) ^ 2) from rfl]
        field_simp
    · refine ⟨1 / Real.sqrt (env * nu ^ 2 - q ^ 2), div_pos one_pos hkp, ?_, ?_⟩
      · have : ("s" : String) ≠ "p" := by decide
        simp only [adm, if_neg this, hk0]
        push_cast
        rfl
      · have : ("s" : String) ≠ "p" := by decide
        simp only [fluxInto, if_neg this, adm, one_div_one_div]
        rw [show kz nu q sub = Complex.sqrt (sub * (nu : ℂ) ^ 2 - (q : ℂ) ^ 2) from rfl]
        field_simp
  obtain ⟨hadm0, hflux⟩ := hadm0
  have hlay : ∀ l ∈ L, adm pol nu q l.1 ≠ 0 ∧ 0 ≤ (kz nu q l.1 * adm pol nu q l.1).im ∧
      0 ≤ (kz nu q l.1 / adm pol nu q l.1).im := by
    intro l hl
    have hk := hkl l hl
    have he := hpn _ (hL l hl).1
    have hi := hpi _ (hL l hl).1
    have hsq := kz_sq nu q l.1
    have him : (kz nu q l.1 ^ 2).im = l.1.im * nu ^ 2 := by
      rw [hsq]
      simp [← Complex.ofReal_pow]
    simp only [adm]
    split_ifs
    · refine ⟨div_ne_zero he hk, ?_, ?_⟩
      · rw [mul_div_cancel₀ _ hk]
        exact hi
      · rw [div_div_eq_mul_div, ← sq, hsq]
        have e1 : (l.1 * (nu : ℂ) ^ 2 - (q : ℂ) ^ 2) / l.1 = ((nu ^ 2 : ℝ) : ℂ) - ((q ^ 2 : ℝ) : ℂ) * l.1⁻¹ := by
          push_cast
          field_simp
        rw [e1, Complex.sub_im, Complex.ofReal_im, Complex.im_ofReal_mul, Complex.inv_im]
        have : 0 ≤ q ^ 2 * (l.1.im / Complex.normSq l.1) :=
          mul_nonneg (sq_nonneg q) (div_nonneg hi (Complex.normSq_nonneg _))
        rw [neg_div, mul_neg]
        linarith
    · refine ⟨div_ne_zero one_ne_zero hk, ?_, ?_⟩
      · rw [mul_div_cancel₀ _ hk]
        simp
      · rw [div_div_eq_mul_div, div_one, ← sq, him]
        positivity
  have hG := gen_flux (adm pol nu q env) (L.map fun l => (adm pol nu q l.1, kz nu q l.1, l.2)) (adm pol nu q sub) (by
    intro l hl
    obtain ⟨l', h1, rfl⟩ := List.mem_map.1 hl
    exact ⟨(hlay l' h1).1, (hlay l' h1).2.1, (hlay l' h1).2.2, (hL l' h1).2.1⟩)
  have hne := gen_ne_zero (adm pol nu q env) (L.map fun l => (adm pol nu q l.1, -Complex.I * (kz nu q l.1 * l.2)))
    (adm pol nu q sub) (by rw [hadm0]; exact_mod_cast hy0.ne') (by
      intro l hl
      obtain ⟨l', h1, rfl⟩ := List.mem_map.1 hl
      exact (hlay l' h1).1)
  simp only [List.map_map, Function.comp_def] at hG
  change ¬ (farMat pol nu q env L sub 0 0 = 0 ∧ farMat pol nu q env L sub 1 0 = 0) at hne
  change ∃ G, farMat pol nu q env L sub 0 0 - farMat pol nu q env L sub 1 0 = _ ∧
    _ ≤ ((farMat pol nu q env L sub 0 0 + farMat pol nu q env L sub 1 0) * _).re at hG
  set A := farMat pol nu q env L sub 0 0 with hA
  set B := farMat pol nu q env L sub 1 0 with hB
  obtain ⟨G, hG1, hG2⟩ := hG
  have hen : fluxInto pol nu q env sub ≤ ‖A‖ ^ 2 - ‖B‖ ^ 2 := by
    rw [← Complex.normSq_eq_norm_sq, ← Complex.normSq_eq_norm_sq, normSq_add_sub, hG1, hadm0, star_mul',
      Complex.star_def, Complex.conj_ofReal, mul_left_comm, Complex.re_ofReal_mul, hflux]
    exact mul_le_mul_of_nonneg_left hG2 hy0.le
  have hfn := fluxInto_nonneg pol nu q env sub h0 hs
  have hA0 : A ≠ 0 := by
    intro h
    rw [h, norm_zero] at hen
    have hb : ‖B‖ ^ 2 ≤ 0 := by linarith
    exact hne ⟨h, norm_eq_zero.1 (pow_eq_zero_iff two_ne_zero |>.1 (le_antisymm hb (sq_nonneg _)))⟩
  have hAn : 0 < ‖A‖ := norm_pos_iff.2 hA0
  refine ⟨B / A, 1 / A, ?_, ?_, ?_⟩
  · rw [reflCoef_eq pol _ _ _ snu nu q hpol hr, ← hA, ← hB, FP.num_div _ hA0]
  · rw [transCoef_eq pol _ _ _ snu nu q hpol hr, ← hA, FP.num_div _ hA0]
  · rw [norm_div, norm_div, norm_one, div_pow, div_pow, one_pow, mul_one_div, ← add_div,
      div_le_one (by positivity)]
    linarith

theorem C65_reflect (env : ℝ) (L : List (ℂ × ℝ)) (sub : ℂ) (snu : Option ℝ) (nu q : ℝ) (pol : String)
    (hpol : pol = "p" ∨ pol = "s") (h0 : q ^ 2 < env * nu ^ 2)
    (hL : ∀ l ∈ L, Passive l.1 ∧ 0 ≤ l.2 ∧ l.1 * (nu : ℂ) ^ 2 ≠ (q : ℂ) ^ 2) (hs : Passive sub) :
    ∃ r : ℂ, (layered env L sub snu).reflCoef (atQ q nu pol) = .ok (FP.num r) ∧ ‖r‖ ≤ 1 := by
  obtain ⟨r, t, h1, -, h2⟩ := C65_energy env L sub snu nu q pol hpol h0 hL hs
  refine ⟨r, h1, ?_⟩
  have := mul_nonneg (fluxInto_nonneg pol nu q env sub h0 hs) (sq_nonneg ‖t‖)
  exact abs_le_one_iff_mul_self_le_one.2 (by nlinarith) |> (abs_of_nonneg (norm_nonneg r) ▸ ·)

/-- At an angle of incidence. -/
theorem C65_angle (env : ℝ) (L : List (ℂ × ℝ)) (sub : ℂ) (snu : Option ℝ) (nu theta : ℝ) (pol : String)
    (hpol : pol = "p" ∨ pol = "s") (hnu : nu ≠ 0) (h0 : Real.sin theta ^ 2 < env)
    (hL : ∀ l ∈ L, Passive l.1 ∧ 0 ≤ l.2 ∧ l.1 ≠ (Real.sin theta : ℂ) ^ 2) (hs : Passive sub) :
    ∃ r : ℂ, (layered env L sub snu).reflCoef (atAngle theta nu pol) = .ok (FP.num r) ∧ ‖r‖ ≤ 1 := by
  rw [(farCoefs_congr (transferMatrix_atAngle (layered env L sub snu) theta nu pol)).1]
  have hs2 : Real.sin |theta| ^ 2 = Real.sin theta ^ 2 := by
    rcases abs_choice theta with h | h <;> rw [h]
    rw [Real.sin_neg, neg_sq]
  have hn2 : 0 < nu ^ 2 := by positivity
  refine C65_reflect env L sub snu nu _ pol hpol ?_ (fun l hl => ⟨(hL l hl).1, (hL l hl).2.1, fun h => (hL l hl).2.2 ?_⟩) hs
  · rw [mul_pow, hs2, mul_comm]
    exact mul_lt_mul_of_pos_right h0 hn2
  · rw [← Complex.ofReal_pow (nu * _), mul_pow, hs2] at h
    have hnc : (nu : ℂ) ^ 2 ≠ 0 := by exact_mod_cast hn2.ne'
    apply mul_right_cancel₀ hnc
    rw [h]
    push_cast
    ring

/-- A metal film on an absorbing substrate. -/
example (theta : ℝ) (h : |theta| < Real.pi / 2) :=
  C65_angle 1 [(⟨-20, 1⟩, 3)] ⟨11.7, 0.1⟩ none 1 theta "p" (Or.inl rfl) one_ne_zero
    (by
      have hc : 0 < Real.cos theta := Real.cos_pos_of_mem_Ioo (abs_lt.1 h |>.imp (by intro h; linarith) id)
      nlinarith [Real.sin_sq_add_cos_sq theta, pow_pos hc 2])
    (by
      intro l hl
      simp only [List.mem_singleton] at hl
      subst hl
      refine ⟨Or.inl (by norm_num), by norm_num, fun h => ?_⟩
      have := congrArg Complex.im h
      rw [← Complex.ofReal_pow, Complex.ofReal_im] at this
      norm_num at this)
    (Or.inl (by norm_num))

end Snompy.Props
