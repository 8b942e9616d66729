import Verif.Lemmas.DoubleNear
import Verif.Model.Pdm
import Mathlib.Analysis.Real.Pi.Bounds

/-!
# Rounding errors of the point dipole model
-/

namespace Snompy

variable {L : Libm}

theorem tenth_le_uro : (1 : ℝ) / 10 ^ 13 ≤ 901 * uro := by unfold uro; norm_num

theorem uro_le : uro ≤ 1111 / 10 ^ 19 := by unfold uro; norm_num

seal uro eta maxDouble

theorem sized_of {a b : ℕ} {x : ℝ} (ha : a ≤ 800) (hb : b ≤ 800) (h1 : (1 / 2) ^ a ≤ x) (h2 : x ≤ 2 ^ b) : Sized x :=
  ⟨(pow_le_pow_of_le_one (by norm_num) (by norm_num) ha).trans h1, h2.trans (pow_le_pow_right₀ (by norm_num) hb)⟩

/-- The geometry function of the point dipole model. -/
theorem Pdm.geom_near {zT rT : F64 L} {αh : C128 L} {s ks ka : ℝ} {α : ℂ} (hs : (rT + zT).Near s ks)
    (hα : αh.Near α ka) (hs1 : (1 / 2) ^ 100 ≤ s) (hs2 : s ≤ 2 ^ 100) (hα2 : ‖α‖ ≤ 2 ^ 300)
    (hks0 : 0 ≤ ks) (hks : ks ≤ 140) (hka0 : 0 ≤ ka) (hka : ka ≤ 100) :
    ∃ g, Pdm.geomFunc zT rT αh = C128.mk' L g ∧
      ‖g - α / (16 * Real.pi * s ^ 3)‖ ≤ (ka + 3 * ks + 74) * uro * ‖α / (16 * Real.pi * s ^ 3)‖ + uro ^ 3 := by
  have hu := uro_pos
  have hu' := uro_lt
  have hs0 : 0 < s := lt_of_lt_of_le (by positivity) hs1
  have hpi3 := Real.pi_gt_three
  have hpi4 := Real.pi_le_four
  have c1 : (1 / 2) ^ 300 ≤ s ^ 3 := by
    rw [show 300 = 100 * 3 from rfl, pow_mul]
    exact pow_le_pow_left₀ (by positivity) hs1 3
  have c2 : s ^ 3 ≤ 2 ^ 300 := by
    rw [show 300 = 100 * 3 from rfl, pow_mul]
    exact pow_le_pow_left₀ hs0.le hs2 3
  have c0 : 0 < s ^ 3 := by positivity
  have d1 : (1 / 2) ^ 300 ≤ 16 * Real.pi * s ^ 3 := by nlinarith
  have d2 : 16 * Real.pi * s ^ 3 ≤ 2 ^ 306 := by
    rw [show 306 = 6 + 300 from rfl, pow_add]
    refine mul_le_mul ?_ c2 c0.le (by norm_num)
    norm_num
    linarith
  have n16 := F64.near_nat (L := L) 16 (by norm_num)
  have npi := F64.near_lit (L := L) (v := Real.pi) (sized_of (a := 0) (b := 2) (by norm_num) (by norm_num)
    (by rw [abs_of_pos Real.pi_pos]; norm_num; linarith) (by rw [abs_of_pos Real.pi_pos]; norm_num; linarith))
  have n1 := n16.mul npi le_rfl (by norm_num) (by norm_num) (by norm_num)
    (sized_of (a := 0) (b := 6) (by norm_num) (by norm_num) (by
      rw [abs_of_pos (by positivity)]; push_cast; norm_num; linarith) (by
      rw [abs_of_pos (by positivity)]; push_cast; norm_num; linarith))
  have n2 := hs.cube hks0 (by linarith) (by
    rw [abs_of_pos c0]
    exact sized_of (by norm_num) (by norm_num) c1 c2)
  have n3 := (n1.mul n2 (by norm_num) (by positivity) (by norm_num) (by linarith) (by
    push_cast
    rw [abs_of_pos (by positivity)]
    exact sized_of (by norm_num) (by norm_num) d1 d2)).ofR
  push_cast at n3
  obtain ⟨a, rfl, ha⟩ := hα
  obtain ⟨w, hw, ew⟩ := n3
  have hwn : ‖(16 * Real.pi * s ^ 3 : ℂ)‖ = 16 * Real.pi * s ^ 3 := by
    rw [show (16 * Real.pi * s ^ 3 : ℂ) = ((16 * Real.pi * s ^ 3 : ℝ) : ℂ) by push_cast; rfl, Complex.norm_real,
      Real.norm_of_nonneg (by positivity)]
  have hq : ‖α‖ / ‖(16 * Real.pi * s ^ 3 : ℂ)‖ ≤ 2 ^ 600 := by
    rw [hwn, div_le_iff₀ (by positivity)]
    calc ‖α‖ ≤ 2 ^ 300 := hα2
      _ = 2 ^ 600 * (1 / 2) ^ 300 := by
        rw [show 600 = 300 + 300 from rfl, pow_add, mul_assoc, ← mul_pow (2 : ℝ) (1 / 2)]; norm_num
      _ ≤ _ := mul_le_mul_of_nonneg_left d1 (by positivity)
  obtain ⟨z, hz, ez⟩ := C128.div_near (L := L) (δ := ka * uro)
    (ε := (0 + (1 + 1 / 100) + 2 + (3 * ks + 2) + 2) * uro) (by positivity) (by nlinarith)
    (by positivity) (by nlinarith) ha ew (by
      have h1 := pow_le_max (n := 3 + 300) (by norm_num)
      rw [pow_add] at h1
      generalize (2 : ℝ) ^ 300 = P at *
      linarith) (by
      rw [hwn]
      exact sized_of (by norm_num) (by norm_num) d1 d2) (by
      have h1 := pow_le_max (n := 3 + 600) (by norm_num)
      rw [pow_add] at h1
      generalize (2 : ℝ) ^ 600 = P at *
      linarith)
  refine ⟨z, ?_, ez.trans ?_⟩
  · rw [← hz, ← hw]
    rfl
  · have hn := norm_nonneg (α / (16 * Real.pi * s ^ 3))
    refine add_le_add_left (mul_le_mul_of_nonneg_right ?_ hn) _
    set e := (0 + (1 + 1 / 100) + 2 + (3 * ks + 2) + 2) * uro with he
    have he1 : e ≤ 1 / 10 ^ 6 := by rw [he]; nlinarith
    have he0 : 0 ≤ e := by positivity
    have hd0 : 0 ≤ ka * uro := by positivity
    have : (ka * uro + e) / (1 - e) ≤ (ka * uro + e) * (1 + 1 / 10 ^ 4) := by
      rw [div_le_iff₀ (by linarith)]
      have : 0 ≤ ka * uro + e := by positivity
      nlinarith
    have h3 : (ka * uro + e) * (1 / 10 ^ 4) ≤ uro := by
      rw [he]
      nlinarith
    have h4 : e = 3 * ks * uro + (7 + 1 / 100) * uro := by rw [he]; ring
    nlinarith

theorem uro3_tiny : uro ^ 3 < uro / 10 ^ 30 := by
  have hu := uro_pos
  have : uro ^ 2 < 1 / 10 ^ 30 := by
    calc uro ^ 2 < (1 / 10 ^ 15) ^ 2 := pow_lt_pow_left₀ uro_lt hu.le (by norm_num)
      _ = _ := by norm_num
  calc uro ^ 3 = uro * uro ^ 2 := by ring
    _ < uro * (1 / 10 ^ 30) := mul_lt_mul_of_pos_left this hu
    _ = _ := by ring

/-- Size of the factors of the product of geometry function and reflection coefficient. -/
theorem factor_sizes {g f b β : ℂ} {kf : ℝ} (hkf : kf ≤ 600) (hf : ‖g - f‖ ≤ kf * uro * ‖f‖ + uro ^ 3)
    (hb : ‖b - β‖ ≤ 1 / 10 ^ 13 * (1 + ‖β‖) ^ 2) (hβ : 1 + ‖β‖ ≤ 10 ^ 12) :
    ‖b‖ ≤ 11 / 10 * (1 + ‖β‖) ∧ ‖g‖ * ‖b‖ ≤ 12 / 10 * (‖f‖ * (1 + ‖β‖)) + uro / 10 ^ 6 := by
  have hu := uro_pos
  have hF := norm_nonneg f
  have hβ0 := norm_nonneg β
  have hbn : ‖b‖ ≤ 11 / 10 * (1 + ‖β‖) := by
    have h1 := norm_sub_norm_le b β
    have h2 : (1 + ‖β‖) ^ 2 ≤ 10 ^ 12 * (1 + ‖β‖) := by
      rw [sq]
      exact mul_le_mul_of_nonneg_right hβ (by linarith)
    linarith
  refine ⟨hbn, ?_⟩
  have hgn : ‖g‖ ≤ 1001 / 1000 * ‖f‖ + uro / 10 ^ 30 := by
    have h1 := norm_sub_norm_le g f
    have h2 : kf * uro ≤ 1 / 1000 := by
      have := mul_le_mul hkf uro_lt.le hu.le (by norm_num)
      linarith
    have h3 : kf * uro * ‖f‖ ≤ 1 / 1000 * ‖f‖ := mul_le_mul_of_nonneg_right h2 hF
    have h4 := uro3_tiny
    linarith
  have h1 : ‖g‖ * ‖b‖ ≤ (1001 / 1000 * ‖f‖ + uro / 10 ^ 30) * (11 / 10 * (1 + ‖β‖)) :=
    mul_le_mul hgn hbn (norm_nonneg _) (by positivity)
  have h2 : uro * (1 + ‖β‖) ≤ uro * 10 ^ 12 := mul_le_mul_of_nonneg_left hβ hu.le
  have h3 : 0 ≤ ‖f‖ * (1 + ‖β‖) := by positivity
  linarith

theorem prod_max {F c : ℝ} (hF2 : F ≤ 2 ^ 600) (hc : 0 ≤ c) (hc2 : c ≤ 10 ^ 12) : F * c * 2000 ≤ maxDouble := by
  have h1 := pow_le_max (n := 60 + 600) (by norm_num)
  rw [pow_add] at h1
  have h4 : (0 : ℝ) < 2 ^ 600 := by positivity
  have h2 : F * c ≤ 2 ^ 600 * 10 ^ 12 := mul_le_mul hF2 hc2 hc h4.le
  have h3 : (10 : ℝ) ^ 12 * 2000 ≤ 2 ^ 60 := by norm_num
  have h5 := mul_le_mul_of_nonneg_left h3 h4.le
  clear hF2 h3
  generalize (2 : ℝ) ^ 600 = P at *
  linarith

/-- The product of geometry function and reflection coefficient. -/
theorem prod_near {g f b β : ℂ} {kf : ℝ} (hkf0 : 0 ≤ kf) (hkf : kf ≤ 600) (hf : ‖g - f‖ ≤ kf * uro * ‖f‖ + uro ^ 3)
    (hb : ‖b - β‖ ≤ 1 / 10 ^ 13 * (1 + ‖β‖) ^ 2) (hβ : 1 + ‖β‖ ≤ 10 ^ 12) (hf2 : ‖f‖ ≤ 2 ^ 600) :
    ∃ p, (C128.mk' L g * C128.mk' L b : C128 L) = C128.mk' L p ∧
      ‖p - f * β‖ ≤ 1567 * uro * (‖f‖ * (1 + ‖β‖) ^ 2) + uro / 10 ^ 4 ∧ ‖p‖ ≤ 13 / 10 * (‖f‖ * (1 + ‖β‖) ^ 2) + uro ∧
      ‖p‖ * 4 ≤ maxDouble := by
  have hu := uro_pos
  have hu' := uro_lt
  have he := eta_pos
  have he' := eta_lt
  have hu3 := uro3_tiny
  have hF := norm_nonneg f
  have hc1 : 1 ≤ 1 + ‖β‖ := by linarith [norm_nonneg β]
  obtain ⟨hbn, hgb⟩ := factor_sizes hkf hf hb hβ
  have hmax := prod_max hf2 (by linarith) hβ
  have hmax1 := F64.one_le_max
  have hcc : ‖f‖ * (1 + ‖β‖) ≤ ‖f‖ * (1 + ‖β‖) ^ 2 := mul_le_mul_of_nonneg_left (by nlinarith) hF
  have hcc0 : 0 ≤ ‖f‖ * (1 + ‖β‖) := by positivity
  obtain ⟨p, hp, ep⟩ := C128.mul_err (L := L) (v := g) (w := b) (by linarith)
  have hgb0 : 0 ≤ ‖g‖ * ‖b‖ := by positivity
  have h2 : 4 * uro * (‖g‖ * ‖b‖) ≤ 1 / 100 * (‖g‖ * ‖b‖) := mul_le_mul_of_nonneg_right (by linarith) hgb0
  have hpn : ‖p‖ ≤ 13 / 10 * (‖f‖ * (1 + ‖β‖)) + uro := by
    have h1 := norm_sub_norm_le p (g * b)
    rw [norm_mul] at h1
    linarith
  refine ⟨p, hp, ?_, hpn.trans (by linarith), by linarith⟩
  have h1 := norm_sub_le_norm_sub_add_norm_sub p (g * b) (f * β)
  have e2 : g * b - f * β = (g - f) * b + f * (b - β) := by ring
  have h3 : ‖g * b - f * β‖ ≤ (kf * uro * ‖f‖ + uro ^ 3) * (11 / 10 * (1 + ‖β‖)) +
      ‖f‖ * (1 / 10 ^ 13 * (1 + ‖β‖) ^ 2) := by
    rw [e2]
    refine (norm_add_le _ _).trans (add_le_add ?_ ?_)
    · rw [norm_mul]
      exact mul_le_mul hf hbn (norm_nonneg _) (by positivity)
    · rw [norm_mul]
      exact mul_le_mul_of_nonneg_left hb hF
  have h4 : uro ^ 3 * (1 + ‖β‖) ≤ uro / 10 ^ 30 * 10 ^ 12 := mul_le_mul hu3.le hβ (by linarith) (by positivity)
  have h5 : kf * uro * ‖f‖ * (11 / 10 * (1 + ‖β‖)) ≤ 660 * uro * (‖f‖ * (1 + ‖β‖) ^ 2) := by
    calc kf * uro * ‖f‖ * (11 / 10 * (1 + ‖β‖)) = kf * (11 / 10 * uro * (‖f‖ * (1 + ‖β‖))) := by ring
      _ ≤ 600 * (11 / 10 * uro * (‖f‖ * (1 + ‖β‖) ^ 2)) := by
        refine mul_le_mul hkf ?_ (by positivity) (by norm_num)
        exact mul_le_mul_of_nonneg_left hcc (by positivity)
      _ = _ := by ring
  have h6 : ‖f‖ * (1 / 10 ^ 13 * (1 + ‖β‖) ^ 2) ≤ 901 * uro * (‖f‖ * (1 + ‖β‖) ^ 2) := by
    calc ‖f‖ * (1 / 10 ^ 13 * (1 + ‖β‖) ^ 2) = 1 / 10 ^ 13 * (‖f‖ * (1 + ‖β‖) ^ 2) := by ring
      _ ≤ _ := mul_le_mul_of_nonneg_right tenth_le_uro (by positivity)
  have h7 : 4 * uro * (‖g‖ * ‖b‖) ≤ 4 * uro * (12 / 10 * (‖f‖ * (1 + ‖β‖) ^ 2) + uro / 10 ^ 6) :=
    mul_le_mul_of_nonneg_left (by linarith) (by positivity)
  have h8 : uro * uro ≤ uro * (1 / 10 ^ 15) := mul_le_mul_of_nonneg_left hu'.le hu.le
  have h9 : 0 ≤ uro * (‖f‖ * (1 + ‖β‖) ^ 2) := by positivity
  have e3 : (kf * uro * ‖f‖ + uro ^ 3) * (11 / 10 * (1 + ‖β‖)) =
    kf * uro * ‖f‖ * (11 / 10 * (1 + ‖β‖)) + 11 / 10 * (uro ^ 3 * (1 + ‖β‖)) := by ring
  have e4 : 4 * uro * (12 / 10 * (‖f‖ * (1 + ‖β‖) ^ 2) + uro / 10 ^ 6) =
    48 / 10 * (uro * (‖f‖ * (1 + ‖β‖) ^ 2)) + 4 / 10 ^ 6 * (uro * uro) := by ring
  rw [e3] at h3
  rw [e4] at h7
  linarith

/-- The resonance denominator. -/
theorem den_near {g f b β : ℂ} {kf : ℝ} (hkf0 : 0 ≤ kf) (hkf : kf ≤ 600) (hf : ‖g - f‖ ≤ kf * uro * ‖f‖ + uro ^ 3)
    (hb : ‖b - β‖ ≤ 1 / 10 ^ 13 * (1 + ‖β‖) ^ 2) (hβ : 1 + ‖β‖ ≤ 10 ^ 12) (hf2 : ‖f‖ ≤ 2 ^ 600) :
    ∃ d, (clit 1 - C128.mk' L g * C128.mk' L b : C128 L) = C128.mk' L d ∧
      ‖d - (1 - f * β)‖ ≤ 1570 * uro * (1 + ‖f‖ * (1 + ‖β‖) ^ 2) := by
  have hu := uro_pos
  have hu' := uro_lt
  have he' := eta_lt
  have hmax1 := pow_le_max (n := 60) (by norm_num)
  norm_num at hmax1
  obtain ⟨p, hp, hpe, hpn, hpm⟩ := prod_near (L := L) hkf0 hkf hf hb hβ hf2
  obtain ⟨d, hd, ed⟩ := C128.sub_err (L := L) (v := 1) (w := p) (by
    rw [norm_one]
    linarith)
  refine ⟨d, by rw [hp, C128.clit_one, hd], ?_⟩
  have h1 := norm_sub_le_norm_sub_add_norm_sub d (1 - p) (1 - f * β)
  have h2 : (1 - p) - (1 - f * β) = -(p - f * β) := by ring
  rw [h2, norm_neg] at h1
  rw [norm_one] at ed
  have h9 : 0 ≤ uro * (‖f‖ * (1 + ‖β‖) ^ 2) := by positivity
  have h3 : 2 * uro * (1 + ‖p‖) ≤ 2 * uro * (1 + (13 / 10 * (‖f‖ * (1 + ‖β‖) ^ 2) + uro)) :=
    mul_le_mul_of_nonneg_left (by linarith) (by positivity)
  have h8 : uro * uro ≤ uro * (1 / 10 ^ 15) := mul_le_mul_of_nonneg_left hu'.le hu.le
  have e4 : 2 * uro * (1 + (13 / 10 * (‖f‖ * (1 + ‖β‖) ^ 2) + uro)) =
    2 * uro + 26 / 10 * (uro * (‖f‖ * (1 + ‖β‖) ^ 2)) + 2 * (uro * uro) := by ring
  rw [e4] at h3
  linarith

/-- The quotient of polarisability and resonance denominator. -/
theorem pol_near {αh : C128 L} {α f β d : ℂ} {ka : ℝ} (hα : αh.Near α ka) (hα2 : ‖α‖ ≤ 2 ^ 300) (hka0 : 0 ≤ ka)
    (hka : ka ≤ 100) (hd : ‖d - (1 - f * β)‖ ≤ 1570 * uro * (1 + ‖f‖ * (1 + ‖β‖) ^ 2))
    (hD : 1 + ‖f‖ * (1 + ‖β‖) ^ 2 ≤ 10 ^ 10 * ‖1 - f * β‖) (hf2 : ‖f‖ ≤ 2 ^ 600) (hβ : 1 + ‖β‖ ≤ 10 ^ 12) :
    ∃ z, (αh / C128.mk' L d : C128 L) = C128.mk' L z ∧
      ‖z - α / (1 - f * β)‖ ≤
        2 / 10 ^ 13 * ((1 + ‖f‖ * (1 + ‖β‖) ^ 2) / ‖1 - f * β‖) * ‖α / (1 - f * β)‖ + uro ^ 3 := by
  have hu := uro_pos
  have hu' : uro ≤ 1111 / 10 ^ 19 := uro_le
  obtain ⟨a, rfl, ha⟩ := hα
  have hF := norm_nonneg f
  have hβ0 := norm_nonneg β
  have hM0 : 0 ≤ ‖f‖ * (1 + ‖β‖) ^ 2 := by positivity
  set D := ‖1 - f * β‖ with hDd
  have hD0 : 1 / 10 ^ 10 ≤ D := by linarith
  have hDp : 0 < D := by linarith
  have hDle : D ≤ 1 + ‖f‖ * (1 + ‖β‖) := by
    have h1 := norm_sub_le 1 (f * β)
    rw [norm_one, norm_mul] at h1
    nlinarith
  have hDM : D ≤ 1 + ‖f‖ * (1 + ‖β‖) ^ 2 := by
    refine hDle.trans ?_
    have := mul_le_mul_of_nonneg_left (show 1 + ‖β‖ ≤ (1 + ‖β‖) ^ 2 by nlinarith) hF
    linarith
  have hsz : Sized D := by
    refine sized_of (a := 40) (b := 700) (by norm_num) (by norm_num) ?_ ?_
    · norm_num at hD0 ⊢
      linarith
    · have h1 : ‖f‖ * (1 + ‖β‖) ≤ 2 ^ 600 * 10 ^ 12 := mul_le_mul hf2 hβ (by linarith) (by positivity)
      have h2 : (2 : ℝ) ^ 700 = 2 ^ 600 * 2 ^ 100 := by rw [← pow_add]
      have h3 : (10 : ℝ) ^ 12 + 1 ≤ 2 ^ 100 := by norm_num
      have h4 : (1 : ℝ) ≤ 2 ^ 600 := one_le_pow₀ (by norm_num)
      rw [h2]
      have h5 := mul_le_mul_of_nonneg_left h3 (show (0 : ℝ) ≤ 2 ^ 600 by positivity)
      clear hf2 h2
      generalize (2 : ℝ) ^ 600 = P at *
      linarith
  have hα2' : ‖α‖ * 10 ^ 12 ≤ maxDouble := by
    have h1 := pow_le_max (n := 60 + 300) (by norm_num)
    rw [pow_add] at h1
    have h3 : (10 : ℝ) ^ 12 ≤ 2 ^ 60 := by norm_num
    have h5 := mul_le_mul hα2 h3 (by norm_num) (show (0 : ℝ) ≤ 2 ^ 300 by positivity)
    rw [mul_comm] at h1
    exact h5.trans h1
  set M := 1 + ‖f‖ * (1 + ‖β‖) ^ 2 with hMd
  set κ := M / D with hκ
  have hκ1 : 1 ≤ κ := by rw [hκ, le_div_iff₀ hDp]; linarith
  have hκ2 : κ ≤ 10 ^ 10 := by rw [hκ, div_le_iff₀ hDp]; linarith
  have hκD : M = κ * D := by rw [hκ]; field_simp
  obtain ⟨z, hz, ez⟩ := C128.div_near (L := L) (δ := ka * uro) (ε := 1570 * uro * κ) (w := 1 - f * β) (by positivity)
    (by
      have := mul_le_mul hu' hκ2 (by linarith) (by norm_num)
      linarith) (by positivity) (by
      have := mul_le_mul hka hu' hu.le (by norm_num)
      linarith) ha (hd.trans_eq (by rw [hκD]; ring)) (by linarith [norm_nonneg α]) hsz (by
      have h1 : ‖α‖ / D ≤ ‖α‖ * 10 ^ 10 := by
        rw [div_le_iff₀ hDp]
        have := mul_le_mul_of_nonneg_left hD0 (show 0 ≤ ‖α‖ * 10 ^ 10 by positivity)
        linarith
      have := norm_nonneg α
      linarith)
  refine ⟨z, hz, ez.trans (add_le_add_left (mul_le_mul_of_nonneg_right ?_ (norm_nonneg _)) _)⟩
  set ε := 1570 * uro * κ with hε
  have hε0 : 0 ≤ ε := by positivity
  have hε1 : ε ≤ 2 / 1000 := by
    have := mul_le_mul hu' hκ2 (by linarith) (by norm_num)
    rw [hε]
    linarith
  have hka' : ka * uro ≤ 100 * uro * κ := by
    calc ka * uro ≤ 100 * uro := mul_le_mul_of_nonneg_right hka hu.le
      _ ≤ 100 * uro * κ := le_mul_of_one_le_right (by positivity) hκ1
  have h1 : (ka * uro + ε) / (1 - ε) ≤ 1003 / 1000 * (ka * uro + ε) := by
    rw [div_le_iff₀ (by linarith)]
    have h0 : 0 ≤ ka * uro + ε := by positivity
    have := mul_le_mul_of_nonneg_left hε1 h0
    linarith
  have h2 : 66 * uro ≤ 66 * uro * κ := le_mul_of_one_le_right (by positivity) hκ1
  have h3 : uro * κ ≤ 1111 / 10 ^ 19 * κ := mul_le_mul_of_nonneg_right hu' (by linarith)
  have h4 : ε = 1570 * (uro * κ) := by rw [hε]; ring
  linarith

end Snompy
