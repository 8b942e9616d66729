import Verif.Lemmas.DoublePdm
import Verif.Lemmas.Demod

/-!
# Rounding errors of `demod`
-/

namespace Snompy

variable {L : Libm}

theorem libm_eps : ((1 : ℝ) / 2) ^ 52 = 2 * uro := by unfold uro; norm_num

theorem one_le_expLimit : (1 : ℝ) ≤ expLimit := by
  unfold expLimit
  norm_num

seal uro eta maxDouble

open Finset

/-- A value of a trigonometric function. -/
theorem trig_near {f : ℝ → ℝ} {y v e : ℝ} (hf : |f y - v| ≤ e) (he : e ≤ 1) (hv : |v| ≤ 1) :
    (F64.trig f (.fin y) : F64 L) = .fin (rnd (f y)) ∧ |rnd (f y) - v| ≤ uro + (1 + uro) * e + eta := by
  have hu := uro_pos
  have hu' := uro_lt
  have he' := eta_lt
  have hmax := pow_le_max (n := 60) (by norm_num)
  norm_num at hmax
  refine ⟨F64.ofReal_fin ?_, (rnd_approx hf).trans ?_⟩
  · have h1 := abs_sub_abs_le_abs_sub (f y) v
    have h2 : |f y| ≤ 2 := by linarith
    have h3 := mul_le_mul h2 (show 1 + uro ≤ 2 by linarith) (by linarith) (by norm_num)
    linarith
  · have := mul_le_mul_of_nonneg_left hv hu.le
    linarith

/-- The point of the oscillation at the phase `θ`. -/
theorem point_near {x0 A θ : ℝ} (hA : 0 ≤ A) (hθ : |θ| ≤ Real.pi) (hs : Sized (|x0| + A)) :
    ∃ x, (F64.fin x0 + RealOps.cos (F64.ofReal θ) * F64.fin A : F64 L) = .fin x ∧
      |x - (x0 + Real.cos θ * A)| ≤ 11 * uro * (|x0| + A) := by
  have hu := uro_pos
  have hu' := uro_lt
  have he' := eta_lt
  have he := hs.eta_le
  have hsm := hs.le_max
  have hx0 := abs_nonneg x0
  have hpi := Real.pi_lt_d2
  obtain ⟨t1, t2, -⟩ := F64.fl (L := L) (x := θ) (M := 315 / 100) (hθ.trans (by linarith)) (by
    have hmax := pow_le_max (n := 60) (by norm_num)
    norm_num at hmax
    linarith)
  have hc : |L.cos (rnd θ) - Real.cos θ| ≤ 52 / 10 * uro := by
    have h1 := L.cos_err (rnd θ)
    rw [libm_eps] at h1
    have h2 := mul_le_mul_of_nonneg_left (Real.abs_cos_le_one (rnd θ)) (show 0 ≤ 2 * uro by linarith)
    have h3 : |Real.cos (rnd θ) - Real.cos θ| ≤ |rnd θ - θ| := Real.abs_cos_sub_cos_le _ _
    have h4 := abs_sub_le (L.cos (rnd θ)) (Real.cos (rnd θ)) (Real.cos θ)
    linarith
  obtain ⟨c1, c2⟩ := trig_near (L := L) hc (by linarith) (Real.abs_cos_le_one θ)
  set c := rnd (L.cos (rnd θ))
  have hc2 : |c - Real.cos θ| ≤ 7 * uro := by
    refine c2.trans ?_
    have := mul_le_mul_of_nonneg_left hu'.le hu.le
    linarith
  have hcA : |c * A - Real.cos θ * A| ≤ 7 * uro * A := by
    rw [← sub_mul, abs_mul, abs_of_nonneg hA]
    exact mul_le_mul_of_nonneg_right hc2 hA
  have hcos : |Real.cos θ * A| ≤ A := by
    rw [abs_mul, abs_of_nonneg hA]
    exact mul_le_of_le_one_left hA (Real.abs_cos_le_one θ)
  have huA : uro * A ≤ 1 / 10 ^ 15 * A := mul_le_mul_of_nonneg_right hu'.le hA
  have huA0 : 0 ≤ uro * A := by positivity
  have hux0 : 0 ≤ uro * |x0| := by positivity
  have hcA2 : |c * A| ≤ 11 / 10 * A := by
    have := abs_sub_abs_le_abs_sub (c * A) (Real.cos θ * A)
    linarith
  have hmx : ∀ y : ℝ, |y| ≤ 2 * (|x0| + A) → |y| * (1 + uro) + eta ≤ maxDouble := fun y hy => by
    have h1 := mul_le_mul hy (show 1 + uro ≤ 2 by linarith) (by linarith) (by positivity)
    have h2 : uro / 10 ^ 6 * (|x0| + A) ≤ 1 * (|x0| + A) := mul_le_mul_of_nonneg_right (by linarith) (by positivity)
    linarith
  have p1 : (F64.ofReal (c * A) : F64 L) = .fin (rnd (c * A)) := F64.ofReal_fin (hmx _ (by linarith))
  have p2 := rnd_approx hcA
  have huu : uro * (7 * uro * A) ≤ 1 / 100 * (uro * A) := by
    have : uro * (7 * uro * A) = 7 * uro * (uro * A) := by ring
    rw [this]
    exact mul_le_mul_of_nonneg_right (by linarith) huA0
  have hua : uro * |Real.cos θ * A| ≤ uro * A := mul_le_mul_of_nonneg_left hcos hu.le
  have p3 : |rnd (c * A) - Real.cos θ * A| ≤ 81 / 10 * (uro * A) + eta := by linarith
  have q1 : |x0 + rnd (c * A) - (x0 + Real.cos θ * A)| ≤ 81 / 10 * (uro * A) + eta := by
    rwa [add_sub_add_left_eq_sub]
  have q2 := rnd_approx q1
  have q3 : |x0 + Real.cos θ * A| ≤ |x0| + A := (abs_add_le _ _).trans (by linarith)
  have he6 : uro / 10 ^ 6 * (|x0| + A) = 1 / 10 ^ 6 * (uro * |x0| + uro * A) := by ring
  rw [he6] at he
  refine ⟨rnd (x0 + rnd (c * A)), ?_, ?_⟩
  · have e1 : (RealOps.cos (F64.ofReal θ) : F64 L) = .fin c := by rw [t1]; exact c1
    rw [e1, F64.fin_mul, p1, F64.fin_add]
    refine F64.ofReal_fin (hmx _ ?_)
    have := abs_sub_abs_le_abs_sub (x0 + rnd (c * A)) (x0 + Real.cos θ * A)
    have hux : uro * |x0| ≤ 1 * |x0| := mul_le_mul_of_nonneg_right (by linarith) hx0
    linarith
  · have h1 := mul_le_mul_of_nonneg_left q3 hu.le
    have h2 : uro * (81 / 10 * (uro * A) + eta) ≤ 1 / 100 * (81 / 10 * (uro * A) + eta) :=
      mul_le_mul_of_nonneg_right (by linarith) (by linarith [eta_pos])
    have h3 : 11 * uro * (|x0| + A) = 11 * (uro * |x0|) + 11 * (uro * A) := by ring
    rw [h3]
    linarith

/-- The exponential of an approximate imaginary number. -/
theorem C128.exp_near {y w : ℂ} {e : ℝ} (h : ‖y - w‖ ≤ e) (he : e ≤ 1 / 10) (hw : w.re = 0) :
    ∃ z, (CplxOps.exp (C128.mk' L y) : C128 L) = C128.mk' L z ∧ ‖z - Complex.exp w‖ ≤ 2 * e + 13 * uro := by
  have hu := uro_pos
  have hu' := uro_lt
  have he0 := (norm_nonneg _).trans h
  have het := eta_lt
  have het0 := eta_pos
  have hre : |y.re| ≤ 1 / 10 := by
    have := Complex.abs_re_le_norm (y - w)
    rw [Complex.sub_re, hw, sub_zero] at this
    linarith
  obtain ⟨a1, a2⟩ := F64.exp_fin (L := L) (p := y.re) (hre.trans (by linarith [one_le_expLimit]))
  have hE : Real.exp y.re ≤ 112 / 100 := by
    have h1 : Real.exp y.re ≤ Real.exp (1 / 10) := Real.exp_le_exp.2 (abs_le.1 hre).2
    have h2 := Real.exp_bound_div_one_sub_of_interval (x := 1 / 10) (by norm_num) (by norm_num)
    norm_num at h2
    linarith
  have hE0 := Real.exp_pos y.re
  have huu : uro ^ 2 ≤ uro * (1 / 10 ^ 15) := by rw [sq]; exact mul_le_mul_of_nonneg_left hu'.le hu.le
  have a3 : |rnd (L.exp y.re) - Real.exp y.re| ≤ 34 / 10 * uro := by
    refine a2.trans ?_
    have := mul_le_mul_of_nonneg_left hE (show 0 ≤ 3 * uro + 2 * uro ^ 2 by positivity)
    linarith
  have key : ∀ (f : ℝ → ℝ) (v : ℝ), |f y.im - v| ≤ 2 * uro → |v| ≤ 1 → ∃ x,
      (F64.exp (.fin y.re) * F64.trig f (.fin y.im) : F64 L) = .fin x ∧ |x - Real.exp y.re * v| ≤ 9 * uro := by
    intro f v hf hv
    obtain ⟨b1, b2⟩ := trig_near (L := L) hf (by linarith) hv
    have b3 : |rnd (f y.im) - v| ≤ 31 / 10 * uro := by linarith
    set p := rnd (L.exp y.re)
    set q := rnd (f y.im)
    have hp : |p| ≤ 12 / 10 := by
      have := abs_sub_abs_le_abs_sub p (Real.exp y.re)
      rw [abs_of_pos hE0] at this
      linarith
    have hpq : |p * q - Real.exp y.re * v| ≤ 72 / 10 * uro := by
      have e1 : p * q - Real.exp y.re * v = p * (q - v) + (p - Real.exp y.re) * v := by ring
      rw [e1]
      refine (abs_add_le _ _).trans ?_
      rw [abs_mul, abs_mul]
      have h1 := mul_le_mul hp b3 (abs_nonneg _) (by norm_num)
      have h2 := mul_le_mul a3 hv (abs_nonneg _) (by positivity)
      linarith
    have hEv : |Real.exp y.re * v| ≤ 112 / 100 := by
      rw [abs_mul, abs_of_pos hE0]
      have := mul_le_mul hE hv (abs_nonneg _) (by norm_num)
      linarith
    refine ⟨rnd (p * q), ?_, (rnd_approx hpq).trans ?_⟩
    · rw [a1, b1, F64.fin_mul]
      refine F64.ofReal_fin ?_
      have := abs_sub_abs_le_abs_sub (p * q) (Real.exp y.re * v)
      have h3 : |p * q| ≤ 2 := by linarith
      have h4 := mul_le_mul h3 (show 1 + uro ≤ 2 by linarith) (by linarith) (by norm_num)
      have hmax := pow_le_max (n := 60) (by norm_num)
      norm_num at hmax
      linarith
    · have := mul_le_mul_of_nonneg_left hEv hu.le
      linarith
  obtain ⟨x1, f1, g1⟩ := key L.cos (Real.cos y.im) (by
    have := L.cos_err y.im
    rw [libm_eps] at this
    exact this.trans (mul_le_of_le_one_right (by linarith) (Real.abs_cos_le_one _))) (Real.abs_cos_le_one _)
  obtain ⟨x2, f2, g2⟩ := key L.sin (Real.sin y.im) (by
    have := L.sin_err y.im
    rw [libm_eps] at this
    exact this.trans (mul_le_of_le_one_right (by linarith) (Real.abs_sin_le_one _))) (Real.abs_sin_le_one _)
  refine ⟨⟨x1, x2⟩, ?_, ?_⟩
  · show C128.exp _ = _
    unfold C128.exp C128.mk'
    dsimp only
    rw [f1, f2]
  · have h1 : ‖(⟨x1, x2⟩ : ℂ) - Complex.exp y‖ ≤ 17 / 12 * (9 * uro) := by
      refine norm_le_of_parts ?_ ?_
      · rw [Complex.sub_re, Complex.exp_re]
        exact g1
      · rw [Complex.sub_im, Complex.exp_im]
        exact g2
    have h2 : ‖Complex.exp y - Complex.exp w‖ ≤ 2 * e := by
      have e1 : Complex.exp y - Complex.exp w = Complex.exp w * (Complex.exp (y - w) - 1) := by
        rw [mul_sub, mul_one, ← Complex.exp_add]
        congr 2
        ring
      rw [e1, norm_mul, Complex.norm_exp, hw, Real.exp_zero, one_mul]
      exact (Complex.norm_exp_sub_one_le (h.trans (by linarith))).trans (by linarith)
    have h3 := norm_sub_le_norm_sub_add_norm_sub (⟨x1, x2⟩ : ℂ) (Complex.exp y) (Complex.exp w)
    linarith

theorem C128.clit_neg_I : (clit (-Complex.I) : C128 L) = C128.mk' L (-Complex.I) := by
  show C128.ofComplex (-Complex.I) = _
  unfold C128.ofComplex C128.mk'
  rw [Complex.neg_re, Complex.neg_im, Complex.I_re, Complex.I_im, neg_zero, F64.ofReal_neg_one, F64.ofReal_zero]

/-- The factor that selects the harmonic. -/
theorem carrier_near {n θ : ℝ} (hn : |n| ≤ 10 ^ 12) (hθ : |θ| ≤ Real.pi) :
    ∃ z, (CplxOps.exp (clit (-Complex.I) * ofR (F64.fin n) * ofR (F64.ofReal θ)) : C128 L) = C128.mk' L z ∧
      ‖z - Complex.exp (-Complex.I * n * θ)‖ ≤ (58 * |n| + 14) * uro := by
  have hu := uro_pos
  have hu' := uro_le
  have he' := eta_lt
  have he := eta_pos
  have hn0 := abs_nonneg n
  have hpi := Real.pi_lt_d2
  have hmax := pow_le_max (n := 60) (by norm_num)
  norm_num at hmax
  obtain ⟨t1, t2, -⟩ := F64.fl (L := L) (x := θ) (M := 315 / 100) (hθ.trans (by linarith)) (by linarith)
  have t3 : |rnd θ| ≤ 316 / 100 := by
    have := abs_sub_abs_le_abs_sub (rnd θ) θ
    linarith
  have hnI : ‖-Complex.I‖ * ‖(n : ℂ)‖ = |n| := by simp
  have hun : 0 ≤ uro * |n| := by positivity
  have hun2 : uro * |n| ≤ 1111 / 10 ^ 19 * |n| := mul_le_mul_of_nonneg_right hu' hn0
  obtain ⟨z1, a1, b1⟩ := C128.mul_err (L := L) (v := -Complex.I) (w := (n : ℂ)) (by rw [hnI]; linarith)
  rw [hnI] at b1
  have n1 : ‖z1‖ ≤ 1001 / 1000 * |n| + 8 * eta := by
    have := norm_sub_norm_le z1 (-Complex.I * n)
    rw [norm_mul, hnI] at this
    linarith
  have nθ : ‖((rnd θ : ℝ) : ℂ)‖ = |rnd θ| := by rw [Complex.norm_real, Real.norm_eq_abs]
  have n2 : ‖z1‖ * |rnd θ| ≤ (1001 / 1000 * |n| + 8 * eta) * (316 / 100) :=
    mul_le_mul n1 t3 (abs_nonneg _) (by positivity)
  obtain ⟨z2, a2, b2⟩ := C128.mul_err (L := L) (v := z1) (w := ((rnd θ : ℝ) : ℂ)) (by rw [nθ]; linarith)
  rw [nθ] at b2
  have hz : ‖z2 - -Complex.I * n * θ‖ ≤ 29 * (uro * |n|) + uro / 1000 := by
    have e1 : z2 - -Complex.I * n * θ =
        (z2 - z1 * (rnd θ : ℝ)) + (z1 - -Complex.I * n) * (rnd θ : ℝ) + -Complex.I * n * ((rnd θ - θ : ℝ) : ℂ) := by
      push_cast
      ring
    rw [e1]
    refine (norm_add_le _ _).trans ?_
    have h0 := norm_add_le (z2 - z1 * (rnd θ : ℝ)) ((z1 - -Complex.I * n) * (rnd θ : ℝ))
    rw [norm_mul (z1 - -Complex.I * n), nθ] at h0
    rw [norm_mul (-Complex.I * n), norm_mul, hnI, Complex.norm_real, Real.norm_eq_abs]
    have h1 := mul_le_mul b1 t3 (abs_nonneg _) (by positivity)
    have h2 := mul_le_mul_of_nonneg_left t2 hn0
    have h3 := mul_le_mul_of_nonneg_left n2 (show 0 ≤ 4 * uro by linarith)
    have h4 : |n| * eta ≤ |n| * (uro / 10 ^ 6) := mul_le_mul_of_nonneg_left he'.le hn0
    have h5 : uro * eta ≤ 1 / 10 ^ 6 * eta := mul_le_mul_of_nonneg_right (by linarith) he.le
    linarith
  have hre : (-Complex.I * n * θ : ℂ).re = 0 := by simp
  obtain ⟨z, a3, b3⟩ := C128.exp_near (L := L) hz (by linarith) hre
  refine ⟨z, ?_, b3.trans (by linarith)⟩
  rw [C128.clit_neg_I, t1]
  show CplxOps.exp (C128.mk' L (-Complex.I) * C128.mk' L (n : ℂ) * C128.mk' L ((rnd θ : ℝ) : ℂ)) = _
  rw [a1, a2, a3]

/-- A term of the sum, before averaging. -/
theorem wave_near {w G E e : ℂ} {ε M δ : ℝ} (hw : ‖w - G‖ ≤ ε) (hE : ‖E - e‖ ≤ δ) (he1 : ‖e‖ = 1) (hδ : δ ≤ 1 / 100)
    (hG : ‖G‖ ≤ M) (hε : ε ≤ M / 10) (hM : Sized M) :
    ∃ z, (C128.mk' L w * C128.mk' L E : C128 L) = C128.mk' L z ∧
      ‖z - G * e‖ ≤ 101 / 100 * ε + δ * M + 5 * uro * M := by
  have hu := uro_pos
  have hMp := hM.pos
  have hMe := hM.eta_le
  have hMm := hM.le_max
  have hε0 := (norm_nonneg _).trans hw
  have hδ0 := (norm_nonneg _).trans hE
  have hwn : ‖w‖ ≤ 11 / 10 * M := by
    have := norm_sub_norm_le w G
    linarith
  have hEn : ‖E‖ ≤ 101 / 100 := by
    have := norm_sub_norm_le E e
    linarith
  have h1 := mul_le_mul hwn hEn (norm_nonneg _) (by positivity)
  obtain ⟨z, a, b⟩ := C128.mul_err (L := L) (v := w) (w := E) (by linarith)
  refine ⟨z, a, ?_⟩
  have h2 : z - G * e = (z - w * E) + (w - G) * E + G * (E - e) := by ring
  rw [h2]
  refine (norm_add_le _ _).trans ?_
  have h3 := norm_add_le (z - w * E) ((w - G) * E)
  rw [norm_mul (w - G)] at h3
  rw [norm_mul]
  have h4 := mul_le_mul hw hEn (norm_nonneg _) hε0
  have h5 := mul_le_mul hG hE (norm_nonneg _) hMp.le
  have h6 := mul_le_mul_of_nonneg_left h1 (show 0 ≤ 4 * uro by linarith)
  have hum : 0 ≤ uro * M := by positivity
  have h7 : uro / 10 ^ 6 * M = 1 / 10 ^ 6 * (uro * M) := by ring
  rw [h7] at hMe
  linarith

/-- The average of two neighbours. -/
theorem pair_near {a b s t : ℂ} {P M : ℝ} (ha : ‖a - s‖ ≤ P) (hb : ‖b - t‖ ≤ P) (hs : ‖s‖ ≤ M) (ht : ‖t‖ ≤ M)
    (hP : P ≤ M / 5) (hM : Sized M) :
    ∃ z, ((C128.mk' L a + C128.mk' L b) / C128.ofReal (.fin 2) : C128 L) = C128.mk' L z ∧
      ‖z - (s + t) / 2‖ ≤ P + 8 * uro * M := by
  have hu := uro_pos
  have hu' := uro_lt
  have hMp := hM.pos
  have hMe := hM.eta_le
  have hMm := hM.le_max
  have hum : 0 ≤ uro * M := by positivity
  have hum2 : uro * M ≤ 1 / 10 ^ 15 * M := mul_le_mul_of_nonneg_right hu'.le hMp.le
  have h7 : uro / 10 ^ 6 * M = 1 / 10 ^ 6 * (uro * M) := by ring
  rw [h7] at hMe
  have han : ‖a‖ ≤ 12 / 10 * M := by
    have := norm_sub_norm_le a s
    linarith
  have hbn : ‖b‖ ≤ 12 / 10 * M := by
    have := norm_sub_norm_le b t
    linarith
  obtain ⟨z1, a1, b1⟩ := C128.add_err (L := L) (v := a) (w := b) (by linarith)
  have h1 := mul_le_mul_of_nonneg_left (add_le_add han hbn) (show 0 ≤ 2 * uro by linarith)
  have b1' : ‖z1 - (a + b)‖ ≤ 5 * (uro * M) := by linarith
  have hz1 : ‖z1‖ ≤ 25 / 10 * M := by
    have := norm_sub_norm_le z1 (a + b)
    have := norm_add_le a b
    linarith
  have h2 := mul_le_mul_of_nonneg_left hz1 (show 0 ≤ 4 * uro by linarith)
  obtain ⟨z2, a2, b2⟩ := (cplxArith L).half (C128.mk' L z1) z1 rfl (by linarith)
  have a3 : (C128.ofReal (.fin 2) : C128 L) = clit 2 := by
    rw [C128.clit_two]
    unfold C128.ofReal C128.mk'
    rw [Complex.re_ofNat, Complex.im_ofNat]
  refine ⟨z2, by rw [a1, a3]; exact a2, ?_⟩
  have n2 : ∀ x : ℂ, ‖x / 2‖ = ‖x‖ / 2 := fun x => by rw [norm_div, Complex.norm_ofNat]
  rw [n2] at b2
  have e1 : z2 - (s + t) / 2 = (z2 - z1 / 2) + (z1 - (a + b)) / 2 + ((a - s) + (b - t)) / 2 := by ring
  rw [e1]
  refine (norm_add_le _ _).trans ?_
  have h3 := norm_add_le (z2 - z1 / 2) ((z1 - (a + b)) / 2)
  rw [n2] at h3 ⊢
  have h4 := norm_add_le (a - s) (b - t)
  linarith

/-- The sum of a list. -/
theorem sum_near {y : ℕ → C128 L} {t : ℕ → ℂ} {e M : ℝ} {N : ℕ} (hN : (N : ℝ) ≤ 10 ^ 12) (hM : Sized M)
    (hMN : Sized (N * M))
    (hy : ∀ k < N, ∃ z, y k = C128.mk' L z ∧ ‖z - t k‖ ≤ e) (ht : ∀ k < N, ‖t k‖ ≤ M) (he : e ≤ M / 4) :
    ∀ n ≤ N, ∃ z, C128.sum ((List.range n).map y) = C128.mk' L z ∧
      ‖z - ∑ k ∈ range n, t k‖ ≤ n * (e + 3 * N * uro * M) ∧ ‖∑ k ∈ range n, t k‖ ≤ n * M := by
  have hu := uro_pos
  have hu' := uro_le
  have hMp := hM.pos
  have hMe := hM.eta_le
  have hMm := hMN.le_max
  have hMNp := hMN.pos
  have hum : 0 ≤ uro * M := by positivity
  intro n hn
  induction n with
  | zero => exact ⟨0, rfl, by simp, by simp⟩
  | succ n ih =>
    obtain ⟨z, a, b, c⟩ := ih (by omega)
    obtain ⟨x, a', b'⟩ := hy n (by omega)
    have c' := ht n (by omega)
    have hn' : ((n : ℝ) + 1) ≤ N := by exact_mod_cast hn
    have hn0 : (0 : ℝ) ≤ n := n.cast_nonneg
    have hNu : (N : ℝ) * uro * M ≤ 1 / 1000 * M :=
      mul_le_mul_of_nonneg_right (by nlinarith) hMp.le
    have hx : ‖x‖ ≤ 13 / 10 * M := by
      have := norm_sub_norm_le x (t n)
      linarith
    have hz : ‖z‖ ≤ 13 / 10 * (n * M) := by
      have h1 := norm_sub_norm_le z (∑ k ∈ range n, t k)
      have h2 : n * (e + 3 * N * uro * M) ≤ n * (26 / 100 * M) := mul_le_mul_of_nonneg_left (by linarith) hn0
      have h3 := mul_nonneg hn0 hMp.le
      linarith
    have hsum : ‖z‖ + ‖x‖ ≤ 13 / 10 * (N * M) := by
      have := mul_le_mul_of_nonneg_right hn' hMp.le
      linarith
    obtain ⟨s, a2, b2⟩ := C128.add_err (L := L) (v := z) (w := x) (by linarith)
    refine ⟨s, ?_, ?_, ?_⟩
    · unfold C128.sum at a ⊢
      rw [List.range_succ, List.map_append, List.foldl_append, a]
      simp only [List.map_cons, List.map_nil, List.foldl_cons, List.foldl_nil]
      rw [a', a2]
    · rw [sum_range_succ]
      have e1 : s - (∑ k ∈ range n, t k + t n) = (s - (z + x)) + ((z - ∑ k ∈ range n, t k) + (x - t n)) := by ring
      rw [e1]
      refine (norm_add_le _ _).trans ?_
      have h3 := norm_add_le (z - ∑ k ∈ range n, t k) (x - t n)
      have h4 := mul_le_mul_of_nonneg_left hsum (show 0 ≤ 2 * uro by linarith)
      have h5 : uro / 10 ^ 6 * M ≤ 1 / 10 ^ 6 * (N * (uro * M)) := by
        have := mul_le_mul_of_nonneg_right (show 1 ≤ (N : ℝ) by linarith) hum
        linarith
      have hNuM : 0 ≤ (N : ℝ) * (uro * M) := mul_nonneg (by linarith) hum
      push_cast
      linarith
    · rw [sum_range_succ]
      refine (norm_add_le _ _).trans ?_
      push_cast
      linarith

theorem phase_abs {N k : ℕ} (hk : k ≤ N) : |phase N k| ≤ Real.pi := by
  have hpi := Real.pi_pos
  rcases Nat.eq_zero_or_pos N with rfl | hN
  · obtain rfl : k = 0 := by omega
    simp [phase, abs_of_pos hpi]
  have hN' : (0 : ℝ) < N := by exact_mod_cast hN
  have h1 : (k : ℝ) / N ≤ 1 := (div_le_one hN').2 (by exact_mod_cast hk)
  have h2 : 0 ≤ (k : ℝ) / N := by positivity
  have h3 : phase N k = Real.pi * (2 * (k / N) - 1) := by unfold phase; ring
  rw [h3, abs_mul, abs_of_pos hpi]
  exact mul_le_of_le_one_right hpi.le (abs_le.2 ⟨by linarith, by linarith⟩)

theorem C128.trapz_range (y : ℕ → C128 L) (N : ℕ) :
    C128.trapz ((List.range (N + 1)).map y) =
      C128.sum ((List.range N).map fun k => (y (k + 1) + y k) / C128.ofReal (.fin 2)) := by
  unfold C128.trapz
  congr 1
  apply List.ext_getElem
  · simp
  · intro i h1 h2
    simp

theorem wave_norm {g : ℝ → ℂ} {x0 A n θ M : ℝ} (h : ‖g (x0 + Real.cos θ * A)‖ ≤ M) : ‖wave g x0 A n θ‖ ≤ M := by
  unfold wave
  rw [norm_mul, Complex.norm_exp]
  simpa using h

/-- The whole of `demod`: the errors `ε` of the function enter as they are, and the demodulation adds rounding errors
that grow with the harmonic and with the number of trapezia. -/
theorem demod_near (cfg : Env) {f : F64 L → PyM (C128 L)} {g : ℝ → ℂ} {x0 A n ε M : ℝ} {nT : Option ℕ}
    (hA : 0 ≤ A) (hs : Sized (|x0| + A)) (hn : |n| ≤ 10 ^ 12) (hN0 : 1 ≤ nT.getD cfg.defaults.nTrapz)
    (hN : ((nT.getD cfg.defaults.nTrapz : ℕ) : ℝ) ≤ 10 ^ 12) (hM : Sized M)
    (hMN : Sized ((nT.getD cfg.defaults.nTrapz : ℕ) * M)) (hε : ε ≤ M / 10)
    (hf : ∀ θ x, |x - (x0 + Real.cos θ * A)| ≤ 11 * uro * (|x0| + A) →
      ∃ w, f (.fin x) = .ok (C128.mk' L w) ∧ ‖w - g (x0 + Real.cos θ * A)‖ ≤ ε)
    (hg : ∀ θ, ‖g (x0 + Real.cos θ * A)‖ ≤ M) :
    ∃ z, demod cfg f (.fin x0) (.fin A) (.fin n) nT = .ok (C128.mk' L z) ∧
      ‖z - demodSum g x0 A n (nT.getD cfg.defaults.nTrapz)‖ ≤
        101 / 100 * ε + (58 * |n| + 3 * (nT.getD cfg.defaults.nTrapz : ℕ) + 120) * uro * M + uro ^ 3 := by
  unfold demod
  generalize nT.getD cfg.defaults.nTrapz = N at *
  have hu := uro_pos
  have hu' := uro_le
  have hMp := hM.pos
  have hMm := hM.le_max
  have hMNp := hMN.pos
  have hMNm := hMN.le_max
  have hn0 := abs_nonneg n
  have hN1 : (1 : ℝ) ≤ N := by exact_mod_cast hN0
  have hum : 0 ≤ uro * M := by positivity
  have hε0 : 0 ≤ ε := by
    obtain ⟨w, -, hw⟩ := hf 0 (x0 + Real.cos 0 * A) (by
      rw [sub_self, abs_zero]
      have := hs.pos
      positivity)
    exact (norm_nonneg _).trans hw
  -- the probe
  obtain ⟨w0, hw0, -⟩ := hf (Real.pi / 2) (rnd x0) (by
    rw [Real.cos_pi_div_two, zero_mul, add_zero]
    refine (rnd_err x0).trans ?_
    have h1 := hs.eta_le
    have h2 := mul_nonneg hu.le hA
    have h3 := mul_nonneg hu.le (abs_nonneg x0)
    linarith)
  have hp : (F64.fin x0 + lit 0 * F64.fin A : F64 L) = .fin (rnd x0) := by
    show F64.fin x0 + F64.ofReal 0 * F64.fin A = _
    rw [F64.ofReal_zero, F64.fin_mul, zero_mul, F64.ofReal_zero, F64.fin_add, add_zero]
    refine F64.ofReal_fin ?_
    have h1 := hs.le_max
    have h2 := hs.eta_le
    have h3 : uro / 10 ^ 6 * (|x0| + A) ≤ 1 * (|x0| + A) :=
      mul_le_mul_of_nonneg_right (by linarith) hs.pos.le
    have h4 : |x0| * (1 + uro) ≤ |x0| * 2 := mul_le_mul_of_nonneg_left (by linarith) (abs_nonneg _)
    linarith [abs_nonneg x0]
  -- the values of the integrand
  set P := 101 / 100 * ε + (58 * |n| + 14) * uro * M + 5 * uro * M with hPdef
  have hδ : (58 * |n| + 14) * uro ≤ 1 / 100 := by nlinarith
  have hval : ∀ k, ∃ z, k ≤ N → (do
        let fx ← f (F64.fin x0 + RealOps.cos (F64.ofReal (phase N k)) * F64.fin A)
        pure (fx * CplxOps.exp (clit (-Complex.I) * ofR (F64.fin n) * ofR (F64.ofReal (phase N k)))) : PyM (C128 L)) =
          .ok (C128.mk' L z) ∧ ‖z - wave g x0 A n (phase N k)‖ ≤ P := fun k => by
    by_cases hk : k ≤ N
    · obtain ⟨x, hx, ex⟩ := point_near (L := L) hA (phase_abs hk) hs
      obtain ⟨w, hw, ew⟩ := hf _ x ex
      obtain ⟨E, hE, eE⟩ := carrier_near (L := L) hn (phase_abs hk)
      obtain ⟨z, hz, ez⟩ := wave_near (L := L) ew eE (by rw [Complex.norm_exp]; simp) hδ (hg _) hε hM
      refine ⟨z, fun _ => ⟨?_, ez⟩⟩
      rw [hx, hw, PyM.ok_bind, hE, hz]
      rfl
    · exact ⟨0, fun h => absurd h hk⟩
  choose z hz using hval
  have hPM : P ≤ M / 5 := by
    have h1 := mul_le_mul_of_nonneg_right hδ hMp.le
    have h2 : uro * M ≤ 1 / 1000 * M := mul_le_mul_of_nonneg_right (by linarith) hMp.le
    rw [hPdef]
    linarith
  have hmap : (thetaGrid N).mapM (fun θ => (do
        let fx ← f (F64.fin x0 + RealOps.cos (F64.ofReal θ) * F64.fin A)
        pure (fx * CplxOps.exp (clit (-Complex.I) * ofR (F64.fin n) * ofR (F64.ofReal θ))) : PyM (C128 L))) =
      .ok ((List.range (N + 1)).map fun k => C128.mk' L (z k)) := by
    rw [thetaGrid_eq, List.mapM_map]
    refine mapM_ok _ _ _ fun k hk => ?_
    exact (hz k (by have := List.mem_range.1 hk; omega)).1
  obtain ⟨S, hS, eS, nS⟩ := sum_near (L := L) (e := P + 8 * uro * M) (M := M) (N := N)
    (y := fun k => (C128.mk' L (z (k + 1)) + C128.mk' L (z k)) / C128.ofReal (.fin 2))
    (t := fun k => (wave g x0 A n (phase N (k + 1)) + wave g x0 A n (phase N k)) / 2) hN hM hMN
    (fun k hk => pair_near (hz (k + 1) (by omega)).2 (hz k (by omega)).2 (wave_norm (hg _)) (wave_norm (hg _)) hPM hM)
    (fun k hk => by
      rw [norm_div, Complex.norm_ofNat]
      have h1 := norm_add_le (wave g x0 A n (phase N (k + 1))) (wave g x0 A n (phase N k))
      have h2 : ‖wave g x0 A n (phase N (k + 1))‖ ≤ M := wave_norm (hg _)
      have h3 : ‖wave g x0 A n (phase N k)‖ ≤ M := wave_norm (hg _)
      linarith)
    (by
      have h2 : uro * M ≤ 1 / 1000 * M := mul_le_mul_of_nonneg_right (by linarith) hMp.le
      linarith) N le_rfl
  have hNc : ‖(N : ℂ)‖ = N := by simp
  have hNn : (0 : ℝ) < N := by linarith
  have hNu : (N : ℝ) * uro * M ≤ 1 / 1000 * M := mul_le_mul_of_nonneg_right (by nlinarith) hMp.le
  have hum2 : uro * M ≤ 1 / 1000 * M := mul_le_mul_of_nonneg_right (by linarith) hMp.le
  have hSn : ‖S‖ ≤ N * (13 / 10 * M) := by
    have h1 := norm_sub_norm_le S (∑ k ∈ range N, (wave g x0 A n (phase N (k + 1)) + wave g x0 A n (phase N k)) / 2)
    have h2 : N * (P + 8 * uro * M + 3 * N * uro * M) ≤ N * (3 / 10 * M) :=
      mul_le_mul_of_nonneg_left (by linarith) hNn.le
    linarith
  have hSN : ‖S‖ / N ≤ 13 / 10 * M := by
    rw [div_le_iff₀ hNn]
    linarith
  have hu3 := uro3_tiny
  have hmax := pow_le_max (n := 60) (by norm_num)
  norm_num at hmax
  have hSN0 : 0 ≤ ‖S‖ / N := by positivity
  obtain ⟨r, hr, er⟩ := C128.div_err (L := L) (v := S) (w := (N : ℂ))
    (by
      rw [hNc]
      exact (pow_le_one₀ (by norm_num) (by norm_num)).trans hN1)
    (by linarith) (by rw [hNc]; linarith) (by
      rw [hNc]
      have h1 : ‖S‖ / N * (1 + 64 * uro) ≤ ‖S‖ / N * 2 := mul_le_mul_of_nonneg_left (by linarith) hSN0
      rcases le_or_gt 1 M with h | h <;> linarith)
  rw [hNc] at er
  refine ⟨r, ?_, ?_⟩
  · rw [hp, hw0, PyM.ok_bind]
    have ht : (CplxOps.trapz0 (thetaGrid N) [.inr (C128.mk' L w0), .inl (F64.fin n)] fun theta => (do
        let fx ← f (F64.fin x0 + RealOps.cos theta * F64.fin A)
        pure (fx * CplxOps.exp (clit (-Complex.I) * ofR (F64.fin n) * ofR theta)) : PyM (C128 L))) =
        (.ok (C128.mk' L S) : PyM (C128 L)) := by
      show ((thetaGrid N).mapM _ >>= fun vals => pure (C128.trapz vals)) = _
      rw [hmap, PyM.ok_bind, C128.trapz_range, hS]
      rfl
    rw [ht, PyM.ok_bind]
    have hcl : (clit (N : ℂ) : C128 L) = C128.mk' L (N : ℂ) := by
      obtain ⟨x, hx, ex⟩ := F64.near_nat (L := L) N (by
        have : (N : ℝ) ≤ 2 ^ 53 := hN.trans (by norm_num)
        exact_mod_cast this)
      rw [zero_mul, zero_mul] at ex
      have hxN : x = N := sub_eq_zero.1 (abs_nonpos_iff.1 ex)
      subst hxN
      show C128.ofComplex _ = _
      unfold C128.ofComplex C128.mk'
      rw [Complex.natCast_re, Complex.natCast_im, F64.ofReal_zero]
      exact congrArg (fun a => (⟨a, _⟩ : C128 L)) hx
    rw [hcl, hr]
    rfl
  · unfold demodSum
    set T := ∑ k ∈ range N, (wave g x0 A n (phase N (k + 1)) + wave g x0 A n (phase N k)) / 2
    have e1 : r - T / N = (r - S / N) + (S - T) / N := by ring
    rw [e1]
    refine (norm_add_le _ _).trans ?_
    have h1 : ‖(S - T) / N‖ ≤ P + 8 * uro * M + 3 * N * uro * M := by
      rw [norm_div, hNc, div_le_iff₀ hNn]
      linarith
    have h2 := mul_le_mul_of_nonneg_left hSN (show 0 ≤ 64 * uro by linarith)
    rw [hPdef] at h1
    linarith

end Snompy
