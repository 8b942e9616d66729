import Verif.Lemmas.DoubleSigns
import Verif.Lemmas.DoubleNear
import Verif.Lemmas.FarClassic
import Verif.Lemmas.FarPassive

/-!
# The far field of bulk samples in double precision
-/

namespace Snompy

variable {L : Libm}

theorem csqrt_sq (z : ℂ) : Complex.sqrt z ^ 2 = z := by
  have := kz_sq 1 0 z
  unfold kz at this
  simpa using this

/-- The square root of a number in the closed upper half plane is in the first quadrant. -/
theorem csqrt_im_nonneg {z : ℂ} (h : 0 ≤ z.im) : 0 ≤ (Complex.sqrt z).im := by
  rw [Complex.sqrt_eq_real_add_ite]
  simp only [Complex.add_im, Complex.mul_im, Complex.ofReal_re, Complex.ofReal_im, Complex.I_re, Complex.I_im]
  rw [if_pos h]
  simp
  positivity

/-- In the closed upper half plane the square root is stable. -/
theorem csqrt_stable {w z : ℂ} {δ : ℝ} (hw : 0 ≤ w.im) (hz : 0 ≤ z.im) (h0 : w ≠ 0) (h : ‖z - w‖ ≤ δ * ‖w‖) :
    ‖Complex.sqrt z - Complex.sqrt w‖ ≤ δ * ‖Complex.sqrt w‖ := by
  have e1 := csqrt_sq z
  have e2 := csqrt_sq w
  have r1 := csqrt_re_nonneg z
  have r2 := csqrt_re_nonneg w
  have i1 := csqrt_im_nonneg hz
  have i2 := csqrt_im_nonneg hw
  generalize Complex.sqrt z = a at *
  generalize Complex.sqrt w = b at *
  have hb : 0 < ‖b‖ := norm_pos_iff.2 fun hb => h0 (by rw [← e2, hb]; simp)
  have hs : ‖b‖ ≤ ‖a + b‖ := by
    rw [Complex.norm_def, Complex.norm_def]
    refine Real.sqrt_le_sqrt ?_
    simp only [Complex.normSq_apply, Complex.add_re, Complex.add_im]
    nlinarith [mul_nonneg r1 r2, mul_nonneg i1 i2, sq_nonneg a.re, sq_nonneg a.im]
  have hd : ‖a - b‖ * ‖a + b‖ ≤ δ * ‖b‖ * ‖b‖ := by
    rw [← norm_mul, show (a - b) * (a + b) = z - w by rw [← e1, ← e2]; ring]
    refine h.trans (le_of_eq ?_)
    rw [← e2, norm_pow]
    ring
  have h3 : ‖a - b‖ * ‖b‖ ≤ δ * ‖b‖ * ‖b‖ := (mul_le_mul_of_nonneg_left hs (norm_nonneg _)).trans hd
  exact le_of_mul_le_mul_right h3 hb

/-- Product of two approximations. -/
theorem C128.Near.mul {a b : C128 L} {v w : ℂ} {k l : ℝ} (ha : a.Near v k) (hb : b.Near w l) (hk0 : 0 ≤ k) (hl0 : 0 ≤ l)
    (hk : k ≤ 10 ^ 12) (hl : l ≤ 10 ^ 12) (hs : Sized ‖v * w‖) : (a * b).Near (v * w) (101 / 100 * (k + l) + 5) := by
  obtain ⟨x, rfl, hx⟩ := ha
  obtain ⟨y, rfl, hy⟩ := hb
  have hu := uro_pos
  have hu' := uro_lt
  have hku : k * uro ≤ 1 / 1000 := by nlinarith
  have hlu : l * uro ≤ 1 / 1000 := by nlinarith
  have hku0 : 0 ≤ k * uro := by positivity
  have hlu0 : 0 ≤ l * uro := by positivity
  have hP : ‖v * w‖ = ‖v‖ * ‖w‖ := norm_mul _ _
  have hmax := hs.le_max
  have heta := hs.eta_le
  have hpos := hs.pos
  rw [hP] at hmax heta hpos
  have hv0 := norm_nonneg v
  have hw0 := norm_nonneg w
  have nx : ‖x‖ ≤ (1 + k * uro) * ‖v‖ := by
    have := norm_sub_norm_le x v
    linarith
  have ny : ‖y‖ ≤ (1 + l * uro) * ‖w‖ := by
    have := norm_sub_norm_le y w
    linarith
  have nxy : ‖x‖ * ‖y‖ ≤ 101 / 100 * (‖v‖ * ‖w‖) := by
    refine (mul_le_mul nx ny (norm_nonneg _) (by positivity)).trans ?_
    have : (1 + k * uro) * (1 + l * uro) ≤ 101 / 100 := by nlinarith
    calc (1 + k * uro) * ‖v‖ * ((1 + l * uro) * ‖w‖) = (1 + k * uro) * (1 + l * uro) * (‖v‖ * ‖w‖) := by ring
      _ ≤ 101 / 100 * (‖v‖ * ‖w‖) := mul_le_mul_of_nonneg_right this hpos.le
  obtain ⟨z, h1, h2⟩ := C128.mul_err (L := L) (v := x) (w := y) (by linarith)
  refine ⟨z, h1, ?_⟩
  have e : z - v * w = (z - x * y) + ((x - v) * y + v * (y - w)) := by ring
  rw [e, hP]
  refine (norm_add_le _ _).trans ?_
  have t1 : ‖(x - v) * y + v * (y - w)‖ ≤ 101 / 100 * (k + l) * uro * (‖v‖ * ‖w‖) := by
    refine (norm_add_le _ _).trans ?_
    rw [norm_mul, norm_mul]
    have a1 : ‖x - v‖ * ‖y‖ ≤ k * uro * ‖v‖ * ((1 + l * uro) * ‖w‖) :=
      mul_le_mul hx ny (norm_nonneg _) (by positivity)
    have a2 : ‖v‖ * ‖y - w‖ ≤ ‖v‖ * (l * uro * ‖w‖) := mul_le_mul_of_nonneg_left hy hv0
    have a3 : k * uro * (l * uro) ≤ k * uro * (1 / 1000) := mul_le_mul_of_nonneg_left hlu hku0
    have a4 : k * uro * ‖v‖ * ((1 + l * uro) * ‖w‖) + ‖v‖ * (l * uro * ‖w‖) =
        (k * uro + l * uro + k * uro * (l * uro)) * (‖v‖ * ‖w‖) := by ring
    have a5 : (k * uro + l * uro + k * uro * (l * uro)) * (‖v‖ * ‖w‖) ≤ 101 / 100 * (k + l) * uro * (‖v‖ * ‖w‖) :=
      mul_le_mul_of_nonneg_right (by nlinarith) hpos.le
    linarith
  have t2 : 4 * uro * (‖x‖ * ‖y‖) ≤ 4 * uro * (101 / 100 * (‖v‖ * ‖w‖)) := mul_le_mul_of_nonneg_left nxy (by positivity)
  have t3 : 0 ≤ uro * (‖v‖ * ‖w‖) := by positivity
  have t4 : (101 / 100 * (k + l) + 5) * uro * (‖v‖ * ‖w‖) = 101 / 100 * (k + l) * uro * (‖v‖ * ‖w‖) + 5 * (uro * (‖v‖ * ‖w‖)) := by ring
  rw [t4]
  nlinarith

/-- Sizes of wavenumbers and permittivities: `10⁻¹⁸ … 10¹⁸`. -/
def Usual (x : ℝ) : Prop := (1 / 2) ^ 60 ≤ x ∧ x ≤ 2 ^ 60

theorem eta_le' : eta ≤ uro * (1 / 2) ^ 250 * (1 / 2) ^ 100 := by
  refine eta_le.trans ?_
  rw [div_eq_mul_inv, mul_assoc, ← pow_add, ← one_div, ← one_div_pow]
  exact mul_le_mul_of_nonneg_left (pow_le_pow_of_le_one (by norm_num) (by norm_num) (by norm_num)) uro_pos.le

theorem F64.near_npow_two {x : ℝ} (hx : |x| ≤ 2 ^ 60) :
    ∃ y, (RealOps.npow (F64.fin x) 2 : F64 L) = .fin y ∧ 0 ≤ y ∧ |y - x ^ 2| ≤ uro * x ^ 2 + eta := by
  refine ⟨rnd (x ^ 2), ?_, rnd_nonneg (sq_nonneg x), ?_⟩
  · show (F64.ofReal (x ^ 2) : F64 L) = _
    refine F64.ofReal_fin ?_
    have h1 : |x ^ 2| ≤ 2 ^ 120 := by
      rw [abs_pow, show (120 : ℕ) = 60 * 2 from rfl, pow_mul]
      exact pow_le_pow_left₀ (abs_nonneg _) hx 2
    have h2 := pow_le_max (n := 121) (by norm_num)
    have h3 : (2 : ℝ) ^ 121 = 2 * 2 ^ 120 := by norm_num
    have h4 : (1 : ℝ) ≤ 2 ^ 120 := one_le_pow₀ (by norm_num)
    have hu' := uro_lt
    have hu := uro_pos
    have he := eta_lt
    nlinarith
  · have := rnd_err (x ^ 2)
    rwa [abs_of_nonneg (sq_nonneg x)] at this

theorem C128.im_mul_ofReal {e : ℂ} {x : ℝ} {z : ℂ} (he : 0 ≤ e.im) (hx : 0 ≤ x)
    (h : (C128.mk' L e * C128.mk' L (x : ℂ) : C128 L) = C128.mk' L z) : 0 ≤ z.im := by
  have h1 : (F64.fin e.re * F64.fin (x : ℂ).im + F64.fin e.im * F64.fin (x : ℂ).re : F64 L) = .fin z.im := congrArg C128.im h
  rw [Complex.ofReal_im, Complex.ofReal_re] at h1
  have h2 : (F64.fin e.re * F64.fin 0 + F64.fin e.im * F64.fin x : F64 L).NotNeg := by
    refine F64.NotNeg.add ?_ (F64.NotNeg.mul he hx)
    rw [F64.fin_mul, mul_zero]
    exact F64.ofReal_notNeg le_rfl
  rw [h1] at h2
  exact h2

theorem C128.im_sub_ofReal {w : ℂ} {x : ℝ} {z : ℂ} (hw : 0 ≤ w.im)
    (h : (C128.mk' L w - C128.mk' L (x : ℂ) : C128 L) = C128.mk' L z) : 0 ≤ z.im := by
  have h1 : (F64.fin w.im - F64.fin (x : ℂ).im : F64 L) = .fin z.im := congrArg C128.im h
  rw [Complex.ofReal_im] at h1
  have h2 : (F64.fin w.im - F64.fin 0 : F64 L).NotNeg := F64.NotNeg.sub hw (show (0 : ℝ) ≤ 0 from le_rfl)
  rw [h1] at h2
  exact h2

/-- Error of the argument of the square root. -/
theorem near_arg {e : ℂ} {nu q : ℝ} (he : 0 ≤ e.im) (hes : Usual ‖e‖) (hnu : Usual nu) (hq : |q| ≤ 2 ^ 60) :
    ∃ z : ℂ, (C128.mk' L e * CplxOps.ofR (RealOps.npow (F64.fin nu) 2) - CplxOps.ofR (RealOps.npow (F64.fin q) 2) : C128 L) = C128.mk' L z ∧
      0 ≤ z.im ∧ ‖z - (e * (nu : ℂ) ^ 2 - (q : ℂ) ^ 2)‖ ≤ 8 * uro * (‖e‖ * nu ^ 2 + q ^ 2) := by
  have hu := uro_pos
  have hu' := uro_lt
  have hnu0 : 0 < nu := lt_of_lt_of_le (by positivity) hnu.1
  have heta := eta_pos
  obtain ⟨a, a1, a0, a2⟩ := F64.near_npow_two (L := L) (x := nu) (by rw [abs_of_pos hnu0]; exact hnu.2)
  obtain ⟨b, b1, b0, b2⟩ := F64.near_npow_two (L := L) hq
  rw [a1, b1]
  change ∃ z : ℂ, (C128.mk' L e * C128.mk' L (a : ℂ) - C128.mk' L (b : ℂ) : C128 L) = C128.mk' L z ∧ _
  set A := ‖e‖ * nu ^ 2 with hA
  have hE : ‖e‖ * eta ≤ uro / 10 ^ 6 * A ∧ eta ≤ uro / 10 ^ 6 * A := by
    have h2 : (1 / 2 : ℝ) ^ 180 ≤ A := by
      rw [hA, show (180 : ℕ) = 60 + 60 * 2 from rfl, pow_add, pow_mul]
      exact mul_le_mul hes.1 (pow_le_pow_left₀ (by positivity) hnu.1 2) (by positivity) (norm_nonneg _)
    have h3 : 2 ^ 60 * (uro * (1 / 2) ^ 250 * (1 / 2) ^ 100) ≤ uro / 10 ^ 6 * (1 / 2) ^ 180 := by
      have : (2 : ℝ) ^ 60 * (1 / 2) ^ 250 * (1 / 2) ^ 100 ≤ 1 / 10 ^ 6 * (1 / 2) ^ 180 := by norm_num
      nlinarith
    have h4 : uro / 10 ^ 6 * (1 / 2) ^ 180 ≤ uro / 10 ^ 6 * A := mul_le_mul_of_nonneg_left h2 (div_nonneg hu.le (by norm_num))
    have h5 : ‖e‖ * eta ≤ 2 ^ 60 * (uro * (1 / 2) ^ 250 * (1 / 2) ^ 100) := mul_le_mul hes.2 eta_le' heta.le (by positivity)
    have h6 : eta ≤ 2 ^ 60 * eta := le_mul_of_one_le_left heta.le (one_le_pow₀ (by norm_num))
    have h7 : 2 ^ 60 * eta ≤ 2 ^ 60 * (uro * (1 / 2) ^ 250 * (1 / 2) ^ 100) := mul_le_mul_of_nonneg_left eta_le' (by positivity)
    generalize (uro * (1 / 2) ^ 250 * (1 / 2) ^ 100 : ℝ) = Z at *
    constructor <;> linarith
  obtain ⟨hE1, hE2⟩ := hE
  have hAmax : A ≤ 2 ^ 180 := by
    rw [hA, show (180 : ℕ) = 60 + 60 * 2 from rfl, pow_add, pow_mul]
    exact mul_le_mul hes.2 (pow_le_pow_left₀ hnu0.le hnu.2 2) (by positivity) (by positivity)
  have hA0 : 0 ≤ A := by positivity
  have hBmax : q ^ 2 ≤ 2 ^ 180 := by
    rw [← sq_abs]
    calc |q| ^ 2 ≤ (2 ^ 60) ^ 2 := pow_le_pow_left₀ (abs_nonneg _) hq 2
      _ ≤ 2 ^ 180 := by norm_num
  have hB0 : 0 ≤ q ^ 2 := sq_nonneg q
  have hM : (2 : ℝ) ^ 190 ≤ maxDouble := pow_le_max (by norm_num)
  have hM2 : (2 : ℝ) ^ 190 = 1024 * 2 ^ 180 := by norm_num
  have hea : |‖e‖ * a - A| ≤ uro * A + ‖e‖ * eta := by
    rw [hA, ← mul_sub, abs_mul, abs_of_nonneg (norm_nonneg e)]
    have := mul_le_mul_of_nonneg_left a2 (norm_nonneg e)
    linarith
  have hea' := abs_le.1 hea
  have hb' := abs_le.1 b2
  have hna : ‖(a : ℂ)‖ = a := by rw [Complex.norm_real, Real.norm_eq_abs, abs_of_nonneg a0]
  have hnb : ‖(b : ℂ)‖ = b := by rw [Complex.norm_real, Real.norm_eq_abs, abs_of_nonneg b0]
  have huA : uro * A ≤ 1 / 10 ^ 15 * A := mul_le_mul_of_nonneg_right hu'.le hA0
  have huB : uro * q ^ 2 ≤ 1 / 10 ^ 15 * q ^ 2 := mul_le_mul_of_nonneg_right hu'.le hB0
  obtain ⟨p, p1, p2⟩ := C128.mul_err (L := L) (v := e) (w := (a : ℂ)) (by rw [hna]; linarith)
  rw [hna] at p2
  have pim := C128.im_mul_ofReal he a0 p1
  have hpn : ‖p‖ ≤ 101 / 100 * A := by
    have h1 := norm_sub_norm_le p (e * (a : ℂ))
    rw [norm_mul, hna] at h1
    have : 4 * uro * (‖e‖ * a) ≤ 4 / 10 ^ 15 * (‖e‖ * a) :=
      mul_le_mul_of_nonneg_right (by linarith) (mul_nonneg (norm_nonneg _) a0)
    linarith
  obtain ⟨z, z1, z2⟩ := C128.sub_err (L := L) (v := p) (w := (b : ℂ)) (by rw [hnb]; linarith)
  rw [p1]
  refine ⟨z, z1, C128.im_sub_ofReal pim z1, ?_⟩
  rw [hnb] at z2
  have hs : z - (e * (nu : ℂ) ^ 2 - (q : ℂ) ^ 2) =
      (z - (p - b)) + ((p - e * a) + (e * ((a - nu ^ 2 : ℝ) : ℂ) - ((b - q ^ 2 : ℝ) : ℂ))) := by
    push_cast
    ring
  rw [hs]
  have n1 : ‖e * ((a - nu ^ 2 : ℝ) : ℂ)‖ ≤ uro * A + ‖e‖ * eta := by
    rw [norm_mul, Complex.norm_real, Real.norm_eq_abs]
    have := mul_le_mul_of_nonneg_left a2 (norm_nonneg e)
    rw [hA]
    linarith
  have n2 : ‖((b - q ^ 2 : ℝ) : ℂ)‖ ≤ uro * q ^ 2 + eta := by
    rw [Complex.norm_real, Real.norm_eq_abs]
    exact b2
  have n3 := norm_add_le (z - (p - b)) ((p - e * a) + (e * ((a - nu ^ 2 : ℝ) : ℂ) - ((b - q ^ 2 : ℝ) : ℂ)))
  have n4 := norm_add_le (p - e * a) (e * ((a - nu ^ 2 : ℝ) : ℂ) - ((b - q ^ 2 : ℝ) : ℂ))
  have n5 := norm_sub_le (e * ((a - nu ^ 2 : ℝ) : ℂ)) ((b - q ^ 2 : ℝ) : ℂ)
  have m1 : 4 * uro * (‖e‖ * a) ≤ 4 * uro * (101 / 100 * A) := mul_le_mul_of_nonneg_left (by linarith) (mul_nonneg (by norm_num) hu.le)
  have m2 : 2 * uro * (‖p‖ + b) ≤ 2 * uro * (101 / 100 * A + (101 / 100 * q ^ 2 + eta)) :=
    mul_le_mul_of_nonneg_left (by linarith) (mul_nonneg (by norm_num) hu.le)
  have m3 : uro * eta ≤ eta := mul_le_of_le_one_left heta.le (by linarith)
  nlinarith [mul_nonneg hu.le hA0, mul_nonneg hu.le hB0]

/-- The wavevector in a layer. -/
theorem near_kz {e : ℂ} {nu q K : ℝ} (he : 0 ≤ e.im) (hes : Usual ‖e‖) (hnu : Usual nu) (hq : |q| ≤ 2 ^ 60) (hK1 : 1 ≤ K) (hK : K ≤ 10 ^ 9)
    (hc : ‖e‖ * nu ^ 2 + q ^ 2 ≤ K * ‖e * (nu : ℂ) ^ 2 - (q : ℂ) ^ 2‖) :
    (CplxOps.sqrt (C128.mk' L e * CplxOps.ofR (RealOps.npow (F64.fin nu) 2) - CplxOps.ofR (RealOps.npow (F64.fin q) 2)) : C128 L).Near (kz nu q e) (10 * K) ∧
      (1 / 2) ^ 110 ≤ ‖kz nu q e‖ ∧ ‖kz nu q e‖ ≤ 2 ^ 91 := by
  have hu := uro_pos
  have hu' := uro_lt
  have hnu0 : 0 < nu := lt_of_lt_of_le (by positivity) hnu.1
  obtain ⟨z, h1, h2, h3⟩ := near_arg (L := L) he hes hnu hq
  rw [h1]
  set w := e * (nu : ℂ) ^ 2 - (q : ℂ) ^ 2 with hw
  have hwi : 0 ≤ w.im := by
    rw [hw, ← Complex.ofReal_pow, ← Complex.ofReal_pow]
    simp only [Complex.sub_im, Complex.mul_im, Complex.ofReal_im, Complex.ofReal_re]
    have := mul_nonneg he (sq_nonneg nu)
    linarith
  have hlow : (1 / 2 : ℝ) ^ 180 ≤ ‖e‖ * nu ^ 2 := by
    rw [show (180 : ℕ) = 60 + 60 * 2 from rfl, pow_add, pow_mul]
    exact mul_le_mul hes.1 (pow_le_pow_left₀ (by positivity) hnu.1 2) (by positivity) (norm_nonneg _)
  have hwlow : (1 / 2 : ℝ) ^ 220 ≤ ‖w‖ := by
    have a1 : (1 / 2 : ℝ) ^ 180 ≤ K * ‖w‖ := by nlinarith [sq_nonneg q]
    have a2 : K * ‖w‖ ≤ 2 ^ 40 * ‖w‖ := mul_le_mul_of_nonneg_right (hK.trans (by norm_num)) (norm_nonneg _)
    have a3 : (1 / 2 : ℝ) ^ 180 = 2 ^ 40 * (1 / 2) ^ 220 := by norm_num
    rw [a3] at a1
    exact le_of_mul_le_mul_left (a1.trans a2) (by norm_num)
  have hw0 : w ≠ 0 := norm_pos_iff.1 (lt_of_lt_of_le (by positivity) hwlow)
  have hwup : ‖w‖ ≤ 2 ^ 182 := by
    have b1 := norm_sub_le (e * (nu : ℂ) ^ 2) ((q : ℂ) ^ 2)
    rw [norm_mul, norm_pow, norm_pow, Complex.norm_real, Complex.norm_real, Real.norm_eq_abs, Real.norm_eq_abs] at b1
    have b2 : ‖e‖ * |nu| ^ 2 ≤ 2 ^ 60 * (2 ^ 60) ^ 2 := by
      rw [abs_of_pos hnu0]
      exact mul_le_mul hes.2 (pow_le_pow_left₀ hnu0.le hnu.2 2) (by positivity) (by positivity)
    have b3 : |q| ^ 2 ≤ (2 ^ 60) ^ 2 := pow_le_pow_left₀ (abs_nonneg _) hq 2
    have b4 : (2 : ℝ) ^ 60 * (2 ^ 60) ^ 2 + (2 ^ 60) ^ 2 ≤ 2 ^ 182 := by norm_num
    linarith
  have hk2 : ‖kz nu q e‖ ^ 2 = ‖w‖ := by
    rw [← norm_pow, kz_sq]
  have hklow : (1 / 2 : ℝ) ^ 110 ≤ ‖kz nu q e‖ := by
    refine (pow_le_pow_iff_left₀ (by positivity) (by positivity) two_ne_zero).1 ?_
    rw [hk2, ← pow_mul]
    exact hwlow
  have hkup : ‖kz nu q e‖ ≤ 2 ^ 91 := by
    refine (pow_le_pow_iff_left₀ (by positivity) (by positivity) two_ne_zero).1 ?_
    rw [hk2, ← pow_mul]
    exact hwup
  have h4 := csqrt_stable (δ := 8 * uro * K) hwi h2 hw0 (h3.trans (by
    have := mul_le_mul_of_nonneg_left hc (show 0 ≤ 8 * uro from mul_nonneg (by norm_num) hu.le)
    linarith))
  refine ⟨?_, hklow, hkup⟩
  change (C128.ofComplex (Complex.sqrt ⟨z.re, z.im⟩) : C128 L).Near _ _
  change ‖Complex.sqrt z - kz nu q e‖ ≤ 8 * uro * K * ‖kz nu q e‖ at h4
  set s := Complex.sqrt z with hs
  have hKu : uro * K ≤ 1 / 10 ^ 6 := by nlinarith
  have hkp : 0 < ‖kz nu q e‖ := lt_of_lt_of_le (by positivity) hklow
  have hsn : ‖s‖ ≤ 101 / 100 * ‖kz nu q e‖ := by
    have := norm_sub_norm_le s (kz nu q e)
    nlinarith
  have heta : eta ≤ uro / 10 ^ 6 * ‖kz nu q e‖ := by
    have h6 : uro * (1 / 2) ^ 250 * (1 / 2) ^ 100 ≤ uro / 10 ^ 6 * (1 / 2) ^ 110 := by
      have : (1 / 2 : ℝ) ^ 250 * (1 / 2) ^ 100 ≤ 1 / 10 ^ 6 * (1 / 2) ^ 110 := by norm_num
      nlinarith
    have h5 := eta_le'
    have h7 : uro / 10 ^ 6 * (1 / 2) ^ 110 ≤ uro / 10 ^ 6 * ‖kz nu q e‖ := mul_le_mul_of_nonneg_left hklow (div_nonneg hu.le (by norm_num))
    linarith
  have hmax : ∀ x : ℝ, |x| ≤ ‖s‖ → (F64.ofReal x : F64 L) = .fin (rnd x) := by
    intro x hx
    refine F64.ofReal_fin ?_
    have h8 : (2 : ℝ) ^ 100 ≤ maxDouble := pow_le_max (by norm_num)
    have h9 : (2 : ℝ) ^ 100 = 512 * 2 ^ 91 := by norm_num
    have h10 : (1 : ℝ) ≤ 2 ^ 91 := one_le_pow₀ (by norm_num)
    have h11 := eta_lt
    have h12 : |x| * uro ≤ |x| * (1 / 10 ^ 15) := mul_le_mul_of_nonneg_left hu'.le (abs_nonneg _)
    nlinarith
  refine ⟨⟨rnd s.re, rnd s.im⟩, ?_, ?_⟩
  · unfold C128.ofComplex C128.mk'
    rw [hmax _ (Complex.abs_re_le_norm _), hmax _ (Complex.abs_im_le_norm _)]
  · have p1 : |rnd s.re - s.re| ≤ uro * ‖s‖ + eta := (rnd_err _).trans (by
      have := mul_le_mul_of_nonneg_left (Complex.abs_re_le_norm s) hu.le
      linarith)
    have p2 : |rnd s.im - s.im| ≤ uro * ‖s‖ + eta := (rnd_err _).trans (by
      have := mul_le_mul_of_nonneg_left (Complex.abs_im_le_norm s) hu.le
      linarith)
    have p3 : ‖(⟨rnd s.re, rnd s.im⟩ : ℂ) - s‖ ≤ 17 / 12 * (uro * ‖s‖ + eta) :=
      norm_le_of_parts (by rw [Complex.sub_re]; exact p1) (by rw [Complex.sub_im]; exact p2)
    have p4 := norm_sub_le_norm_sub_add_norm_sub (⟨rnd s.re, rnd s.im⟩ : ℂ) s (kz nu q e)
    have p5 : uro * ‖s‖ ≤ uro * (101 / 100 * ‖kz nu q e‖) := mul_le_mul_of_nonneg_left hsn hu.le
    have p6 : uro * ‖kz nu q e‖ ≤ K * (uro * ‖kz nu q e‖) := le_mul_of_one_le_left (mul_nonneg hu.le (norm_nonneg _)) hK1
    nlinarith

/-- An entry of the interface matrix. -/
theorem C128.near_entry {t a : ℂ} {s : ℂ} {c G : ℝ} (hs : (clit s : C128 L) = C128.mk' L s) (hs1 : ‖s‖ = 1) (hc1 : 1 ≤ c) (hc : c ≤ 10 ^ 12)
    (ht : ‖t - a‖ ≤ c * uro * ‖a‖ + uro ^ 3) (hG : ‖a‖ ≤ G) (hG4 : 4 ≤ G) (hmax : G * 8 ≤ maxDouble) :
    ∃ z, ((clit 1 + clit s * C128.mk' L t) / clit 2 : C128 L) = C128.mk' L z ∧
      ‖z - (1 + s * a) / 2‖ ≤ (c + 12) * uro * ((1 + ‖a‖) / 2) := by
  have hu := uro_pos
  have hu' := uro_lt
  have he := eta_lt
  have he0 := eta_pos
  have h3 := Arith.uro3_lt
  have ha := norm_nonneg a
  have hcu : c * uro ≤ 1 / 1000 := by nlinarith
  have htn : ‖t‖ ≤ 1001 / 1000 * ‖a‖ + uro := by
    have := norm_sub_norm_le t a
    nlinarith
  obtain ⟨x, x1, x2⟩ := C128.mul_err (L := L) (v := s) (w := t) (by rw [hs1]; linarith)
  rw [hs1, one_mul] at x2
  have xn : ‖x‖ ≤ 1002 / 1000 * ‖a‖ + 2 * uro := by
    have h := norm_sub_norm_le x (s * t)
    rw [norm_mul, hs1, one_mul] at h
    nlinarith [norm_nonneg t]
  obtain ⟨y, y1, y2⟩ := C128.add_err (L := L) (v := 1) (w := x) (by rw [norm_one]; linarith)
  rw [norm_one] at y2
  have yn : ‖y‖ ≤ 101 / 100 * (1 + ‖a‖) := by
    have h := norm_sub_norm_le y (1 + x)
    have h' := norm_add_le (1 : ℂ) x
    rw [norm_one] at h'
    nlinarith [norm_nonneg x]
  obtain ⟨z, z1, z2⟩ := (cplxArith L).half (C128.mk' L y) y rfl (by nlinarith [norm_nonneg y])
  refine ⟨z, ?_, ?_⟩
  · rw [hs, x1, C128.clit_one, y1]
    exact z1
  · have e : z - (1 + s * a) / 2 = (z - y / 2) + ((y - (1 + x)) / 2 + ((x - s * t) / 2 + s * (t - a) / 2)) := by ring
    rw [e]
    have n2 : ‖(2 : ℂ)‖ = 2 := by simp
    have m1 := norm_add_le (z - y / 2) ((y - (1 + x)) / 2 + ((x - s * t) / 2 + s * (t - a) / 2))
    have m2 := norm_add_le ((y - (1 + x)) / 2) ((x - s * t) / 2 + s * (t - a) / 2)
    have m3 := norm_add_le ((x - s * t) / 2) (s * (t - a) / 2)
    rw [norm_div, n2] at z2
    rw [norm_div, n2] at m2
    rw [norm_div, norm_div, norm_mul, hs1, n2, one_mul] at m3
    have b1 : uro * ‖y‖ ≤ uro * (101 / 100 * (1 + ‖a‖)) := mul_le_mul_of_nonneg_left yn hu.le
    have b2 : uro * ‖x‖ ≤ uro * (1002 / 1000 * ‖a‖ + 2 * uro) := mul_le_mul_of_nonneg_left xn hu.le
    have b3 : uro * ‖t‖ ≤ uro * (1001 / 1000 * ‖a‖ + uro) := mul_le_mul_of_nonneg_left htn hu.le
    have b4 : uro * uro ≤ uro * (1 / 10 ^ 15) := mul_le_mul_of_nonneg_left hu'.le hu.le
    have b5 : 0 ≤ uro * ‖a‖ := mul_nonneg hu.le ha
    have b6 : uro * 1 ≤ c * uro := by linarith [mul_le_mul_of_nonneg_right hc1 hu.le]
    nlinarith

/-- The quotient of two entries. -/
theorem C128.near_quot {x y n d : ℂ} {E T S : ℝ} (hE : 0 ≤ E) (hS : 1 ≤ S) (hES : E * S ≤ 1 / 100) (hT1 : 1 / 2 ≤ T) (hT : T * 8 ≤ maxDouble)
    (hx : ‖x - n‖ ≤ E * T) (hy : ‖y - d‖ ≤ E * T) (hn : ‖n‖ ≤ T) (hd : ‖d‖ ≤ T) (hd' : T ≤ S * ‖d‖) (hSm : S ≤ 10 ^ 12) :
    ∃ z, (C128.mk' L x / C128.mk' L y : C128 L) = C128.mk' L z ∧ ‖z - n / d‖ ≤ (203 / 100 * E * S + 67 * uro) * S := by
  have hu := uro_pos
  have hu' := uro_lt
  have h3 := Arith.uro3_lt
  have hS0 : 0 < S := by linarith
  have hT0 : 0 < T := by linarith
  have hET : E * T ≤ 1 / 100 * ‖d‖ := by
    have : E * T ≤ E * (S * ‖d‖) := mul_le_mul_of_nonneg_left hd' hE
    nlinarith [norm_nonneg d]
  have hE1 : E ≤ 1 / 100 := by nlinarith
  have hET' : E * T ≤ 1 / 100 * T := mul_le_mul_of_nonneg_right hE1 hT0.le
  have hdp : 0 < ‖d‖ := by
    by_contra h
    have : ‖d‖ = 0 := le_antisymm (not_lt.1 h) (norm_nonneg _)
    rw [this, mul_zero] at hd'
    linarith
  have hyl : 99 / 100 * ‖d‖ ≤ ‖y‖ := by
    have := norm_sub_norm_le d y
    rw [norm_sub_rev] at this
    linarith
  have hyp : 0 < ‖y‖ := by linarith
  have hyu : ‖y‖ ≤ 101 / 100 * T := by
    have := norm_sub_norm_le y d
    linarith
  have hxu : ‖x‖ ≤ 101 / 100 * T := by
    have := norm_sub_norm_le x n
    linarith
  have hxy : ‖x‖ / ‖y‖ ≤ 1021 / 1000 * S := by
    rw [div_le_iff₀ hyp]
    have : 1021 / 1000 * S * (99 / 100 * ‖d‖) ≤ 1021 / 1000 * S * ‖y‖ := mul_le_mul_of_nonneg_left hyl (by positivity)
    nlinarith
  have hM : (10 : ℝ) ^ 13 ≤ maxDouble := (show (10 : ℝ) ^ 13 ≤ 2 ^ 44 by norm_num).trans (pow_le_max (by norm_num))
  have hTd : T / S ≤ ‖d‖ := by
    rw [div_le_iff₀ hS0]
    linarith
  have hq0 : 0 ≤ ‖x‖ / ‖y‖ := by positivity
  obtain ⟨z, z1, z2⟩ := C128.div_err (L := L) (v := x) (w := y) (by
      have a1 : (1 / 2 : ℝ) ^ 900 ≤ (1 / 2) ^ 50 := pow_le_pow_of_le_one (by norm_num) (by norm_num) (by norm_num)
      have a2 : (1 / 2 : ℝ) ^ 50 ≤ 99 / 100 * ((1 / 2) / 10 ^ 12) := by norm_num
      have a3 : (1 / 2 : ℝ) / 10 ^ 12 ≤ T / S := div_le_div₀ hT0.le hT1 hS0 hSm
      refine a1.trans (a2.trans ?_)
      linarith) (by linarith) (by linarith) (by nlinarith)
  refine ⟨z, z1, ?_⟩
  have hd0 : d ≠ 0 := norm_pos_iff.1 hdp
  have hy0 : y ≠ 0 := norm_pos_iff.1 hyp
  have e : x / y - n / d = ((x - n) * d - n * (y - d)) / (y * d) := by
    field_simp
    ring
  have e2 : ‖x / y - n / d‖ ≤ 203 / 100 * E * S * S := by
    rw [e, norm_div, norm_mul, div_le_iff₀ (by positivity)]
    have c1 := norm_sub_le ((x - n) * d) (n * (y - d))
    rw [norm_mul, norm_mul] at c1
    have c2 : ‖x - n‖ * ‖d‖ ≤ E * T * ‖d‖ := mul_le_mul_of_nonneg_right hx hdp.le
    have c3 : ‖n‖ * ‖y - d‖ ≤ T * (E * T) := mul_le_mul hn hy (norm_nonneg _) hT0.le
    have c4 : T * (E * T) ≤ S * ‖d‖ * (E * T) := mul_le_mul_of_nonneg_right hd' (by positivity)
    have c5 : E * T * ‖d‖ ≤ S * ‖d‖ * (E * T) := by
      have : 1 * (‖d‖ * (E * T)) ≤ S * (‖d‖ * (E * T)) := mul_le_mul_of_nonneg_right hS (by positivity)
      nlinarith
    have c6 : S * ‖d‖ * (E * T) ≤ S * ‖d‖ * (E * (S * ‖d‖)) :=
      mul_le_mul_of_nonneg_left (mul_le_mul_of_nonneg_left hd' hE) (by positivity)
    have c7 : 203 / 100 * E * S * S * (99 / 100 * ‖d‖ * ‖d‖) ≤ 203 / 100 * E * S * S * (‖y‖ * ‖d‖) :=
      mul_le_mul_of_nonneg_left (mul_le_mul_of_nonneg_right hyl hdp.le) (by positivity)
    have c8 : 0 ≤ E * S * S * (‖d‖ * ‖d‖) := by positivity
    nlinarith
  have n1 := norm_sub_le_norm_sub_add_norm_sub z (x / y) (n / d)
  have n2 : 64 * uro * (‖x‖ / ‖y‖) ≤ 64 * uro * (1021 / 1000 * S) := mul_le_mul_of_nonneg_left hxy (by positivity)
  have n3 : uro * 1 ≤ uro * S := mul_le_mul_of_nonneg_left hS hu.le
  nlinarith

end Snompy
