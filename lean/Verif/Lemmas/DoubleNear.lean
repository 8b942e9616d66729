import Verif.Lemmas.DoubleCplx

/-!
# Relative errors of single operations

`Near a v k` says that the double `a` is the number `v` up to a relative error of `k` units of roundoff.
-/

namespace Snompy

variable {L : Libm}

/-- Far from overflow and underflow. -/
def Sized (x : ℝ) : Prop := (1 / 2) ^ 800 ≤ x ∧ x ≤ 2 ^ 800

theorem Sized.pos {x : ℝ} (h : Sized x) : 0 < x := lt_of_lt_of_le (by positivity) h.1

theorem Sized.eta_le {x : ℝ} (h : Sized x) : eta ≤ uro / 10 ^ 6 * x := by
  refine Snompy.eta_le.trans ?_
  have h1 : (1 : ℝ) / 2 ^ 1000 ≤ 1 / 10 ^ 6 * (1 / 2) ^ 800 := by
    rw [show (1000 : ℕ) = 200 + 800 from rfl, pow_add, ← one_div_mul_one_div, one_div_pow (2 : ℝ) 800]
    refine mul_le_mul_of_nonneg_right ?_ (by positivity)
    exact one_div_le_one_div_of_le (by norm_num)
      (le_trans (by norm_num : (10 : ℝ) ^ 6 ≤ 2 ^ 20) (pow_le_pow_right₀ one_le_two (by decide)))
  have h2 : 1 / 10 ^ 6 * (1 / 2 : ℝ) ^ 800 ≤ 1 / 10 ^ 6 * x := mul_le_mul_of_nonneg_left h.1 (by norm_num)
  calc uro / 2 ^ 1000 = uro * (1 / 2 ^ 1000) := by ring
    _ ≤ uro * (1 / 10 ^ 6 * x) := mul_le_mul_of_nonneg_left (h1.trans h2) uro_pos.le
    _ = _ := by ring

theorem Sized.le_max {x : ℝ} (h : Sized x) : x * 1000 ≤ maxDouble := by
  have h1 := pow_le_max (n := 10 + 800) (by norm_num)
  rw [pow_add] at h1
  have h2 := h.2
  have h3 := h.pos
  rw [show (2 : ℝ) ^ 10 = 1024 by norm_num] at h1
  clear h
  generalize (2 : ℝ) ^ 800 = P at *
  linarith

theorem Sized.one : Sized 1 := by
  constructor
  · exact pow_le_one₀ (by norm_num) (by norm_num)
  · exact one_le_pow₀ (by norm_num)

def F64.Near (a : F64 L) (v k : ℝ) : Prop := ∃ x : ℝ, a = .fin x ∧ |x - v| ≤ k * uro * |v|

def C128.Near (a : C128 L) (v : ℂ) (k : ℝ) : Prop := ∃ z : ℂ, a = C128.mk' L z ∧ ‖z - v‖ ≤ k * uro * ‖v‖

theorem F64.Near.mono {a : F64 L} {v k l : ℝ} (h : a.Near v k) (hkl : k ≤ l) : a.Near v l := by
  obtain ⟨x, h1, h2⟩ := h
  exact ⟨x, h1, h2.trans (mul_le_mul_of_nonneg_right (mul_le_mul_of_nonneg_right hkl uro_pos.le) (abs_nonneg _))⟩

theorem C128.Near.mono {a : C128 L} {v : ℂ} {k l : ℝ} (h : a.Near v k) (hkl : k ≤ l) : a.Near v l := by
  obtain ⟨x, h1, h2⟩ := h
  exact ⟨x, h1, h2.trans (mul_le_mul_of_nonneg_right (mul_le_mul_of_nonneg_right hkl uro_pos.le) (norm_nonneg _))⟩

theorem F64.near_fin (x : ℝ) : (F64.fin x : F64 L).Near x 0 := ⟨x, rfl, by simp⟩
theorem C128.near_mk' (z : ℂ) : (C128.mk' L z).Near z 0 := ⟨z, rfl, by simp⟩

theorem F64.Near.ofR {a : F64 L} {v k : ℝ} (h : a.Near v k) : (CplxOps.ofR a : C128 L).Near v k := by
  obtain ⟨x, rfl, h2⟩ := h
  refine ⟨x, rfl, ?_⟩
  rwa [← Complex.ofReal_sub, Complex.norm_real, Complex.norm_real, Real.norm_eq_abs, Real.norm_eq_abs]

/-- Rounding of an approximation. -/
theorem near_ofReal {x v k : ℝ} (hk0 : 0 ≤ k) (hk : k ≤ 10 ^ 12) (h : |x - v| ≤ k * uro * |v|) (hv : Sized |v|) :
    (F64.ofReal x : F64 L).Near v (k + 1 + 1 / 100) := by
  have hu := uro_pos
  have hu' := uro_lt
  have hv0 := hv.pos
  have hve := hv.eta_le
  have hvm := hv.le_max
  have hku : k * uro ≤ 1 / 1000 := by nlinarith
  have h1 := rnd_approx h
  have h2 : |x| ≤ 2 * |v| := by
    have := abs_sub_abs_le_abs_sub x v
    nlinarith
  have h3 : uro * (k * uro * |v|) ≤ 1 / 1000 * (uro * |v|) := by
    have : 0 ≤ uro * |v| := by positivity
    nlinarith
  refine ⟨rnd x, F64.ofReal_fin ?_, ?_⟩
  · nlinarith
  · have : 0 ≤ uro * |v| := by positivity
    nlinarith

theorem F64.near_lit {v : ℝ} (hv : Sized |v|) : (lit v : F64 L).Near v (1 + 1 / 100) := by
  have := near_ofReal (L := L) (x := v) (k := 0) le_rfl (by norm_num) (by simp) hv
  rw [zero_add] at this
  exact this

theorem F64.near_nat (n : ℕ) (hn : n ≤ 2 ^ 53) : (lit (n : ℝ) : F64 L).Near n 0 := by
  have h : (lit (n : ℝ) : F64 L) = .fin n := F64.ofReal_rep (by
    have := rep_int n (by simpa using (by exact_mod_cast hn : (n : ℤ) ≤ 2 ^ 53))
    simpa using this) (by
      rw [Nat.abs_cast]
      have h2 : (n : ℝ) ≤ 2 ^ 53 := by exact_mod_cast hn
      exact h2.trans (pow_le_max (by norm_num)))
  rw [h]
  exact F64.near_fin _

/-- Product of two approximations. -/
theorem mul_near {x y v w k l : ℝ} (hk0 : 0 ≤ k) (hl0 : 0 ≤ l) (hk : k ≤ 10 ^ 5) (hl : l ≤ 10 ^ 5)
    (hx : |x - v| ≤ k * uro * |v|) (hy : |y - w| ≤ l * uro * |w|) :
    |x * y - v * w| ≤ (k + l + 1 / 100) * uro * |v * w| := by
  have hu := uro_pos
  have hu' := uro_lt
  have h1 : x * y - v * w = (x - v) * w + (y - w) * v + (x - v) * (y - w) := by ring
  have h2 : |(x - v) * w| ≤ k * uro * |v * w| := by
    rw [abs_mul, abs_mul, ← mul_assoc]
    exact mul_le_mul_of_nonneg_right hx (abs_nonneg _)
  have h3 : |(y - w) * v| ≤ l * uro * |v * w| := by
    rw [abs_mul, mul_comm v w, abs_mul, ← mul_assoc]
    exact mul_le_mul_of_nonneg_right hy (abs_nonneg _)
  have h4 : |(x - v) * (y - w)| ≤ 1 / 100 * uro * |v * w| := by
    rw [abs_mul]
    refine (mul_le_mul hx hy (abs_nonneg _) ((abs_nonneg _).trans hx)).trans ?_
    rw [abs_mul]
    have h5 : k * l ≤ 10 ^ 5 * 10 ^ 5 := mul_le_mul hk hl hl0 (by norm_num)
    have h6 : 0 ≤ |v| * |w| := by positivity
    have h7 : k * l * uro ≤ 1 / 100 := by
      have := mul_le_mul h5 hu'.le hu.le (by norm_num)
      linarith
    calc k * uro * |v| * (l * uro * |w|) = k * l * uro * (uro * (|v| * |w|)) := by ring
      _ ≤ 1 / 100 * (uro * (|v| * |w|)) := mul_le_mul_of_nonneg_right h7 (mul_nonneg hu.le h6)
      _ = _ := by ring
  rw [h1]
  refine (abs_add_three _ _ _).trans ?_
  linarith

theorem F64.Near.mul {a b : F64 L} {v w k l : ℝ} (ha : a.Near v k) (hb : b.Near w l) (hk0 : 0 ≤ k) (hl0 : 0 ≤ l)
    (hk : k ≤ 10 ^ 5) (hl : l ≤ 10 ^ 5) (hs : Sized |v * w|) : (a * b).Near (v * w) (k + l + 2) := by
  obtain ⟨x, rfl, hx⟩ := ha
  obtain ⟨y, rfl, hy⟩ := hb
  rw [F64.fin_mul]
  exact (near_ofReal (by positivity) (by linarith) (mul_near hk0 hl0 hk hl hx hy) hs).mono (by linarith)

/-- Sum of two approximations, in terms of the error of the exact sum. -/
theorem F64.near_add {x y v k : ℝ} (h : |x + y - v| ≤ k * uro * |v|) (hk0 : 0 ≤ k) (hk : k ≤ 10 ^ 5) (hs : Sized |v|) :
    (F64.fin x + F64.fin y : F64 L).Near v (k + 2) := by
  rw [F64.fin_add]
  exact (near_ofReal hk0 (by linarith) h hs).mono (by linarith)

theorem F64.Near.cube {a : F64 L} {v k : ℝ} (ha : a.Near v k) (hk0 : 0 ≤ k) (hk : k ≤ 10 ^ 4)
    (hs : Sized |v ^ 3|) : (RealOps.npow a 3 : F64 L).Near (v ^ 3) (3 * k + 2) := by
  obtain ⟨x, rfl, hx⟩ := ha
  show (F64.ofReal (x ^ 3) : F64 L).Near _ _
  have h2 := mul_near hk0 hk0 (by linarith) (by linarith) hx hx
  have h3 := mul_near (x := x * x) (v := v * v) (by positivity) hk0 (by linarith) (by linarith) h2 hx
  have e1 : x * x * x = x ^ 3 := by ring
  have e2 : v * v * v = v ^ 3 := by ring
  rw [e1, e2] at h3
  exact (near_ofReal (by positivity) (by linarith) h3 hs).mono (by linarith)

theorem C128.add_err {v w : ℂ} (h : (‖v‖ + ‖w‖) * 2 ≤ maxDouble) :
    ∃ z, (C128.mk' L v + C128.mk' L w : C128 L) = C128.mk' L z ∧ ‖z - (v + w)‖ ≤ 2 * uro * (‖v‖ + ‖w‖) + 2 * eta := by
  refine (cplxArith L).add _ _ v w rfl rfl ?_
  have := uro_lt
  have := uro_pos
  have := eta_lt
  have := F64.one_le_max
  have hn : 0 ≤ ‖v‖ + ‖w‖ := by positivity
  rcases le_or_gt 1 (‖v‖ + ‖w‖) with h1 | h1 <;> nlinarith

theorem C128.sub_err {v w : ℂ} (h : (‖v‖ + ‖w‖) * 2 ≤ maxDouble) :
    ∃ z, (C128.mk' L v - C128.mk' L w : C128 L) = C128.mk' L z ∧ ‖z - (v - w)‖ ≤ 2 * uro * (‖v‖ + ‖w‖) + 2 * eta := by
  obtain ⟨z, h1, h2⟩ := C128.add_err (L := L) (v := v) (w := -w) (by rwa [norm_neg])
  rw [norm_neg, ← sub_eq_add_neg] at h2
  exact ⟨z, h1, h2⟩

theorem C128.mul_err {v w : ℂ} (h : ‖v‖ * ‖w‖ * 2 ≤ maxDouble) :
    ∃ z, (C128.mk' L v * C128.mk' L w : C128 L) = C128.mk' L z ∧ ‖z - v * w‖ ≤ 4 * uro * (‖v‖ * ‖w‖) + 8 * eta := by
  refine (cplxArith L).mul _ _ v w rfl rfl ?_
  have := uro_lt
  have := uro_pos
  have := eta_lt
  have := F64.one_le_max
  have hn : 0 ≤ ‖v‖ * ‖w‖ := by positivity
  rcases le_or_gt 1 (‖v‖ * ‖w‖) with h1 | h1 <;> nlinarith

/-- Quotient of two approximations. -/
theorem div_near {x y v w : ℂ} {δ ε : ℝ} (hε0 : 0 ≤ ε) (hε : ε ≤ 1 / 100) (hδ0 : 0 ≤ δ)
    (hw : w ≠ 0) (hx : ‖x - v‖ ≤ δ * ‖v‖) (hy : ‖y - w‖ ≤ ε * ‖w‖) :
    y ≠ 0 ∧ 99 / 100 * ‖w‖ ≤ ‖y‖ ∧ ‖x / y - v / w‖ ≤ (δ + ε) / (1 - ε) * ‖v / w‖ := by
  have hwn : 0 < ‖w‖ := norm_pos_iff.2 hw
  have hyn : (1 - ε) * ‖w‖ ≤ ‖y‖ := by
    have h1 := norm_sub_norm_le w y
    rw [norm_sub_rev] at h1
    linarith
  have hy0 : y ≠ 0 := norm_pos_iff.1 (lt_of_lt_of_le (by nlinarith) hyn)
  refine ⟨hy0, by nlinarith, ?_⟩
  have e : x / y - v / w = ((x - v) * w - v * (y - w)) / (y * w) := by
    field_simp
    ring
  rw [e, norm_div, norm_mul, norm_div]
  have h2 : ‖(x - v) * w - v * (y - w)‖ ≤ (δ + ε) * (‖v‖ * ‖w‖) := by
    refine (norm_sub_le _ _).trans ?_
    rw [norm_mul, norm_mul]
    have a1 := mul_le_mul_of_nonneg_right hx hwn.le
    have a2 := mul_le_mul_of_nonneg_left hy (norm_nonneg v)
    nlinarith
  rw [div_le_iff₀ (by nlinarith [norm_pos_iff.2 hy0])]
  refine h2.trans ?_
  have h3 : (δ + ε) / (1 - ε) * (‖v‖ / ‖w‖) * (‖y‖ * ‖w‖) = (δ + ε) / (1 - ε) * ‖v‖ * ‖y‖ := by
    field_simp
  rw [h3]
  have h4 : (δ + ε) * (‖v‖ * ‖w‖) = (δ + ε) / (1 - ε) * ‖v‖ * ((1 - ε) * ‖w‖) := by
    have : (1 - ε) ≠ 0 := by linarith
    field_simp
  rw [h4]
  refine mul_le_mul_of_nonneg_left hyn ?_
  have : 0 < 1 - ε := by linarith
  positivity

/-- Division of two approximations. -/
theorem C128.div_near {x y v w : ℂ} {δ ε : ℝ} (hε0 : 0 ≤ ε) (hε : ε ≤ 1 / 100) (hδ0 : 0 ≤ δ) (hδ : δ ≤ 1 / 100)
    (hx : ‖x - v‖ ≤ δ * ‖v‖) (hy : ‖y - w‖ ≤ ε * ‖w‖) (hv : ‖v‖ * 8 ≤ maxDouble) (hws : Sized ‖w‖)
    (hs : ‖v‖ / ‖w‖ * 8 ≤ maxDouble) :
    ∃ z, (C128.mk' L x / C128.mk' L y : C128 L) = C128.mk' L z ∧
      ‖z - v / w‖ ≤ ((δ + ε) / (1 - ε) + 66 * uro) * ‖v / w‖ + uro ^ 3 := by
  have hu := uro_pos
  have hu' := uro_lt
  have hw : w ≠ 0 := norm_pos_iff.1 hws.pos
  obtain ⟨hy0, hyn, hq⟩ := Snompy.div_near hε0 hε hδ0 hw hx hy
  have hvp := norm_nonneg v
  have hwp := hws.pos
  have hsp : 0 ≤ ‖v‖ / ‖w‖ := by positivity
  have hxn : ‖x‖ ≤ 101 / 100 * ‖v‖ := by
    have := norm_sub_norm_le x v
    nlinarith
  have hyn' : ‖y‖ ≤ 101 / 100 * ‖w‖ := by
    have := norm_sub_norm_le y w
    nlinarith
  have hyp : 0 < ‖y‖ := norm_pos_iff.2 hy0
  have hxy : ‖x‖ / ‖y‖ ≤ 103 / 100 * (‖v‖ / ‖w‖) := by
    rw [div_le_iff₀ hyp]
    have h1 : 103 / 100 * (‖v‖ / ‖w‖) * (99 / 100 * ‖w‖) ≤ 103 / 100 * (‖v‖ / ‖w‖) * ‖y‖ :=
      mul_le_mul_of_nonneg_left hyn (by positivity)
    have h2 : 103 / 100 * (‖v‖ / ‖w‖) * (99 / 100 * ‖w‖) = 103 / 100 * (99 / 100) * ‖v‖ := by
      field_simp
    linarith
  have hu3 : uro ^ 3 < uro / 10 ^ 6 := Arith.uro3_lt
  have hmax := F64.one_le_max
  have hxy0 : 0 ≤ ‖x‖ / ‖y‖ := by positivity
  have hux : uro * (‖x‖ / ‖y‖) ≤ 1 / 10 ^ 15 * (‖x‖ / ‖y‖) := mul_le_mul_of_nonneg_right hu'.le hxy0
  obtain ⟨z, h1, h2⟩ := C128.div_err (L := L) (v := x) (w := y) (by
      have h5 : (1 / 2 : ℝ) ^ 900 ≤ 99 / 100 * (1 / 2) ^ 800 := by
        rw [show (900 : ℕ) = 100 + 800 from rfl, pow_add]
        refine mul_le_mul_of_nonneg_right ?_ (by positivity)
        exact (pow_le_of_le_one (by norm_num) (by norm_num) (by norm_num : 100 ≠ 0)).trans (by norm_num)
      exact h5.trans ((mul_le_mul_of_nonneg_left hws.1 (by norm_num)).trans hyn)) (by linarith) (by have := hws.le_max; linarith) (by linarith)
  refine ⟨z, h1, ?_⟩
  have h3 := norm_sub_le_norm_sub_add_norm_sub z (x / y) (v / w)
  have hn : ‖v / w‖ = ‖v‖ / ‖w‖ := norm_div _ _
  have h4 : 64 * uro * (‖x‖ / ‖y‖) ≤ 64 * uro * (103 / 100 * (‖v‖ / ‖w‖)) :=
    mul_le_mul_of_nonneg_left hxy (mul_nonneg (by norm_num) hu.le)
  have h5 : 0 ≤ uro * (‖v‖ / ‖w‖) := mul_nonneg hu.le hsp
  rw [hn] at hq ⊢
  nlinarith

end Snompy
