import Verif.Lemmas.DoublePol
import Verif.Model.Fdm

/-!
# Rounding errors of the finite dipole model
-/

namespace Snompy

variable {L : Libm}

seal uro eta maxDouble

theorem F64.fin_div_ne {x y : ℝ} (hy : y ≠ 0) : (F64.fin x / F64.fin y : F64 L) = F64.ofReal (x / y) := by
  show F64.div _ _ = _
  unfold F64.div
  split <;> simp_all

/-- An approximation with an error in units of `T`. -/
theorem ofReal_within {x v e c T : ℝ} (hT : Sized T) (h : |x - v| ≤ e * uro * T) (hv : |v| ≤ c * T) (he0 : 0 ≤ e)
    (he : e ≤ 10 ^ 6) (hc : c ≤ 100) :
    ∃ y, (F64.ofReal x : F64 L) = .fin y ∧ |y - v| ≤ (e + c + 1 / 100) * uro * T := by
  have hu := uro_pos
  have hu' := uro_lt
  have hTp := hT.pos
  have hTe := hT.eta_le
  have hTm := hT.le_max
  have huT : 0 ≤ uro * T := by positivity
  have huT2 : uro * T ≤ 1 / 10 ^ 15 * T := mul_le_mul_of_nonneg_right hu'.le hTp.le
  have h1 := rnd_approx h
  have h2 := mul_le_mul_of_nonneg_left hv hu.le
  have h3 : uro * (e * uro * T) ≤ 1 / 10 ^ 8 * (uro * T) := by
    have h5 : uro * e ≤ 1 / 10 ^ 8 := by
      have := mul_le_mul hu'.le he he0 (by norm_num)
      linarith
    calc uro * (e * uro * T) = uro * e * (uro * T) := by ring
      _ ≤ _ := mul_le_mul_of_nonneg_right h5 huT
  have h4 : uro / 10 ^ 6 * T = 1 / 10 ^ 6 * (uro * T) := by ring
  rw [h4] at hTe
  refine ⟨rnd x, F64.ofReal_fin ?_, by linarith⟩
  have h6 := abs_sub_abs_le_abs_sub x v
  have h7 : e * uro * T ≤ 1 / 10 ^ 6 * T := by
    have h8 : e * (uro * T) ≤ 10 ^ 6 * (uro * T) := mul_le_mul_of_nonneg_right he huT
    linarith
  have h9 : c * T ≤ 100 * T := mul_le_mul_of_nonneg_right hc hTp.le
  have h10 : |x| ≤ 101 * T := by linarith
  have h11 : |x| * (1 + uro) ≤ |x| * 2 := mul_le_mul_of_nonneg_left (by linarith) (abs_nonneg x)
  linarith

theorem F64.Near.div {a b : F64 L} {v w k l : ℝ} (ha : a.Near v k) (hb : b.Near w l) (hk0 : 0 ≤ k) (hl0 : 0 ≤ l)
    (hk : k ≤ 10 ^ 5) (hl : l ≤ 10 ^ 5) (hw : w ≠ 0) (hs : Sized |v / w|) : (a / b).Near (v / w) (k + l + 2) := by
  obtain ⟨x, rfl, hx⟩ := ha
  obtain ⟨y, rfl, hy⟩ := hb
  have hu := uro_pos
  have hu' := uro_lt
  have hku : k * uro ≤ 1 / 10 ^ 9 := by nlinarith
  have hlu : l * uro ≤ 1 / 10 ^ 9 := by nlinarith
  have hku0 : 0 ≤ k * uro := by positivity
  have hlu0 : 0 ≤ l * uro := by positivity
  have hc : ∀ t : ℝ, ‖(t : ℂ)‖ = |t| := fun t => by rw [Complex.norm_real, Real.norm_eq_abs]
  obtain ⟨h1, -, h3⟩ := div_near (x := x) (y := y) (v := v) (w := w) (δ := k * uro) (ε := l * uro) hlu0 (by linarith) hku0
    (by exact_mod_cast hw) (by rw [← Complex.ofReal_sub, hc, hc]; exact hx)
    (by rw [← Complex.ofReal_sub, hc, hc]; exact hy)
  rw [← Complex.ofReal_div, ← Complex.ofReal_div, ← Complex.ofReal_sub, hc, hc] at h3
  have hy0 : y ≠ 0 := by exact_mod_cast h1
  rw [F64.fin_div_ne hy0]
  refine (near_ofReal (k := k + l + 1 / 100) (by positivity) (by linarith) (h3.trans ?_) hs).mono (by linarith)
  refine mul_le_mul_of_nonneg_right ?_ (abs_nonneg _)
  rw [div_le_iff₀ (by linarith)]
  have h5 : (k + l + 1 / 100) * uro * (l * uro) ≤ 1 / 100 * uro := by
    have h6 : (k + l + 1 / 100) * (l * uro) ≤ 1 / 100 := by
      have h7 : (k + l + 1 / 100) ≤ 10 ^ 6 := by linarith
      have := mul_le_mul h7 hlu hlu0 (by norm_num)
      linarith
    have := mul_le_mul_of_nonneg_right h6 hu.le
    linarith
  linarith

theorem F64.log_near {a : F64 L} {v k : ℝ} (ha : a.Near v k) (hv : 0 < v) (hk0 : 0 ≤ k) (hk : k ≤ 10 ^ 5)
    (hm : |Real.log v| ≤ 10 ^ 5) :
    ∃ y, (RealOps.log a : F64 L) = .fin y ∧ |y - Real.log v| ≤ (11 / 10 * k + 1 + 4 * |Real.log v|) * uro := by
  obtain ⟨x, rfl, hx⟩ := ha
  have hu := uro_pos
  have hu' := uro_lt
  have he' := eta_lt
  rw [abs_of_pos hv] at hx
  have hku : k * uro ≤ 1 / 10 ^ 9 := by nlinarith
  have hku0 : 0 ≤ k * uro := by positivity
  have hx1 := abs_le.1 hx
  have hkv : k * uro * v ≤ 1 / 10 ^ 9 * v := mul_le_mul_of_nonneg_right hku hv.le
  have hx0 : 0 < x := by linarith
  have hr : |x / v - 1| ≤ k * uro := by
    have : x / v - 1 = (x - v) / v := by field_simp
    rw [this, abs_div, abs_of_pos hv, div_le_iff₀ hv]
    exact hx
  have hlog : |Real.log x - Real.log v| ≤ 101 / 100 * (k * uro) := by
    rw [← Real.log_div hx0.ne' hv.ne']
    have hp : 0 < x / v := by positivity
    have hr1 := abs_le.1 hr
    rw [abs_le]
    constructor
    · have h1 := Real.one_sub_inv_le_log_of_pos hp
      have h2 : 1 - 101 / 100 * (k * uro) ≤ 1 + Real.log (x / v) := by
        have h3 : (x / v)⁻¹ ≤ 1 + 101 / 100 * (k * uro) := by
          rw [inv_le_comm₀ hp (by positivity), inv_le_comm₀ (by positivity) hp]
          rw [inv_le_iff_one_le_mul₀ hp]
          nlinarith
        linarith
      linarith
    · have h1 := Real.log_le_sub_one_of_pos hp
      linarith
  have hL := L.log_err x hx0
  rw [libm_eps] at hL
  have hlx : |Real.log x| ≤ |Real.log v| + 101 / 100 * (k * uro) := by
    have := abs_sub_abs_le_abs_sub (Real.log x) (Real.log v)
    linarith
  have h1 : |L.log x - Real.log v| ≤ (102 / 100 * k + 2 * |Real.log v|) * uro := by
    have h2 := abs_sub_le (L.log x) (Real.log x) (Real.log v)
    have h3 := mul_le_mul_of_nonneg_left hlx (show 0 ≤ 2 * uro by linarith)
    have h4 : uro * (k * uro) ≤ 1 / 1000 * (k * uro) := mul_le_mul_of_nonneg_right (by linarith) hku0
    linarith
  have h2 := rnd_approx h1
  have hb : (102 / 100 * k + 2 * |Real.log v|) * uro ≤ 1 / 10 ^ 3 := by nlinarith [abs_nonneg (Real.log v)]
  refine ⟨rnd (L.log x), ?_, ?_⟩
  · show F64.log (.fin x) = _
    unfold F64.log
    simp only [hx0, if_true]
    refine F64.ofReal_fin ?_
    have h5 := abs_sub_abs_le_abs_sub (L.log x) (Real.log v)
    have h6 : |L.log x| ≤ 2 * 10 ^ 5 := by linarith
    have h7 := mul_le_mul h6 (show 1 + uro ≤ 2 by linarith) (by linarith) (by norm_num)
    have hmax := pow_le_max (n := 60) (by norm_num)
    norm_num at hmax
    linarith
  · have h8 := mul_le_mul_of_nonneg_left hb hu.le
    have := mul_nonneg hk0 hu.le
    have := mul_nonneg (abs_nonneg (Real.log v)) hu.le
    linarith

/-- `r + c z + m d r` for small whole numbers `c`, `m`. -/
theorem length_near {rT zT dT : F64 L} {r z d kd T : ℝ} (hr : rT.Near r 2) (hr0 : 0 < r) (hz0 : 0 ≤ z) (hd0 : 0 ≤ d)
    (hz : ∃ x, zT = .fin x ∧ |x - z| ≤ 130 * uro * (r + z)) (hd : dT.Near d kd) (hkd0 : 0 ≤ kd) (hkd : kd ≤ 20)
    (hT : T = r + 4 * z + 2 * d * r) (hTs : Sized T) (hd2 : d ≤ 2 ^ 800) :
    (rT + lit 4 * zT + lit 2 * dT * rT).Near T 560 ∧ (rT + lit 2 * zT + dT * rT).Near (r + 2 * z + d * r) 600 := by
  obtain ⟨rh, rfl, er⟩ := hr
  obtain ⟨zh, rfl, ez⟩ := hz
  obtain ⟨dh, rfl, ed⟩ := hd
  rw [abs_of_pos hr0] at er
  have ed' := ed
  rw [abs_of_nonneg hd0] at ed
  have hu := uro_pos
  have hu' := uro_lt
  have he' := eta_lt
  have hTp := hTs.pos
  have hdr : 0 ≤ d * r := by positivity
  have hrT : r ≤ T := by linarith
  have huT : 0 ≤ uro * T := by positivity
  have hrz : uro * (r + z) ≤ uro * T := mul_le_mul_of_nonneg_left (by linarith) hu.le
  have hur : uro * r ≤ uro * T := mul_le_mul_of_nonneg_left hrT hu.le
  have ez' : |zh - z| ≤ 130 * (uro * T) := by linarith
  have er' : |rh - r| ≤ 2 * (uro * T) := by linarith
  have lit2 : (lit 2 : F64 L) = .fin 2 := by
    obtain ⟨x, hx, ex⟩ := F64.near_nat (L := L) 2 (by norm_num)
    rw [zero_mul, zero_mul] at ex
    have := sub_eq_zero.1 (abs_nonpos_iff.1 ex)
    push_cast at this hx
    rw [hx, this]
  have lit4 : (lit 4 : F64 L) = .fin 4 := by
    obtain ⟨x, hx, ex⟩ := F64.near_nat (L := L) 4 (by norm_num)
    rw [zero_mul, zero_mul] at ex
    have := sub_eq_zero.1 (abs_nonpos_iff.1 ex)
    push_cast at this hx
    rw [hx, this]
  have mulz : ∀ c : ℝ, 0 ≤ c → c ≤ 4 → ∃ y, (F64.fin c * F64.fin zh : F64 L) = .fin y ∧
      |y - c * z| ≤ (130 * c + 1 + 1 / 100) * uro * T := fun c h0 h4 => by
    rw [F64.fin_mul]
    have hcz : c * z ≤ 4 * z := mul_le_mul_of_nonneg_right h4 hz0
    obtain ⟨y, hy, ey⟩ := ofReal_within (L := L) (x := c * zh) (v := c * z) (e := 130 * c) (c := 1) hTs (by
      rw [← mul_sub, abs_mul, abs_of_nonneg h0]
      have := mul_le_mul_of_nonneg_left ez' h0
      linarith) (by
        rw [abs_of_nonneg (by positivity)]
        linarith) (by positivity) (by linarith) (by norm_num)
    exact ⟨y, hy, ey⟩
  have addr : ∀ c y : ℝ, 0 ≤ c → c ≤ 4 → |y - c * z| ≤ (130 * c + 1 + 1 / 100) * uro * T →
      ∃ x, (F64.fin rh + F64.fin y : F64 L) = .fin x ∧ |x - (r + c * z)| ≤ (130 * c + 5) * uro * T := fun c y h0 h4 hy => by
    rw [F64.fin_add]
    have hcz : c * z ≤ 4 * z := mul_le_mul_of_nonneg_right h4 hz0
    have hcz0 : 0 ≤ c * z := by positivity
    obtain ⟨x, hx, ex⟩ := ofReal_within (L := L) (x := rh + y) (v := r + c * z) (e := 130 * c + 3 + 1 / 100) (c := 1) hTs (by
      have e1 : rh + y - (r + c * z) = (rh - r) + (y - c * z) := by ring
      rw [e1]
      refine (abs_add_le _ _).trans ?_
      linarith) (by
        rw [abs_of_nonneg (by positivity)]
        linarith) (by positivity) (by linarith) (by norm_num)
    exact ⟨x, hx, ex.trans (by linarith)⟩
  constructor
  · rw [lit4, lit2]
    obtain ⟨y, hy, ey⟩ := mulz 4 (by norm_num) le_rfl
    obtain ⟨x, hx, ex⟩ := addr 4 y (by norm_num) le_rfl ey
    -- `2 d`
    have hd2e : |2 * dh - 2 * d| ≤ kd * uro * (2 * d) := by
      rw [← mul_sub, abs_mul, abs_of_pos two_pos]
      linarith
    have hmx : |2 * dh| * (1 + uro) + eta ≤ maxDouble := by
      have h1 := pow_le_max (n := 10 + 800) (by norm_num)
      rw [pow_add, show (2 : ℝ) ^ 10 = 1024 by norm_num] at h1
      have h2 : |2 * dh| ≤ 4 * d := by
        have h3 := abs_sub_abs_le_abs_sub (2 * dh) (2 * d)
        rw [abs_of_nonneg (by positivity : 0 ≤ 2 * d)] at h3
        have h4 : kd * uro * (2 * d) ≤ 1 * (2 * d) := mul_le_mul_of_nonneg_right (by nlinarith) (by positivity)
        linarith
      have h5 : |2 * dh| * (1 + uro) ≤ |2 * dh| * 2 := mul_le_mul_of_nonneg_left (by linarith) (abs_nonneg _)
      have h6 : (1 : ℝ) ≤ 2 ^ 800 := one_le_pow₀ (by norm_num)
      clear hTs
      generalize (2 : ℝ) ^ 800 = P at *
      linarith
    have e2 := rnd_approx hd2e
    rw [abs_of_nonneg (by positivity : 0 ≤ 2 * d)] at e2
    set d2 := rnd (2 * dh)
    have e2' : |d2 - 2 * d| ≤ (kd + 11 / 10) * uro * (2 * d) + eta := by
      have h1 : uro * (kd * uro * (2 * d)) ≤ 1 / 100 * (uro * (2 * d)) := by
        have h2 : uro * kd ≤ 1 / 100 := by nlinarith
        have := mul_le_mul_of_nonneg_right h2 (by positivity : 0 ≤ uro * (2 * d))
        linarith
      have h3 : 0 ≤ uro * (2 * d) := by positivity
      linarith
    have e3 : |d2 * rh - 2 * d * r| ≤ (kd + 4) * uro * T := by
      have e4 : d2 * rh - 2 * d * r = (d2 - 2 * d) * rh + 2 * d * (rh - r) := by ring
      rw [e4]
      refine (abs_add_le _ _).trans ?_
      rw [abs_mul, abs_mul, abs_of_nonneg (by positivity : 0 ≤ 2 * d)]
      have hrh : |rh| ≤ 1001 / 1000 * r := by
        have := abs_sub_abs_le_abs_sub rh r
        rw [abs_of_pos hr0] at this
        have h1 : uro * r ≤ 1 / 10 ^ 4 * r := mul_le_mul_of_nonneg_right (by linarith) hr0.le
        linarith
      have h1 := mul_le_mul e2' hrh (abs_nonneg _) (by have := eta_pos; positivity)
      have h2 := mul_le_mul_of_nonneg_left er (by positivity : 0 ≤ 2 * d)
      have h3 : eta * r ≤ uro / 10 ^ 6 * r := mul_le_mul_of_nonneg_right he'.le hr0.le
      have h4 : (kd + 11 / 10) * uro * (2 * d) * (1001 / 1000 * r) ≤ (kd + 12 / 10) * (uro * (2 * d * r)) := by
        have h5 : (kd + 11 / 10) * (1001 / 1000) ≤ kd + 12 / 10 := by linarith
        have := mul_le_mul_of_nonneg_right h5 (by positivity : 0 ≤ uro * (2 * d * r))
        linarith
      have h6 : (kd + 32 / 10) * (uro * (2 * d * r)) ≤ (kd + 32 / 10) * (uro * T) :=
        mul_le_mul_of_nonneg_left (mul_le_mul_of_nonneg_left (by linarith) hu.le) (by linarith)
      linarith
    obtain ⟨m, hm, em⟩ := ofReal_within (L := L) (c := 1) hTs e3 (by
      rw [abs_of_nonneg (by positivity)]
      linarith) (by positivity) (by linarith) (by norm_num)
    obtain ⟨w, hw, ew⟩ := ofReal_within (L := L) (x := x + m) (v := T) (e := 525 + (kd + 4 + 1 + 1 / 100)) (c := 1) hTs (by
      have e5 : x + m - T = (x - (r + 4 * z)) + (m - 2 * d * r) := by rw [hT]; ring
      rw [e5]
      refine (abs_add_le _ _).trans ?_
      linarith) (by rw [abs_of_pos hTp, one_mul]) (by positivity) (by linarith) (by norm_num)
    refine ⟨w, ?_, ?_⟩
    · rw [hy, hx, F64.fin_mul, F64.ofReal_fin hmx, F64.fin_mul, hm, F64.fin_add, hw]
    · rw [abs_of_pos hTp]
      have := mul_le_mul_of_nonneg_right (show (525 + (kd + 4 + 1 + 1 / 100) + 1 + 1 / 100) ≤ 560 by linarith) huT
      linarith
  · rw [lit2]
    obtain ⟨y, hy, ey⟩ := mulz 2 (by norm_num) (by norm_num)
    obtain ⟨x, hx, ex⟩ := addr 2 y (by norm_num) (by norm_num) ey
    have e3 := mul_near (x := dh) (y := rh) hkd0 (by norm_num) (by linarith) (by norm_num) ed'
      (show |rh - r| ≤ 2 * uro * |r| by rw [abs_of_pos hr0]; exact er)
    rw [abs_of_nonneg hdr] at e3
    obtain ⟨m, hm, em⟩ := ofReal_within (L := L) (x := dh * rh) (v := d * r) (e := kd + 2 + 1 / 100) (c := 1) hTs (by
        have h6 := mul_le_mul_of_nonneg_left (show d * r ≤ T by linarith) (show 0 ≤ (kd + 2 + 1 / 100) * uro by positivity)
        linarith) (by
      rw [abs_of_nonneg (by positivity)]
      linarith) (by positivity) (by linarith) (by norm_num)
    have hN : 0 < r + 2 * z + d * r := by positivity
    obtain ⟨w, hw, ew⟩ := ofReal_within (L := L) (x := x + m) (v := r + 2 * z + d * r)
      (e := 265 + (kd + 2 + 1 / 100 + 1 + 1 / 100)) (c := 1) hTs (by
      have e5 : x + m - (r + 2 * z + d * r) = (x - (r + 2 * z)) + (m - d * r) := by ring
      rw [e5]
      refine (abs_add_le _ _).trans ?_
      linarith) (by rw [abs_of_pos hN]; linarith) (by positivity) (by linarith) (by norm_num)
    refine ⟨w, ?_, ?_⟩
    · rw [hy, hx, F64.fin_mul, hm, F64.fin_add, hw]
    · rw [abs_of_pos hN]
      have h1 := mul_le_mul_of_nonneg_right
        (show (265 + (kd + 2 + 1 / 100 + 1 + 1 / 100) + 1 + 1 / 100) ≤ 300 by linarith) huT
      have h2 : uro * T ≤ uro * (2 * (r + 2 * z + d * r)) := mul_le_mul_of_nonneg_left (by linarith) hu.le
      linarith

theorem abs_log_le {v : ℝ} {a : ℕ} (h1 : (1 / 2) ^ a ≤ v) (h2 : v ≤ 2 ^ a) : |Real.log v| ≤ a := by
  have h0 : 0 < v := lt_of_lt_of_le (by positivity) h1
  have h3 := Real.log_le_log h0 h2
  have h4 := Real.log_le_log (by positivity) h1
  rw [Real.log_pow] at h3 h4
  have h5 : Real.log (1 / 2) = -Real.log 2 := by rw [one_div, Real.log_inv]
  rw [h5] at h4
  have h6 := Real.log_le_sub_one_of_pos (two_pos : (0 : ℝ) < 2)
  have h7 := mul_le_mul_of_nonneg_left (show Real.log 2 ≤ 1 by linarith) (a.cast_nonneg (α := ℝ))
  rw [abs_le]
  constructor <;> linarith

/-- The quotient at the end of the geometry function. -/
theorem geom_quot {m n : ℂ} {y ℓ E H : ℝ} (hm : ‖m - n‖ ≤ E * uro * H) (hn : ‖n‖ ≤ H) (hE0 : 0 ≤ E) (hE : E ≤ 1300)
    (hy : |y - ℓ| ≤ 10 * (1 + |ℓ|) * uro) (hℓ : 1 / 10 ^ 9 ≤ |ℓ|) (hℓ2 : |ℓ| ≤ 10 ^ 5) (hH : H ≤ 2 ^ 250) :
    ∃ f, (C128.mk' L m / C128.mk' L (y : ℂ) : C128 L) = C128.mk' L f ∧
      ‖f - n / (ℓ : ℂ)‖ ≤ 1500 * uro * (H * ((1 + |ℓ|) / ℓ ^ 2)) + uro ^ 3 ∧
      ‖n / (ℓ : ℂ)‖ ≤ H * ((1 + |ℓ|) / ℓ ^ 2) := by
  have hu := uro_pos
  have hu' := uro_lt
  have hℓ0 : 0 < |ℓ| := lt_of_lt_of_le (by norm_num) hℓ
  have hH0 : 0 ≤ H := (norm_nonneg n).trans hn
  have hc : ∀ t : ℝ, ‖(t : ℂ)‖ = |t| := fun t => by rw [Complex.norm_real, Real.norm_eq_abs]
  have hrel : 10 * (1 + |ℓ|) * uro ≤ 1 / 1000 * |ℓ| := by
    have h1 : (1 + |ℓ|) * uro ≤ (1 + |ℓ|) * (1 / 10 ^ 15) := mul_le_mul_of_nonneg_left hu'.le (by linarith)
    linarith
  have hyl : 999 / 1000 * |ℓ| ≤ |y| := by
    have := abs_sub_abs_le_abs_sub ℓ y
    rw [abs_sub_comm] at this
    linarith
  have hyu : |y| ≤ 10 ^ 6 := by
    have := abs_sub_abs_le_abs_sub y ℓ
    linarith
  have hy0 : 0 < |y| := by linarith
  have hyne : y ≠ 0 := abs_pos.1 hy0
  have hℓne : ℓ ≠ 0 := abs_pos.1 hℓ0
  have huH : 0 ≤ uro * H := by positivity
  have huH2 : uro * H ≤ 1 / 10 ^ 15 * H := mul_le_mul_of_nonneg_right hu'.le hH0
  have hmn : ‖m‖ ≤ 101 / 100 * H := by
    have h1 := norm_sub_norm_le m n
    have h2 : E * uro * H ≤ 1300 * (uro * H) := by
      have := mul_le_mul_of_nonneg_right hE huH
      linarith
    linarith
  have hmax : H * 2 ^ 60 ≤ maxDouble := by
    have h1 := pow_le_max (n := 250 + 60) (by norm_num)
    rw [pow_add] at h1
    exact (mul_le_mul_of_nonneg_right hH (by norm_num)).trans h1
  norm_num at hmax
  have hq : ‖m‖ / |y| ≤ 102 / 100 * (H / |ℓ|) := by
    rw [div_le_iff₀ hy0]
    have h1 : 0 ≤ H / |ℓ| := by positivity
    have h2 : H / |ℓ| * (999 / 1000 * |ℓ|) = 999 / 1000 * H := by field_simp
    have h3 := mul_le_mul_of_nonneg_left hyl h1
    linarith
  have hH9 : H / |ℓ| ≤ H * 10 ^ 9 := by
    rw [div_le_iff₀ hℓ0]
    have := mul_le_mul_of_nonneg_left hℓ hH0
    linarith
  have hmax1 := pow_le_max (n := 60) (by norm_num)
  norm_num at hmax1
  have hu3 := uro3_tiny
  obtain ⟨f, hf, ef⟩ := C128.div_err (L := L) (v := m) (w := (y : ℂ)) (by
      rw [hc]
      have h1 : ((1 : ℝ) / 2) ^ 900 ≤ (1 / 2) ^ 40 := pow_le_pow_of_le_one (by norm_num) (by norm_num) (by norm_num)
      have h2 : ((1 : ℝ) / 2) ^ 40 ≤ 999 / 1000 * (1 / 10 ^ 9) := by norm_num
      exact h1.trans (h2.trans (by linarith))) (by linarith) (by rw [hc]; linarith) (by
      rw [hc]
      have h1 : ‖m‖ / |y| * (1 + 64 * uro) ≤ ‖m‖ / |y| * 2 := mul_le_mul_of_nonneg_left (by linarith) (by positivity)
      rcases le_or_gt 1 H with h | h <;> linarith)
  rw [hc] at ef
  have hone : H / |ℓ| ≤ H * ((1 + |ℓ|) / ℓ ^ 2) := by
    rw [← sq_abs ℓ, mul_div_assoc', div_le_div_iff₀ hℓ0 (by positivity)]
    have h1 : 0 ≤ H * |ℓ| := by positivity
    nlinarith
  refine ⟨f, hf, ?_, ?_⟩
  · have hyc : (y : ℂ) ≠ 0 := by exact_mod_cast hyne
    have hℓc : (ℓ : ℂ) ≠ 0 := by exact_mod_cast hℓne
    have e1 : f - n / (ℓ : ℂ) = (f - m / y) + (m - n) / y + n * ((ℓ - y : ℝ) : ℂ) / (ℓ * y) := by
      push_cast
      field_simp
      ring
    rw [e1]
    refine (norm_add_le _ _).trans ?_
    have h0 := norm_add_le (f - m / y) ((m - n) / y)
    have h1 : ‖(m - n) / (y : ℂ)‖ ≤ 102 / 100 * (E * (uro * (H / |ℓ|))) := by
      rw [norm_div, hc, div_le_iff₀ hy0]
      refine hm.trans ?_
      have h2 : E * (uro * (H / |ℓ|)) * (999 / 1000 * |ℓ|) = 999 / 1000 * (E * uro * H) := by field_simp
      have h3 := mul_le_mul_of_nonneg_left hyl (show 0 ≤ E * (uro * (H / |ℓ|)) by positivity)
      have h4 : 0 ≤ E * uro * H := by positivity
      linarith
    have h2 : ‖n * ((ℓ - y : ℝ) : ℂ) / (ℓ * y)‖ ≤ 11 * (uro * (H * ((1 + |ℓ|) / ℓ ^ 2))) := by
      rw [norm_div, norm_mul, norm_mul, hc, hc, hc, div_le_iff₀ (by positivity), abs_sub_comm]
      have h3 := mul_le_mul hn hy (abs_nonneg _) hH0
      refine h3.trans ?_
      have h4 := mul_le_mul_of_nonneg_left hyl hℓ0.le
      have h5 := mul_le_mul_of_nonneg_left h4 (show 0 ≤ 11 * (uro * (H * ((1 + |ℓ|) / ℓ ^ 2))) by positivity)
      have h6 : 11 * (uro * (H * ((1 + |ℓ|) / ℓ ^ 2))) * (|ℓ| * (999 / 1000 * |ℓ|)) =
          11 * (999 / 1000) * (uro * (H * (1 + |ℓ|))) := by
        rw [← sq_abs ℓ]
        field_simp
      rw [h6] at h5
      have h7 : 0 ≤ uro * (H * (1 + |ℓ|)) := by positivity
      linarith
    have h3 := mul_le_mul_of_nonneg_left hq (show 0 ≤ 64 * uro by linarith)
    have h4 : E * (uro * (H / |ℓ|)) ≤ 1300 * (uro * (H / |ℓ|)) := mul_le_mul_of_nonneg_right hE (by positivity)
    have h5 := mul_le_mul_of_nonneg_left hone hu.le
    have h6 : 0 ≤ uro * (H * ((1 + |ℓ|) / ℓ ^ 2)) := by positivity
    generalize H * ((1 + |ℓ|) / ℓ ^ 2) = Y at *
    generalize H / |ℓ| = X at *
    linarith
  · rw [norm_div, hc]
    exact (div_le_div_of_nonneg_right hn hℓ0.le).trans hone

/-- The numerator of the geometry function. -/
theorem geom_numer {s gm : ℂ} {y ℓ G : ℝ} (hs : ‖s - gm‖ ≤ 610 * uro * G) (hg : ‖gm‖ ≤ G) (hG : Sized G)
    (hy : |y - ℓ| ≤ 624 * (1 + |ℓ|) * uro) (hℓ : |ℓ| ≤ 1000) :
    ∃ m, (C128.mk' L s * C128.mk' L (y : ℂ) : C128 L) = C128.mk' L m ∧
      ‖m - gm * (ℓ : ℂ)‖ ≤ 1245 * uro * (G * (1 + |ℓ|)) ∧ ‖gm * (ℓ : ℂ)‖ ≤ G * (1 + |ℓ|) := by
  have hu := uro_pos
  have hu' := uro_lt
  have hGp := hG.pos
  have hGe := hG.eta_le
  have hGm := hG.le_max
  have hℓ0 := abs_nonneg ℓ
  have hc : ∀ t : ℝ, ‖(t : ℂ)‖ = |t| := fun t => by rw [Complex.norm_real, Real.norm_eq_abs]
  have huG : 0 ≤ uro * G := by positivity
  have huG2 : uro * G ≤ 1 / 10 ^ 15 * G := mul_le_mul_of_nonneg_right hu'.le hGp.le
  have hsn : ‖s‖ ≤ 1001 / 1000 * G := by
    have := norm_sub_norm_le s gm
    linarith
  have hyn : |y| ≤ 1001 / 1000 * (1 + |ℓ|) := by
    have h1 := abs_sub_abs_le_abs_sub y ℓ
    have h2 : (1 + |ℓ|) * uro ≤ (1 + |ℓ|) * (1 / 10 ^ 15) := mul_le_mul_of_nonneg_left hu'.le (by linarith)
    linarith
  have hG2 : G ≤ 2 ^ 800 := hG.2
  have hp := mul_le_mul hsn hyn (abs_nonneg _) (by positivity)
  have hGΛ : G * (1 + |ℓ|) ≤ G * 1001 := mul_le_mul_of_nonneg_left (by linarith) hGp.le
  have hbig : G * 1001 * 4 ≤ maxDouble := by
    have h1 := pow_le_max (n := 13 + 800) (by norm_num)
    rw [pow_add, show (2 : ℝ) ^ 13 = 8192 by norm_num] at h1
    clear hG
    generalize (2 : ℝ) ^ 800 = P at *
    linarith
  obtain ⟨m, hm, em⟩ := C128.mul_err (L := L) (v := s) (w := (y : ℂ)) (by
    rw [hc]
    linarith)
  rw [hc] at em
  refine ⟨m, hm, ?_, ?_⟩
  · have e1 : m - gm * (ℓ : ℂ) = (m - s * y) + (s - gm) * (ℓ : ℂ) + s * ((y - ℓ : ℝ) : ℂ) := by
      push_cast
      ring
    rw [e1]
    refine (norm_add_le _ _).trans ?_
    have h0 := norm_add_le (m - s * y) ((s - gm) * (ℓ : ℂ))
    rw [norm_mul (s - gm), hc] at h0
    rw [norm_mul, hc]
    have h1 := mul_le_mul hs (show |ℓ| ≤ 1 + |ℓ| by linarith) hℓ0 (by positivity)
    have h2 := mul_le_mul hsn hy (abs_nonneg _) (by positivity)
    have h3 := mul_le_mul_of_nonneg_left hp (show 0 ≤ 4 * uro by linarith)
    have h4 : uro / 10 ^ 6 * G ≤ 1 / 10 ^ 6 * (uro * G * (1 + |ℓ|)) := by
      have := mul_le_mul_of_nonneg_left (show 1 ≤ 1 + |ℓ| by linarith) huG
      linarith
    have h5 : 0 ≤ uro * G * (1 + |ℓ|) := by positivity
    linarith
  · rw [norm_mul, hc]
    exact mul_le_mul hg (by linarith) hℓ0 hGp.le

end Snompy
