import Verif.Lemmas.DoubleDemod
import Verif.Spec.Condition

/-!
# Rounding errors of the effective polarisability of the point dipole model
-/

namespace Snompy

variable {L : Libm}

theorem uro3_pow : uro ^ 3 = (1 / 2) ^ 159 := by unfold uro; norm_num

seal uro eta maxDouble

theorem Pdm.geom_size {x r : ℝ} {α : ℂ} (h1 : (1 / 2) ^ 100 ≤ r + x) (hα : ‖α‖ ≤ 2 ^ 300) :
    ‖Pdm.geom x r α‖ ≤ 2 ^ 600 := by
  unfold Pdm.geom
  have hpi := Real.pi_gt_three
  have h0 : 0 < r + x := lt_of_lt_of_le (by positivity) h1
  have h2 : (1 / 2) ^ 300 ≤ (r + x) ^ 3 := by
    rw [show 300 = 100 * 3 from rfl, pow_mul]
    exact pow_le_pow_left₀ (by positivity) h1 3
  have h3 : ‖(16 * Real.pi * (r + x) ^ 3 : ℂ)‖ = 16 * Real.pi * (r + x) ^ 3 := by
    have : (16 * Real.pi * (r + x) ^ 3 : ℂ) = ((16 * Real.pi * (r + x) ^ 3 : ℝ) : ℂ) := by push_cast; ring
    rw [this, Complex.norm_real, Real.norm_of_nonneg (by positivity)]
  rw [norm_div, h3, div_le_iff₀ (by positivity)]
  have h4 : (2 : ℝ) ^ 600 * (1 / 2) ^ 300 = 2 ^ 300 := by
    rw [show 600 = 300 + 300 from rfl, pow_add, mul_assoc, ← mul_pow]
    norm_num
  have h5 := mul_le_mul_of_nonneg_left h2 (show (0 : ℝ) ≤ 2 ^ 600 by positivity)
  rw [h4] at h5
  have h6 : 0 ≤ (2 : ℝ) ^ 600 * (r + x) ^ 3 := by positivity
  have h7 : (2 : ℝ) ^ 600 * (r + x) ^ 3 * 1 ≤ 2 ^ 600 * (r + x) ^ 3 * (16 * Real.pi) :=
    mul_le_mul_of_nonneg_left (by linarith) h6
  calc ‖α‖ ≤ 2 ^ 300 := hα
    _ ≤ 2 ^ 600 * (r + x) ^ 3 * 1 := by rw [mul_one]; exact h5
    _ ≤ _ := h7
    _ = _ := by ring

/-- One height: the tip, the height and the reflection coefficient are known up to rounding errors. -/
theorem Pdm.effPol_near (cfg : Env) {S : Stack (F64 L) (C128 L)} {a : PdmArgs (F64 L) (C128 L)} {rT zT : F64 L}
    {αh : C128 L} {r x ks ka : ℝ} {α b β : ℂ} (ha : cfg.defaults.pdm a = .ok (rT, αh))
    (hb : S.reflCoefQs = .ok (C128.mk' L b)) (hbe : ‖b - β‖ ≤ 1 / 10 ^ 13 * (1 + ‖β‖) ^ 2) (hβ : 1 + ‖β‖ ≤ 10 ^ 12)
    (hs : (rT + zT).Near (r + x) ks) (hα : αh.Near α ka) (hs1 : (1 / 2) ^ 100 ≤ r + x) (hs2 : r + x ≤ 2 ^ 100)
    (hα2 : ‖α‖ ≤ 2 ^ 300) (hks0 : 0 ≤ ks) (hks : ks ≤ 140) (hka0 : 0 ≤ ka) (hka : ka ≤ 100)
    (h0 : 1 - Pdm.geom x r α * β ≠ 0) (hκ : Pdm.condition x r α β ≤ 10 ^ 10) :
    ∃ w, Pdm.effPol cfg S (some zT) a = .ok (C128.mk' L w) ∧
      ‖w - α / (1 - Pdm.geom x r α * β)‖ ≤
        2 / 10 ^ 13 * Pdm.condition x r α β * ‖α / (1 - Pdm.geom x r α * β)‖ + uro ^ 3 := by
  obtain ⟨g, hg, eg⟩ := Pdm.geom_near (L := L) hs hα hs1 hs2 hα2 hks0 hks hka0 hka
  have hgeom : α / (16 * Real.pi * ((r + x : ℝ) : ℂ) ^ 3) = Pdm.geom x r α := by
    unfold Pdm.geom
    push_cast
    ring
  rw [hgeom] at eg
  have hf2 := Pdm.geom_size (r := r) (x := x) hs1 hα2
  obtain ⟨d, hd, ed⟩ := den_near (L := L) (kf := ka + 3 * ks + 74) (by linarith) (by linarith) eg hbe hβ hf2
  have hD : 0 < ‖1 - Pdm.geom x r α * β‖ := norm_pos_iff.2 h0
  unfold Pdm.condition at hκ ⊢
  obtain ⟨w, hw, ew⟩ := pol_near (L := L) hα hα2 hka0 hka ed ((div_le_iff₀ hD).1 hκ) hf2 hβ
  refine ⟨w, ?_, ew⟩
  unfold Pdm.effPol
  rw [ha, PyM.ok_bind]
  simp only [hb, PyM.ok_bind, Option.getD_some, hg]
  rw [hd, hw]
  rfl

theorem Pdm.one_le_condition {x r : ℝ} {α β : ℂ} (h0 : 1 - Pdm.geom x r α * β ≠ 0) :
    1 / ‖1 - Pdm.geom x r α * β‖ ≤ Pdm.condition x r α β ∧ 1 ≤ Pdm.condition x r α β := by
  have hD : 0 < ‖1 - Pdm.geom x r α * β‖ := norm_pos_iff.2 h0
  unfold Pdm.condition
  have hF := norm_nonneg (Pdm.geom x r α)
  have hβ := norm_nonneg β
  have h1 : ‖β‖ ≤ (1 + ‖β‖) ^ 2 := by nlinarith
  have h2 := mul_le_mul_of_nonneg_left h1 hF
  constructor
  · refine div_le_div_of_nonneg_right ?_ hD.le
    have := mul_nonneg hF (sq_nonneg (1 + ‖β‖))
    linarith
  · rw [one_le_div hD]
    refine (norm_sub_le _ _).trans ?_
    rw [norm_one, norm_mul]
    linarith

/-- The sum of the tip's radius and a height. -/
theorem height_near {r rh x xh δ : ℝ} (hr : |rh - r| ≤ 2 * uro * |r|) (hx : |xh - x| ≤ δ) (hr0 : 0 < r) (hx0 : 0 ≤ x)
    (hδ : δ ≤ 130 * uro * (r + x)) (hs1 : (1 / 2) ^ 100 ≤ r + x) (hs2 : r + x ≤ 2 ^ 100) :
    (F64.fin rh + F64.fin xh : F64 L).Near (r + x) 135 := by
  have hu := uro_pos
  have hux := mul_nonneg hu.le hx0
  have hs : |r + x| = r + x := abs_of_pos (by linarith)
  rw [abs_of_pos hr0] at hr
  refine (F64.near_add (k := 132) ?_ (by norm_num) (by norm_num)
    (by rw [hs]; exact sized_of (a := 100) (b := 100) (by norm_num) (by norm_num) hs1 hs2)).mono (by norm_num)
  have e : rh + xh - (r + x) = (rh - r) + (xh - x) := by ring
  rw [e, hs]
  refine (abs_add_le _ _).trans ?_
  linarith

/-- The polarisability of a perfectly conducting sphere. -/
theorem conductor_near {rT : F64 L} {r : ℝ} (hr : rT.Near r 2) (h1 : (1 / 2) ^ 100 ≤ r) (h2 : r ≤ 2 ^ 90) :
    (ofR (lit 4 * lit Real.pi * RealOps.npow rT 3) : C128 L).Near ((4 * Real.pi * r ^ 3 : ℝ) : ℂ) 20 := by
  have hpi := Real.pi_gt_three
  have hpi' := Real.pi_le_four
  have hr0 : 0 < r := lt_of_lt_of_le (by positivity) h1
  have c1 : (1 / 2) ^ 300 ≤ r ^ 3 := by
    rw [show 300 = 100 * 3 from rfl, pow_mul]
    exact pow_le_pow_left₀ (by positivity) h1 3
  have c2 : r ^ 3 ≤ 2 ^ 270 := by
    rw [show 270 = 90 * 3 from rfl, pow_mul]
    exact pow_le_pow_left₀ hr0.le h2 3
  have c3 : 0 < r ^ 3 := by positivity
  have hpis : Sized |Real.pi| := by
    rw [abs_of_pos (by linarith)]
    refine sized_of (a := 0) (b := 2) (by norm_num) (by norm_num) ?_ ?_ <;> norm_num <;> linarith
  have h4 : (lit 4 : F64 L).Near 4 0 := by
    have := F64.near_nat (L := L) 4 (by norm_num)
    exact_mod_cast this
  have h4p := h4.mul (F64.near_lit (L := L) hpis) le_rfl (by norm_num) (by norm_num) (by norm_num) (by
    rw [abs_of_pos (by linarith)]
    refine sized_of (a := 0) (b := 4) (by norm_num) (by norm_num) ?_ ?_ <;> norm_num <;> linarith)
  have hc := hr.cube (by norm_num) (by norm_num) (by
    rw [abs_of_pos c3]
    exact sized_of (a := 300) (b := 270) (by norm_num) (by norm_num) c1 c2)
  refine ((h4p.mul hc (by norm_num) (by norm_num) (by norm_num) (by norm_num) ?_).mono (by norm_num)).ofR
  rw [abs_of_pos (by positivity)]
  refine sized_of (a := 300) (b := 274) (by norm_num) (by norm_num) ?_ ?_
  · calc ((1 : ℝ) / 2) ^ 300 ≤ 1 * r ^ 3 := by rw [one_mul]; exact c1
      _ ≤ _ := mul_le_mul_of_nonneg_right (by linarith) c3.le
  · calc 4 * Real.pi * r ^ 3 ≤ 2 ^ 4 * r ^ 3 := mul_le_mul_of_nonneg_right (by norm_num; linarith) c3.le
      _ ≤ 2 ^ 4 * 2 ^ 270 := mul_le_mul_of_nonneg_left c2 (by norm_num)
      _ = _ := by rw [← pow_add]

theorem sized_prod {N : ℕ} {κ a : ℝ} (h1 : 1 ≤ N) (h2 : (N : ℝ) ≤ 10 ^ 12) (hκ1 : 1 ≤ κ) (hκ : κ ≤ 10 ^ 10)
    (ha1 : (1 / 2) ^ 100 ≤ a) (ha2 : a ≤ 2 ^ 300) : Sized (N * (κ * a)) := by
  have ha : 0 < a := lt_of_lt_of_le (by positivity) ha1
  have h1 : (1 : ℝ) ≤ N := by exact_mod_cast h1
  have hκa : a ≤ κ * a := le_mul_of_one_le_left ha.le hκ1
  refine sized_of (a := 100) (b := 400) (by norm_num) (by norm_num) ?_ ?_
  · exact (ha1.trans hκa).trans (le_mul_of_one_le_left (ha.le.trans hκa) h1)
  · have h3 : N * κ ≤ 10 ^ 12 * 10 ^ 10 := mul_le_mul h2 hκ (by linarith) (by norm_num)
    have h4 : N * κ ≤ 2 ^ 100 := h3.trans (by norm_num)
    calc N * (κ * a) = N * κ * a := by ring
      _ ≤ 2 ^ 100 * 2 ^ 300 := mul_le_mul h4 ha2 ha.le (by positivity)
      _ = _ := by rw [← pow_add]

theorem demodSum_shift (G : ℝ → ℂ) (x c A n : ℝ) (N : ℕ) :
    demodSum (fun y => G (y + (x - c))) c A n N = demodSum G x A n N := by
  have e3 : ∀ t : ℝ, c + t + (x - c) = x + t := fun t => by ring
  unfold demodSum wave
  simp only [e3]

theorem pol_total {κ a n u : ℝ} {N : ℕ} (ha : 0 ≤ a) (hκ : 1 ≤ κ) (hu : u ≤ 1 / 10 ^ 16 * a) :
    101 / 100 * (2 / 10 ^ 13 * κ * (κ * a) + u) + (58 * n + 3 * N + 120) * uro * (κ * a) + u ≤
      (21 / 10 ^ 14 * κ ^ 2 + (58 * n + 3 * N + 120) * uro * κ) * a := by
  have h8 : a ≤ κ ^ 2 * a := le_mul_of_one_le_left ha (one_le_pow₀ hκ)
  have e4 : 2 / 10 ^ 13 * κ * (κ * a) = 2 / 10 ^ 13 * (κ ^ 2 * a) := by ring
  have e5 : (21 / 10 ^ 14 * κ ^ 2 + (58 * n + 3 * N + 120) * uro * κ) * a =
    21 / 10 ^ 14 * (κ ^ 2 * a) + (58 * n + 3 * N + 120) * uro * (κ * a) := by ring
  rw [e4, e5]
  have h9 : 0 ≤ κ ^ 2 * a := ha.trans h8
  linarith

/-- An approximate height. -/
theorem height_err {x c z A r t : ℝ} (hx : |x - (c + t)| ≤ 11 * uro * (|c| + A))
    (hc : |c - (z + A)| ≤ 11 / 10 * uro * (z + A)) (hc0 : |c| ≤ 101 / 100 * (z + A)) (ht : -A ≤ t) (hz : 0 ≤ z)
    (hA : 0 ≤ A) (hA2 : 2 * A ≤ 9 * r) : |x - (z + A + t)| ≤ 130 * uro * (r + (z + A + t)) := by
  have hu := uro_pos
  have h1 := abs_sub_le x (c + t) (z + A + t)
  have h2 : |c + t - (z + A + t)| ≤ 11 / 10 * uro * (z + A) := by
    rw [add_sub_add_right_eq_sub]
    exact hc
  have h4 : |c| + A ≤ 101 / 100 * (z + A) + A := by linarith
  have h5 := mul_le_mul_of_nonneg_left h4 (show 0 ≤ 11 * uro by linarith)
  have h7 : 11 * (101 / 100 * (z + A) + A) + 11 / 10 * (z + A) ≤ 130 * (r + (z + A + t)) := by linarith
  have := mul_le_mul_of_nonneg_left h7 hu.le
  linarith

/-- The harmonics. -/
theorem Pdm.effPolN_near (cfg : Env) {S : Stack (F64 L) (C128 L)} {a : PdmArgs (F64 L) (C128 L)} {rT zT : F64 L}
    {αh : C128 L} {r z A n κ ka : ℝ} {α b β : ℂ} {nT : Option ℕ} (ha : cfg.defaults.pdm a = .ok (rT, αh))
    (hb : S.reflCoefQs = .ok (C128.mk' L b)) (hbe : ‖b - β‖ ≤ 1 / 10 ^ 13 * (1 + ‖β‖) ^ 2) (hβ : 1 + ‖β‖ ≤ 10 ^ 12)
    (hr : rT.Near r 2) (hz : zT = .fin z) (hα : αh.Near α ka) (hka0 : 0 ≤ ka) (hka : ka ≤ 100)
    (hr1 : (1 / 2) ^ 100 ≤ r) (hs2 : r + z + 2 * A ≤ 2 ^ 100) (hz0 : 0 ≤ z) (hA : 0 < A)
    (hA2 : 2 * A ≤ 9 * r) (hA1 : (1 / 2) ^ 700 ≤ A) (hα1 : (1 / 2) ^ 100 ≤ ‖α‖) (hα2 : ‖α‖ ≤ 2 ^ 300)
    (hn : |n| ≤ 10 ^ 12) (hN0 : 1 ≤ nT.getD cfg.defaults.nTrapz)
    (hN : ((nT.getD cfg.defaults.nTrapz : ℕ) : ℝ) ≤ 10 ^ 12) (hκ : κ ≤ 10 ^ 10)
    (hres : ∀ x, z ≤ x → x ≤ z + 2 * A → 1 - Pdm.geom x r α * β ≠ 0 ∧ Pdm.condition x r α β ≤ κ) :
    ∃ w, Pdm.effPolN cfg S (.fin A) (.fin n) (some zT) nT a = .ok (C128.mk' L w) ∧
      ‖w - demodSum (fun x => α / (1 - Pdm.geom x r α * β)) (z + A) A n (nT.getD cfg.defaults.nTrapz)‖ ≤
        (21 / 10 ^ 14 * κ ^ 2 + (58 * |n| + 3 * (nT.getD cfg.defaults.nTrapz : ℕ) + 120) * uro * κ) * ‖α‖ := by
  subst hz
  obtain ⟨rh, rfl, hr⟩ := hr
  have hu := uro_pos
  have hu' := uro_le
  have he' := eta_lt
  have hr0 : 0 < r := lt_of_lt_of_le (by positivity) hr1
  have hα0 : 0 < ‖α‖ := lt_of_lt_of_le (by positivity) hα1
  have hzA : 0 < z + A := by linarith
  have hsz : Sized |z + A| := by
    rw [abs_of_pos hzA]
    exact sized_of (a := 700) (b := 100) (by norm_num) (by norm_num) (by linarith) (by linarith)
  -- the mean height
  set c := rnd (z + A) with hcdef
  have hce := rnd_err (z + A)
  rw [← hcdef] at hce
  have heta := hsz.eta_le
  rw [abs_of_pos hzA] at hce heta
  have hce2 : |c - (z + A)| ≤ 11 / 10 * uro * (z + A) := by
    have : 0 ≤ uro * (z + A) := by positivity
    linarith
  have hc0 : |c| ≤ 101 / 100 * (z + A) := by
    have h1 := abs_sub_abs_le_abs_sub c (z + A)
    rw [abs_of_pos hzA] at h1
    have h2 : uro * (z + A) ≤ 1 / 1000 * (z + A) := mul_le_mul_of_nonneg_right (by linarith) hzA.le
    linarith
  have hc1 : |c| + A ≤ 2 * (r + z + 2 * A) := by linarith
  have hx0 : (F64.fin z + F64.fin A : F64 L) = .fin c := by
    rw [F64.fin_add]
    refine F64.ofReal_fin ?_
    have h1 := hsz.le_max
    rw [abs_of_pos hzA] at h1 ⊢
    have h2 : uro / 10 ^ 6 * (z + A) ≤ 1 * (z + A) := mul_le_mul_of_nonneg_right (by linarith) hzA.le
    have h3 : (z + A) * (1 + uro) ≤ (z + A) * 2 := mul_le_mul_of_nonneg_left (by linarith) hzA.le
    linarith
  obtain ⟨-, hκ1⟩ := Pdm.one_le_condition (hres z le_rfl (by linarith)).1
  have hκ1 : 1 ≤ κ := hκ1.trans (hres z le_rfl (by linarith)).2
  have hu3 : uro ^ 3 ≤ 1 / 10 ^ 16 * ‖α‖ := by
    have h1 : uro ^ 3 ≤ 1 / 10 ^ 16 * (1 / 2) ^ 100 := by
      rw [uro3_pow]
      norm_num
    linarith
  have hκα : ‖α‖ ≤ κ * ‖α‖ := le_mul_of_one_le_left hα0.le hκ1
  have hsized : ∀ N : ℕ, 1 ≤ N → (N : ℝ) ≤ 10 ^ 12 → Sized (N * (κ * ‖α‖)) := fun N h1 h2 =>
    sized_prod h1 h2 hκ1 hκ hα1 hα2
  have hcosl : ∀ θ, -A ≤ Real.cos θ * A := fun θ => by nlinarith [Real.neg_one_le_cos θ]
  have hcosr : ∀ θ, Real.cos θ * A ≤ A := fun θ => by nlinarith [Real.cos_le_one θ]
  let G : ℝ → ℂ := fun x => α / (1 - Pdm.geom x r α * β)
  have hG : ∀ x, z ≤ x → x ≤ z + 2 * A → ‖G x‖ ≤ κ * ‖α‖ := fun x h1 h2 => by
    obtain ⟨h3, h4⟩ := hres x h1 h2
    have h5 := (Pdm.one_le_condition h3).1.trans h4
    show ‖α / _‖ ≤ _
    rw [norm_div, div_eq_mul_one_div, mul_comm]
    exact mul_le_mul_of_nonneg_right h5 hα0.le
  obtain ⟨w, hw, ew⟩ := demod_near (L := L) cfg (f := fun x => Pdm.effPol cfg S (some x) a)
    (g := fun x => G (x + (z + A - c))) (x0 := c) (A := A) (n := n)
    (ε := 2 / 10 ^ 13 * κ * (κ * ‖α‖) + uro ^ 3) (M := κ * ‖α‖) (nT := nT)
    hA.le (by
      refine sized_of (a := 700) (b := 200) (by norm_num) (by norm_num) (by linarith [abs_nonneg c]) ?_
      have h2 : (2 : ℝ) * 2 ^ 100 ≤ 2 ^ 200 := by norm_num
      linarith) hn hN0 hN
    (by have := hsized 1 le_rfl (by norm_num); rwa [Nat.cast_one, one_mul] at this) (hsized _ hN0 hN)
    (by
      have h1 : 2 / 10 ^ 13 * κ * (κ * ‖α‖) ≤ 2 / 10 ^ 3 * (κ * ‖α‖) :=
        mul_le_mul_of_nonneg_right (by linarith) (by positivity)
      linarith)
    (fun θ x hx => by
      have hxl := hcosl θ
      have hxr := hcosr θ
      have hxy := height_err hx hce2 hc0 hxl hz0 hA.le hA2
      have e1 : c + Real.cos θ * A + (z + A - c) = z + A + Real.cos θ * A := by ring
      have y1 : z ≤ z + A + Real.cos θ * A := by linarith
      have y2 : z + A + Real.cos θ * A ≤ z + 2 * A := by linarith
      simp only [e1]
      generalize z + A + Real.cos θ * A = y at *
      obtain ⟨h3, h4⟩ := hres y y1 y2
      obtain ⟨w, hw, ew⟩ := Pdm.effPol_near (L := L) cfg ha hb hbe hβ
        (height_near (r := r) (rh := rh) (x := y) (xh := x) hr hxy hr0 (by linarith) le_rfl (by linarith) (by linarith))
        hα (by linarith) (by linarith) hα2 (by norm_num) (by norm_num) hka0 hka h3 (h4.trans hκ)
      refine ⟨w, hw, ?_⟩
      refine ew.trans ?_
      have h5 := hG y y1 y2
      have h6 : 2 / 10 ^ 13 * Pdm.condition y r α β ≤ 2 / 10 ^ 13 * κ := by linarith
      have h7 := mul_le_mul h6 h5 (norm_nonneg _) (by positivity)
      show 2 / 10 ^ 13 * Pdm.condition y r α β * ‖G y‖ + _ ≤ _
      linarith)
    (fun θ => by
      have e1 : c + Real.cos θ * A + (z + A - c) = z + A + Real.cos θ * A := by ring
      simp only [e1]
      exact hG _ (by linarith [hcosl θ]) (by linarith [hcosr θ]))
  refine ⟨w, ?_, ?_⟩
  · unfold Pdm.effPolN
    simp only [Option.getD_some]
    rw [hx0]
    exact hw
  · rw [demodSum_shift G] at ew
    exact ew.trans (pol_total hα0.le hκ1 hu3)

end Snompy
