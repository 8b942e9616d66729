import Verif.Lemmas.DoubleFdmPol
import Verif.Props.DoublePol
import Verif.Props.TaylorError

/-!
# C93: rounding errors of the finite dipole model

`F64 L`/`C128 L` are the double-precision readings (`Verif/Double.lean`); `Fdm.Range`, `Fdm.size` and `Fdm.condition` are
the range and the condition number of the finite dipole model (`Verif/Spec/Condition.lean`).
-/

namespace Snompy.Props

open Snompy

variable {L : Libm}

seal uro eta maxDouble

/-! ## C93 Rounding errors of the finite dipole model -/

/-- The arguments of a tip in double precision. -/
def fdmTipC128 (L : Libm) (r l : ℝ) (g : ℂ) (d0 d1 dA : ℝ) : FdmArgs (F64 L) (C128 L) :=
  ⟨some (.fin r), some (.fin l), some ⟨.fin g.re, .fin g.im⟩, some (.fin d0), some (.fin d1), some (.fin dA)⟩

theorem fdmTipC128_near (cfg : Env) (r l : ℝ) (g : ℂ) (d0 d1 dA : ℝ) :
    Fdm.TipNear (cfg.defaults.fdm (fdmTipC128 L r l g d0 d1 dA)) d0 d1 r l g :=
  ⟨(F64.near_fin r).mono (by norm_num), (F64.near_fin l).mono (by norm_num), (C128.near_mk' g).mono (by norm_num),
    (F64.near_fin d0).mono (by norm_num), (F64.near_fin d1).mono (by norm_num)⟩

theorem Range.ok {z d r l : ℝ} {g : ℂ} (R : Fdm.Range z d r l g) : Fdm.GeomOk z d r l := by
  have hr : 0 < r := lt_of_lt_of_le (by positivity) R.r_ge
  have hl : 0 < l := lt_of_lt_of_le (by positivity) R.l_ge
  refine ⟨hr, hl, fun h => ?_, ?_⟩
  · have h1 := R.log_ge
    rw [← h, div_self hr.ne', Real.log_one, abs_zero] at h1
    norm_num at h1
  · have := mul_nonneg R.d_nonneg hr.le
    have := R.z_nonneg
    linarith

theorem pol_val (cfg : Env) {env sub : ℂ} (hs : sub ≠ 0) (h0 : sub + env ≠ 0) {z r l : ℝ} {g : ℂ} {d0 d1 : ℝ} (dA : ℝ)
    (h1 : Fdm.GeomOk z d0 r l) (h2 : Fdm.GeomOk z d1 r l)
    (hD : 1 - (sub - env) / (sub + env) * Fdm.geom z d1 r l g ≠ 0) (nLag : Option ℕ) :
    Fdm.effPol cfg (bulk env sub) (some (FP.num z)) (fdmTip r l g d0 d1 dA) nLag none =
      .ok (FP.num (Fdm.pol z d0 d1 r l g ((sub - env) / (sub + env)))) := by
  rw [Fdm.effPol_default]
  exact effPol_val cfg (bulk env sub) rfl _ (C09_refl env sub none _ hs h0) z r l g d0 d1 dA h1 h2 hD nLag

/-- A tip at one height above a bulk sample. -/
theorem C93_tip (cfg : Env) (env sub : ℂ) (he : Moderate env) (hs : Moderate sub) (h0 : sub + env ≠ 0) (β : ℂ)
    (hβ : β = (sub - env) / (sub + env)) (hβ2 : 1 + ‖β‖ ≤ 10 ^ 12) (z r l : ℝ) (g : ℂ) (d0 d1 dA : ℝ)
    (R0 : Fdm.Range z d0 r l g) (R1 : Fdm.Range z d1 r l g) (hD : 1 - β * Fdm.geom z d1 r l g ≠ 0)
    (hκ : Fdm.condition z d0 d1 r l g β ≤ 10 ^ 9) (nLag : Option ℕ) :
    ∃ w v : ℂ, Fdm.effPol cfg (layeredC128 L env [] sub) (some (.fin z)) (fdmTipC128 L r l g d0 d1 dA) nLag none =
        .ok ⟨.fin w.re, .fin w.im⟩ ∧
      Fdm.effPol cfg (bulk env sub) (some (FP.num z)) (fdmTip r l g d0 d1 dA) nLag none = .ok (FP.num v) ∧
      ‖w - v‖ ≤ 4 / 10 ^ 13 * Fdm.condition z d0 d1 r l g β * (1 + ‖v - 1‖) := by
  have hs0 := hs.ne_zero
  subst hβ
  obtain ⟨b, hb, hbe⟩ := bulk_reflCoefQs (L := L) he hs h0 hβ2
  obtain ⟨w, hw, ew⟩ := Fdm.effPol_near (L := L) cfg (S := layeredC128 L env [] sub) rfl (zT := .fin z) nLag
    (fdmTipC128_near cfg r l g d0 d1 dA) hb hbe hβ2 R0 R1 ⟨z, rfl, by
      rw [sub_self, abs_zero]
      have := uro_pos
      have := Range.ok R0
      have := this.r_pos
      have := R0.z_nonneg
      positivity⟩ hD hκ
  exact ⟨w, _, hw, pol_val cfg hs0 h0 dA (Range.ok R0) (Range.ok R1) hD nLag, ew⟩

/-- The harmonics of its signal, for a tip whose signal stays within `M` of 1. -/
theorem C93_harmonics (cfg : Env) (env sub : ℂ) (he : Moderate env) (hs : Moderate sub) (h0 : sub + env ≠ 0) (β : ℂ)
    (hβ : β = (sub - env) / (sub + env)) (hβ2 : 1 + ‖β‖ ≤ 10 ^ 12) (z amp r l κ M n : ℝ) (g : ℂ) (d0 d1 dA : ℝ) (N : ℕ)
    (R : ∀ x, z ≤ x → x ≤ z + 2 * amp → Fdm.Range x d0 r l g ∧ Fdm.Range x d1 r l g)
    (hA : (1 / 2) ^ 700 ≤ amp) (hA' : 2 * amp ≤ 9 * r) (hn : |n| ≤ 10 ^ 12) (hN : 1 ≤ N) (hN' : (N : ℝ) ≤ 10 ^ 12)
    (hres : ∀ x, z ≤ x → x ≤ z + 2 * amp → 1 - β * Fdm.geom x d1 r l g ≠ 0 ∧ Fdm.condition x d0 d1 r l g β ≤ κ ∧
      ‖β * Fdm.geom x d0 r l g / (2 * (1 - β * Fdm.geom x d1 r l g))‖ ≤ M)
    (hκ1 : 1 ≤ κ) (hκ : κ ≤ 10 ^ 9) (hM : M ≤ 10 ^ 9) (nLag : Option ℕ) :
    ∃ w v : ℂ, Fdm.effPolN cfg (layeredC128 L env [] sub) (.fin amp) (.fin n) (some (.fin z)) (some N)
        (fdmTipC128 L r l g d0 d1 dA) nLag none = .ok ⟨.fin w.re, .fin w.im⟩ ∧
      Fdm.effPolN cfg (bulk env sub) (FP.num amp) (FP.num n) (some (FP.num z)) (some N) (fdmTip r l g d0 d1 dA) nLag
        none = .ok (FP.num v) ∧
      ‖w - v‖ ≤ (41 / 10 ^ 14 * κ + (58 * |n| + 3 * N + 120) * (1 / 2) ^ 53) * (1 + M) := by
  have hs0 := hs.ne_zero
  subst hβ
  have hA0 : 0 < amp := lt_of_lt_of_le (by positivity) hA
  obtain ⟨b, hb, hbe⟩ := bulk_reflCoefQs (L := L) he hs h0 hβ2
  obtain ⟨w, hw, ew⟩ := Fdm.effPolN_near (L := L) cfg (S := layeredC128 L env [] sub) rfl (n := n) (nT := some N)
    (κ := κ) (M := M) nLag (fdmTipC128_near cfg r l g d0 d1 dA) hb hbe hβ2 R hA0 hA' hA hn hN hN' hκ1 hκ hM
    fun x h1 h2 => by
      rw [Fdm.pol_sub_one]
      exact hres x h1 h2
  have hu : uro = (1 / 2) ^ 53 := by unfold uro; norm_num
  rw [hu] at ew
  refine ⟨w, _, hw, ?_, ew⟩
  have hval : ∀ x, z ≤ x → x ≤ z + 2 * amp → Fdm.effPol cfg (bulk env sub) (some (FP.num x)) (fdmTip r l g d0 d1 dA)
      nLag none = .ok (FP.num (Fdm.pol x d0 d1 r l g ((sub - env) / (sub + env)))) := fun x h1 h2 =>
    pol_val cfg hs0 h0 dA (Range.ok (R x h1 h2).1) (Range.ok (R x h1 h2).2) (hres x h1 h2).1 nLag
  unfold Fdm.effPolN
  simp only [Option.getD_some, FP.num_add]
  exact demod_eval cfg _ (fun x => Fdm.pol x d0 d1 r l g ((sub - env) / (sub + env))) _ _ _ (some N) (by
      rw [Option.getD_some]; omega) ⟨_, hval _ (by linarith) (by linarith)⟩ fun θ =>
    hval _ (by nlinarith [Real.neg_one_le_cos θ]) (by nlinarith [Real.cos_le_one θ])

/-! ### The default tip -/

theorem log_sixty : 4 ≤ Real.log 60 := by
  rw [Real.le_log_iff_exp_le (by norm_num)]
  have h1 := Real.exp_one_lt_d9
  have h2 : Real.exp 4 = Real.exp 1 ^ 4 := by rw [← Real.exp_nat_mul]; norm_num
  rw [h2]
  calc Real.exp 1 ^ 4 ≤ 2.7182818286 ^ 4 := pow_le_pow_left₀ (Real.exp_pos _).le h1.le 4
    _ ≤ 60 := by norm_num

theorem gDefault_norm : ‖gDefault‖ = 0.7 := by
  unfold gDefault
  have h : (0.06 : ℂ) * Complex.I = ((0.06 : ℝ) : ℂ) * Complex.I := by norm_num
  rw [norm_mul, h, Complex.norm_exp_ofReal_mul_I, mul_one]
  norm_num

theorem gDefault_re (t : ℝ) : (gDefault - (t : ℂ)).re = 0.7 * Real.cos 0.06 - t := by
  have : gDefault = ((0.7 : ℝ) : ℂ) * Complex.exp (((0.06 : ℝ) : ℂ) * Complex.I) := by
    unfold gDefault
    norm_num
  rw [this, Complex.sub_re, Complex.re_ofReal_mul, Complex.exp_ofReal_mul_I_re, Complex.ofReal_re]

theorem range_default {x d : ℝ} (hd : 1 / 2 ≤ d) (hd' : d ≤ 2) (hx : 0 ≤ x) (hx' : x ≤ 120e-9) :
    Fdm.Range x d 20e-9 300e-9 gDefault where
  z_nonneg := hx
  d_nonneg := by linarith
  r_ge := by norm_num
  l_ge := by norm_num
  l_le := by norm_num
  len := by
    norm_num
    linarith
  g_le := by
    rw [gDefault_norm]
    norm_num
  log_ge := by
    rw [show (4 * 300e-9 / 20e-9 : ℝ) = 60 by norm_num]
    have := log_sixty
    rw [abs_of_pos (by linarith)]
    norm_num
    linarith

theorem size_default {x d : ℝ} (hd : 1 / 2 ≤ d) (hd' : d ≤ 2) (hx : 0 ≤ x) (hx' : x ≤ 120e-9) :
    0 ≤ Fdm.size x d 20e-9 300e-9 gDefault ∧ Fdm.size x d 20e-9 300e-9 gDefault ≤ 2 := by
  unfold Fdm.size
  rw [gDefault_norm, show (4 * 300e-9 / 20e-9 : ℝ) = 60 by norm_num]
  have h60 := log_sixty
  have hpos : (0 : ℝ) < 20e-9 + 4 * x + 2 * d * 20e-9 := by linarith
  have hu : (4 * 300e-9 : ℝ) / (20e-9 + 4 * x + 2 * d * 20e-9) ≤ 60 := by
    rw [div_le_iff₀ hpos]
    linarith
  have hu' : (1 : ℝ) ≤ 4 * 300e-9 / (20e-9 + 4 * x + 2 * d * 20e-9) := by
    rw [le_div_iff₀ hpos]
    linarith
  have h1 : 0 ≤ Real.log (4 * 300e-9 / (20e-9 + 4 * x + 2 * d * 20e-9)) := Real.log_nonneg hu'
  have h2 : Real.log (4 * 300e-9 / (20e-9 + 4 * x + 2 * d * 20e-9)) ≤ Real.log 60 := Real.log_le_log (by linarith) hu
  have h3 : (20e-9 + 2 * x + d * 20e-9) / (2 * 300e-9) ≤ 0.5 := by
    rw [div_le_iff₀ (by norm_num)]
    linarith
  have h4 : 0 ≤ (20e-9 + 2 * x + d * 20e-9) / (2 * 300e-9) := by positivity
  rw [abs_of_nonneg h1, abs_of_pos (by linarith : 0 < Real.log 60)]
  generalize (20e-9 + 2 * x + d * 20e-9) / (2 * 300e-9) = P at *
  generalize Real.log (4 * 300e-9 / (20e-9 + 4 * x + 2 * d * 20e-9)) = ℓ at *
  generalize Real.log 60 = m at *
  refine ⟨by positivity, ?_⟩
  rw [← mul_div_assoc, div_le_iff₀ (by positivity)]
  have h5 : (0.7 + P) * (1 + ℓ) ≤ 1.2 * (1 + m) := mul_le_mul (by linarith) (by linarith) (by linarith) (by norm_num)
  have h6 := mul_le_mul_of_nonneg_right h5 (show 0 ≤ 1 + m by linarith)
  nlinarith

theorem condition_default {x d0 d1 : ℝ} {β : ℂ} (h0 : 1 / 2 ≤ d0) (h0' : d0 ≤ 2) (h1 : 1 / 2 ≤ d1) (h1' : d1 ≤ 2)
    (hx : 0 ≤ x) (hx' : x ≤ 120e-9) (hβ : ‖β‖ ≤ 1) :
    1 - β * Fdm.geom x d1 20e-9 300e-9 gDefault ≠ 0 ∧ Fdm.condition x d0 d1 20e-9 300e-9 gDefault β ≤ 44 ∧
      ‖β * Fdm.geom x d0 20e-9 300e-9 gDefault / (2 * (1 - β * Fdm.geom x d1 20e-9 300e-9 gDefault))‖ ≤ 0.6 := by
  have g0 := geom_default h0 h0' hx hx'
  have g1 := geom_default h1 h1' hx hx'
  obtain ⟨s0, s0'⟩ := size_default h0 h0' hx hx'
  obtain ⟨s1, s1'⟩ := size_default h1 h1' hx hx'
  have hβ0 := norm_nonneg β
  have hD : 0.459 ≤ ‖1 - β * Fdm.geom x d1 20e-9 300e-9 gDefault‖ := by
    have h1 := norm_sub_norm_le (1 : ℂ) (β * Fdm.geom x d1 20e-9 300e-9 gDefault)
    rw [norm_one, norm_mul] at h1
    have := mul_le_mul hβ g1 (norm_nonneg _) (by norm_num)
    linarith
  refine ⟨norm_pos_iff.1 (by linarith), ?_, ?_⟩
  · unfold Fdm.condition
    rw [div_le_iff₀ (by linarith)]
    have h2 : (1 + ‖β‖) ^ 2 ≤ 4 := by nlinarith
    have h3 := mul_le_mul h2 (show 1 + Fdm.size x d0 20e-9 300e-9 gDefault + Fdm.size x d1 20e-9 300e-9 gDefault ≤ 5 by
      linarith) (by linarith) (by norm_num)
    linarith
  · rw [norm_div, norm_mul, norm_mul, Complex.norm_ofNat, div_le_iff₀ (by linarith)]
    have := mul_le_mul hβ g0 (norm_nonneg _) (by norm_num)
    linarith

theorem gDefault_near : (clit gDefault : C128 L).Near gDefault 2 := by
  have hre : gDefault.re = 0.7 * Real.cos 0.06 := by
    have := gDefault_re 0
    rwa [Complex.sub_re, Complex.ofReal_re, sub_zero, sub_zero] at this
  have him : gDefault.im = 0.7 * Real.sin 0.06 := by
    have := gDefault_im 0
    rwa [Complex.sub_im, Complex.ofReal_im, sub_zero] at this
  have hc : 0.9 ≤ Real.cos 0.06 := by
    have := Real.one_sub_sq_div_two_le_cos (x := 0.06)
    norm_num at this ⊢
    linarith
  have hc' := Real.cos_le_one 0.06
  have hs : 0.05 ≤ Real.sin 0.06 := by
    have := Real.sin_gt_sub_cube (x := 0.06) (by norm_num)
    norm_num at this ⊢
    linarith
  have hs' : Real.sin 0.06 ≤ 0.06 := Real.sin_le (by norm_num)
  have near : ∀ v : ℝ, 0.03 ≤ v → v ≤ 1 → (lit v : F64 L).Near v (1 + 1 / 100) := fun v h1 h2 => by
    refine F64.near_lit ?_
    rw [abs_of_pos (by linarith)]
    exact sized_of (a := 10) (b := 0) (by norm_num) (by norm_num) (by norm_num at h1 ⊢; linarith) (by norm_num; linarith)
  obtain ⟨x, hx, ex⟩ := near gDefault.re (by rw [hre]; norm_num at hc ⊢; linarith) (by rw [hre]; norm_num; linarith)
  obtain ⟨y, hy, ey⟩ := near gDefault.im (by rw [him]; norm_num at hs ⊢; linarith) (by rw [him]; norm_num; linarith)
  refine ⟨⟨x, y⟩, ?_, ?_⟩
  · show C128.ofComplex gDefault = _
    unfold C128.ofComplex C128.mk'
    rw [← hx, ← hy]
    rfl
  · have h3 := Complex.norm_le_abs_re_add_abs_im ((⟨x, y⟩ : ℂ) - gDefault)
    rw [Complex.sub_re, Complex.sub_im] at h3
    have hu := uro_pos
    have h1 : |gDefault.re| ≤ 0.7 := by
      rw [hre, abs_of_pos (by linarith)]
      linarith
    have h2 : |gDefault.im| ≤ 0.05 := by
      rw [him, abs_of_pos (by linarith)]
      norm_num at hs' ⊢
      linarith
    have h4 := mul_le_mul_of_nonneg_left (add_le_add h1 h2) hu.le
    rw [gDefault_norm]
    refine h3.trans ?_
    show |x - gDefault.re| + |y - gDefault.im| ≤ _
    generalize |gDefault.re| = a at *
    generalize |gDefault.im| = b at *
    norm_num at h4 ex ey ⊢
    linarith

/-- The default charge position `1.31 L / (L + 2 r)`. -/
theorem default_d0_near {rT lT : F64 L} (hr : rT.Near 20e-9 2) (hl : lT.Near 300e-9 2) :
    (lit 1.31 * lT / (lT + lit 2 * rT)).Near (1.31 * 300e-9 / (300e-9 + 2 * 20e-9)) 20 := by
  have hu := uro_pos
  have h1 : (lit (1.31 : ℝ) : F64 L).Near 1.31 (1 + 1 / 100) := by
    refine F64.near_lit ?_
    rw [abs_of_pos (by norm_num)]
    refine sized_of (a := 1) (b := 1) (by norm_num) (by norm_num) ?_ ?_ <;> norm_num
  have h2 := h1.mul hl (by norm_num) (by norm_num) (by norm_num) (by norm_num) (by
    rw [abs_of_pos (by norm_num)]
    refine sized_of (a := 30) (b := 0) (by norm_num) (by norm_num) ?_ ?_ <;> norm_num)
  have h3 : (lit 2 * rT : F64 L).Near (2 * 20e-9) 4 := by
    have := F64.lit_mul_near (L := L) (c := 2) hr (by norm_num) (by norm_num) (by norm_num) (by
      push_cast
      rw [abs_of_pos (by norm_num)]
      refine sized_of (a := 30) (b := 0) (by norm_num) (by norm_num) ?_ ?_ <;> norm_num)
    push_cast at this
    exact this.mono (by norm_num)
  have h4 : (lT + lit 2 * rT : F64 L).Near (300e-9 + 2 * 20e-9) 6 := by
    obtain ⟨x, rfl, hx⟩ := hl
    obtain ⟨y, hy, ey⟩ := h3
    rw [hy]
    refine (F64.near_add (k := 4) ?_ (by norm_num) (by norm_num) (by
      rw [abs_of_pos (by norm_num)]
      refine sized_of (a := 30) (b := 0) (by norm_num) (by norm_num) ?_ ?_ <;> norm_num)).mono (by norm_num)
    have e : x + y - (300e-9 + 2 * 20e-9) = (x - 300e-9) + (y - 2 * 20e-9) := by ring
    rw [e]
    refine (abs_add_le _ _).trans ?_
    rw [abs_of_pos (show (0 : ℝ) < 300e-9 by norm_num)] at hx
    rw [abs_of_pos (show (0 : ℝ) < 2 * 20e-9 by norm_num)] at ey
    rw [abs_of_pos (show (0 : ℝ) < 300e-9 + 2 * 20e-9 by norm_num)]
    linarith
  refine (h2.div h4 (by norm_num) (by norm_num) (by norm_num) (by norm_num) (by norm_num) ?_).mono (by norm_num)
  rw [abs_of_pos (by norm_num)]
  refine sized_of (a := 1) (b := 1) (by norm_num) (by norm_num) ?_ ?_ <;> norm_num

theorem default_fdm_near (lag : ℕ → List (ℝ × ℝ)) : Fdm.TipNear ((⟨Defaults.initial, lag⟩ : Env).defaults.fdm
      ({} : FdmArgs (F64 L) (C128 L))) (1.31 * 300e-9 / (300e-9 + 2 * 20e-9)) 0.5 20e-9 300e-9 gDefault := by
  have hl : (lit Defaults.initial.lTip : F64 L).Near 300e-9 2 := by
    show (lit (300e-9 : ℝ) : F64 L).Near 300e-9 2
    refine (F64.near_lit (L := L) ?_).mono (by norm_num)
    rw [abs_of_pos (by norm_num)]
    refine sized_of (a := 30) (b := 0) (by norm_num) (by norm_num) ?_ ?_ <;> norm_num
  refine ⟨default_radius, hl, gDefault_near, default_d0_near default_radius hl, ?_⟩
  show (lit (0.5 : ℝ) : F64 L).Near 0.5 20
  refine (F64.near_lit (L := L) ?_).mono (by norm_num)
  rw [abs_of_pos (by norm_num)]
  refine sized_of (a := 1) (b := 0) (by norm_num) (by norm_num) ?_ ?_ <;> norm_num

/-- The default tip, height and 32 trapezia: for amplitudes between `10⁻¹⁵` m and 60 nm and reflection coefficients of
modulus at most 1, the first five harmonics are computed with rounding errors below `3 · 10⁻¹¹`. -/
theorem C93_default (lag : ℕ → List (ℝ × ℝ)) (env sub : ℂ) (he : Moderate env) (hs : Moderate sub) (h0 : sub + env ≠ 0)
    (hβ : ‖(sub - env) / (sub + env)‖ ≤ 1) (amp : ℝ) (hA : 1e-15 ≤ amp) (hA' : amp ≤ 60e-9) (n : ℤ) (hn : |n| ≤ 5) :
    ∃ w v : ℂ, Fdm.effPolN ⟨Defaults.initial, lag⟩ (layeredC128 L env [] sub) (.fin amp) (.fin n) none none {} none none =
        .ok ⟨.fin w.re, .fin w.im⟩ ∧
      Fdm.effPolN ⟨Defaults.initial, lag⟩ (bulk env sub) (FP.num amp) (FP.num n) none none {} none none =
        .ok (FP.num v) ∧
      ‖w - v‖ ≤ 3e-11 := by
  have hs0 := hs.ne_zero
  have hA0 : 0 < amp := lt_of_lt_of_le (by norm_num) hA
  obtain ⟨b, hb, hbe⟩ := bulk_reflCoefQs (L := L) he hs h0 (by linarith)
  have hn' : |(n : ℝ)| ≤ 5 := by exact_mod_cast hn
  obtain ⟨g0, g0'⟩ := d0_default
  set d0 : ℝ := 1.31 * 300e-9 / (300e-9 + 2 * 20e-9) with hd0
  have hA2 : 2 * amp ≤ 120e-9 := by norm_num at hA' ⊢; linarith
  have hc := fun (x : ℝ) (h1 : 0 ≤ x) (h2 : x ≤ 0 + 2 * amp) => condition_default (x := x) (d1 := 0.5) g0 g0'
    (by norm_num) (by norm_num) h1 (by linarith) hβ
  obtain ⟨w, hw, ew⟩ := Fdm.effPolN_near (L := L) ⟨Defaults.initial, lag⟩ (S := layeredC128 L env [] sub) rfl (a := {})
    (z := 0) (n := n) (nT := none) (κ := 44) (M := 0.6) none (default_fdm_near lag) hb hbe (by linarith)
    (fun x h1 h2 => ⟨range_default g0 g0' h1 (by linarith),
      range_default (by norm_num) (by norm_num) h1 (by linarith)⟩) hA0 (by norm_num at hA2 ⊢; linarith)
    ((pow_le_pow_of_le_one (by norm_num) (by norm_num) (show 100 ≤ 700 by norm_num)).trans
      (le_trans (by norm_num) hA))
    (hn'.trans (by norm_num))
    (show 1 ≤ 32 by norm_num) (show ((32 : ℕ) : ℝ) ≤ 10 ^ 12 by norm_num) (by norm_num) (by norm_num) (by norm_num)
    fun x h1 h2 => by
      rw [Fdm.pol_sub_one]
      exact hc x h1 h2
  refine ⟨w, _, ?_, ?_, ew.trans ?_⟩
  · rw [← F64.ofReal_zero] at hw
    exact hw
  · have hval : ∀ x, 0 ≤ x → x ≤ 0 + 2 * amp →
        Fdm.effPol ⟨Defaults.initial, lag⟩ (bulk env sub) (some (FP.num x)) {} none none =
        .ok (FP.num (Fdm.pol x d0 0.5 20e-9 300e-9 gDefault ((sub - env) / (sub + env)))) := fun x h1 h2 => by
      rw [← pol_val ⟨Defaults.initial, lag⟩ hs0 h0 1.4 (geomOk_default g0 h1)
        (geomOk_default (by norm_num) h1) (hc x h1 h2).1 none]
      unfold Fdm.effPol
      rw [fdm_default]
    have h := demod_eval ⟨Defaults.initial, lag⟩
      (fun x => Fdm.effPol ⟨Defaults.initial, lag⟩ (bulk env sub) (some x) {} none none)
      (fun x => Fdm.pol x d0 0.5 20e-9 300e-9 gDefault ((sub - env) / (sub + env))) (0 + amp) amp n none
      (show 32 ≠ 0 by norm_num) ⟨_, hval _ (by linarith) (by linarith)⟩
      fun θ => hval _ (by nlinarith [Real.neg_one_le_cos θ]) (by nlinarith [Real.cos_le_one θ])
    rw [← FP.num_add] at h
    exact h
  · show (41 / 10 ^ 14 * 44 + (58 * |(n : ℝ)| + 3 * (32 : ℕ) + 120) * uro) * (1 + 0.6) ≤ 3e-11
    have hu := uro_le
    have hu0 := uro_pos
    have h1 : (58 * |(n : ℝ)| + 3 * (32 : ℕ) + 120) * uro ≤ 506 * (1111 / 10 ^ 19) := by
      refine mul_le_mul ?_ hu hu0.le (by norm_num)
      push_cast
      linarith
    norm_num at h1 ⊢
    linarith

/-- The default tip at rest on a surface of permittivity 2, its third harmonic for an amplitude of 50 nm. -/
example (cfg : Env) := C93_tip (L := Libm.exact) cfg 1 2 moderate_one moderate_two (by norm_num) (1 / 3) (by norm_num)
    (by norm_num) 0 20e-9 300e-9 gDefault 1 0.5 1.4 (range_default (by norm_num) (by norm_num) le_rfl (by norm_num))
    (range_default (by norm_num) (by norm_num) le_rfl (by norm_num))
    (condition_default (d0 := 1) (by norm_num) (by norm_num) (by norm_num) (by norm_num) le_rfl (by norm_num)
      (by norm_num)).1
    ((condition_default (by norm_num) (by norm_num) (by norm_num) (by norm_num) le_rfl (by norm_num)
      (by norm_num)).2.1.trans (by norm_num)) none
example (cfg : Env) := C93_harmonics (L := Libm.exact) cfg 1 2 moderate_one moderate_two (by norm_num) (1 / 3)
    (by norm_num) (by norm_num) 0 50e-9 20e-9 300e-9 44 0.6 3 gDefault 1 0.5 1.4 32
    (fun x h1 h2 => ⟨range_default (by norm_num) (by norm_num) h1 (by norm_num at h2 ⊢; linarith),
      range_default (by norm_num) (by norm_num) h1 (by norm_num at h2 ⊢; linarith)⟩)
    ((pow_le_pow_of_le_one (by norm_num) (by norm_num) (show 100 ≤ 700 by norm_num)).trans (by norm_num)) (by norm_num)
    (by norm_num) (by norm_num) (by norm_num)
    (fun x h1 h2 => condition_default (by norm_num) (by norm_num) (by norm_num) (by norm_num) h1
      (by norm_num at h2 ⊢; linarith) (by norm_num)) (by norm_num) (by norm_num) (by norm_num) none
example (lag : ℕ → List (ℝ × ℝ)) := C93_default (L := Libm.exact) lag 1 2 moderate_one moderate_two (by norm_num)
    (by norm_num) 50e-9 (by norm_num) (by norm_num) 3 (by norm_num)

end Snompy.Props
