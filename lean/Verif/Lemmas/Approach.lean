import Verif.Spec.Geometry
import Mathlib.Analysis.SpecialFunctions.Log.Deriv
import Mathlib.Analysis.Calculus.Deriv.MeanValue
import Mathlib.Analysis.Calculus.Deriv.Inv
import Mathlib.Analysis.Complex.RealDeriv

/-!
# Sectors of the complex plane and the slope of the finite dipole approach curve
-/

namespace Snompy

/-- The open sector around the positive real axis whose edges have slope `k`. -/
structure Sec (k : ℝ) (z : ℂ) : Prop where
  re_pos : 0 < z.re
  im_le : |z.im| ≤ k * z.re

namespace Sec

theorem mono {k m : ℝ} {z : ℂ} (h : Sec k z) (hkm : k ≤ m) : Sec m z :=
  ⟨h.re_pos, h.im_le.trans (mul_le_mul_of_nonneg_right hkm h.re_pos.le)⟩

theorem nonneg {k : ℝ} {z : ℂ} (h : Sec k z) : 0 ≤ k := by
  have h1 := (abs_nonneg _).trans h.im_le
  exact nonneg_of_mul_nonneg_left h1 h.re_pos

theorem add {k : ℝ} {z w : ℂ} (hz : Sec k z) (hw : Sec k w) : Sec k (z + w) := by
  refine ⟨by rw [Complex.add_re]; linarith [hz.re_pos, hw.re_pos], ?_⟩
  rw [Complex.add_im, Complex.add_re, mul_add]
  exact (abs_add_le _ _).trans (add_le_add hz.im_le hw.im_le)

theorem ofReal {x : ℝ} (h : 0 < x) : Sec 0 (x : ℂ) := ⟨by simpa using h, by simp⟩

theorem smul {k x : ℝ} {z : ℂ} (hx : 0 < x) (hz : Sec k z) : Sec k (x * z) := by
  constructor
  · rw [Complex.re_ofReal_mul]
    exact mul_pos hx hz.re_pos
  · rw [Complex.re_ofReal_mul, Complex.im_ofReal_mul, abs_mul, abs_of_pos hx]
    have := mul_le_mul_of_nonneg_left hz.im_le hx.le
    linarith

theorem conj {k : ℝ} {z : ℂ} (hz : Sec k z) : Sec k ((starRingEnd ℂ) z) := by
  refine ⟨by rw [Complex.conj_re]; exact hz.re_pos, ?_⟩
  rw [Complex.conj_im, Complex.conj_re, abs_neg]
  exact hz.im_le

theorem ne_zero {k : ℝ} {z : ℂ} (hz : Sec k z) : z ≠ 0 := by
  intro h
  have := hz.re_pos
  rw [h] at this
  simp at this

theorem inv {k : ℝ} {z : ℂ} (hz : Sec k z) : Sec k z⁻¹ := by
  have hn : 0 < Complex.normSq z := Complex.normSq_pos.2 hz.ne_zero
  rw [Complex.inv_def, mul_comm]
  exact hz.conj.smul (inv_pos.2 hn)

/-- The real part of a product. -/
theorem mul_re {k m : ℝ} {z w : ℂ} (hz : Sec k z) (hw : Sec m w) : (1 - k * m) * (z.re * w.re) ≤ (z * w).re := by
  rw [Complex.mul_re]
  have h1 : |z.im * w.im| ≤ k * z.re * (m * w.re) := by
    rw [abs_mul]
    exact mul_le_mul hz.im_le hw.im_le (abs_nonneg _) ((abs_nonneg _).trans hz.im_le)
  have := (le_abs_self _).trans h1
  linarith

/-- Slopes of products: `tan (a + b) ≤ 1`. -/
theorem mul_one {k m : ℝ} {z w : ℂ} (hz : Sec k z) (hw : Sec m w) (h : (1 + k) * (1 + m) ≤ 2) : Sec 1 (z * w) := by
  have hk := hz.nonneg
  have hm := hw.nonneg
  have hp : 0 < z.re * w.re := mul_pos hz.re_pos hw.re_pos
  have h1 := hz.mul_re hw
  have hkm : k * m < 1 := by
    by_contra hc
    have : k + m ≤ 0 := by linarith
    have h0 : k = 0 := by linarith
    rw [h0] at hc
    linarith
  refine ⟨lt_of_lt_of_le (mul_pos (by linarith) hp) h1, ?_⟩
  rw [one_mul]
  refine le_trans ?_ h1
  rw [Complex.mul_im]
  have h2 : |z.re * w.im| ≤ m * (z.re * w.re) := by
    rw [abs_mul, abs_of_pos hz.re_pos]
    have := mul_le_mul_of_nonneg_left hw.im_le hz.re_pos.le
    linarith
  have h3 : |z.im * w.re| ≤ k * (z.re * w.re) := by
    rw [abs_mul, abs_of_pos hw.re_pos]
    have := mul_le_mul_of_nonneg_right hz.im_le hw.re_pos.le
    linarith
  refine (abs_add_le _ _).trans ?_
  nlinarith

end Sec

/-- The slope of `|1 + f v / 2|²`, where `v = 1/(w - f₁)`. -/
theorem slope_pos {κ τ : ℝ} {F q0 q1 v : ℂ} (hF : Sec κ F) (h0 : Sec κ q0) (h1 : Sec κ q1) (hv : Sec τ v)
    (h : (1 + κ) * (1 + τ) ≤ 2) :
    0 < ((starRingEnd ℂ) (1 + F * v / 2) * ((q0 * v + F * q1 * v ^ 2) / 2)).re := by
  have hκ := hF.nonneg
  have hτ := hv.nonneg
  have hκ1 : κ ≤ 1 := by nlinarith
  have a1 : 0 < (q0 * v).re := (h0.mul_one hv h).re_pos
  have a2 : 0 ≤ ((F * v) * (q1 * v)).re := by
    have := (hF.mul_one hv h).mul_re (h1.mul_one hv h)
    linarith
  have a3 : 0 ≤ ((starRingEnd ℂ) F * q0).re := by
    have h3 := hF.conj.mul_re h0
    refine le_trans (mul_nonneg ?_ (mul_nonneg hF.conj.re_pos.le h0.re_pos.le)) h3
    nlinarith
  have a4 : 0 < (q1 * v).re := (h1.mul_one hv h).re_pos
  have e : (starRingEnd ℂ) (1 + F * v / 2) * ((q0 * v + F * q1 * v ^ 2) / 2) =
      ((1 / 2 : ℝ) : ℂ) * (q0 * v) + ((1 / 2 : ℝ) : ℂ) * ((F * v) * (q1 * v)) +
        ((Complex.normSq v / 4 : ℝ) : ℂ) * ((starRingEnd ℂ) F * q0) +
        ((Complex.normSq F * Complex.normSq v / 4 : ℝ) : ℂ) * (q1 * v) := by
    push_cast
    rw [← Complex.mul_conj, ← Complex.mul_conj, map_add, map_one, map_div₀, map_mul, Complex.conj_ofNat]
    ring
  rw [e]
  simp only [Complex.add_re, Complex.re_ofReal_mul]
  have n1 := Complex.normSq_nonneg v
  have n2 := Complex.normSq_nonneg F
  have := mul_nonneg (by positivity : 0 ≤ Complex.normSq v / 4) a3
  have := mul_nonneg (by positivity : 0 ≤ Complex.normSq F * Complex.normSq v / 4) a4.le
  linarith

/-- What the geometry function with a complex factor `g` needs at heights up to `Z`: the tip is in reach and the phase
of `g - p` is at most `arctan κ`. -/
structure Fdm.Phase (κ Z d r l : ℝ) (g : ℂ) : Prop where
  r_pos : 0 < r
  long : r < 4 * l
  d_nonneg : 0 ≤ d
  short : r + 4 * Z + 2 * d * r < 4 * l
  below : r + 2 * Z + d * r < 2 * l * g.re
  phase : |g.im| ≤ κ * (g.re - (r + 2 * Z + d * r) / (2 * l))

namespace Fdm

/-- The slope of the geometry function. -/
noncomputable def geomSlope (z d r l : ℝ) (g : ℂ) : ℂ :=
  ((1 / l * Real.log (4 * l / (r + 4 * z + 2 * d * r)) / Real.log (4 * l / r) : ℝ) : ℂ) +
    ((4 / (r + 4 * z + 2 * d * r) / Real.log (4 * l / r) : ℝ) : ℂ) * (g - ((r + 2 * z + d * r) / (2 * l) : ℝ))

theorem geom_deriv {z d r l : ℝ} (g : ℂ) (hl : 0 < l) (hden : 0 < r + 4 * z + 2 * d * r) :
    HasDerivAt (fun x : ℝ => geom x d r l g) (-geomSlope z d r l g) z := by
  have h1 : HasDerivAt (fun x : ℝ => (r + 2 * x + d * r) / (2 * l)) (2 / (2 * l)) z := by
    have := (((hasDerivAt_id z).const_mul 2).const_add r).add_const (d * r) |>.div_const (2 * l)
    simpa using this
  have h2 : HasDerivAt (fun x : ℝ => r + 4 * x + 2 * d * r) 4 z := by
    have := (((hasDerivAt_id z).const_mul 4).const_add r).add_const (2 * d * r)
    simpa using this
  have h3 : HasDerivAt (fun x : ℝ => Real.log (4 * l / (r + 4 * x + 2 * d * r))) (-(4 / (r + 4 * z + 2 * d * r))) z := by
    have h4 := (h2.log hden.ne').const_sub (Real.log (4 * l))
    refine h4.congr_of_eventuallyEq ?_
    have : ∀ᶠ x in nhds z, 0 < r + 4 * x + 2 * d * r := by
      refine (h2.continuousAt.eventually (lt_mem_nhds hden)).mono fun x hx => hx
    filter_upwards [this] with x hx
    rw [Real.log_div (by positivity) hx.ne']
  have h5 := (h1.ofReal_comp.const_sub g).mul h3.ofReal_comp |>.div_const ((Real.log (4 * l / r) : ℝ) : ℂ)
  unfold geom
  refine h5.congr_deriv ?_
  unfold geomSlope
  have : (2 / (2 * l) : ℝ) = 1 / l := by field_simp
  rw [this]
  push_cast
  ring

variable {κ Z d r l : ℝ} {g : ℂ}

theorem Phase.den (h : Phase κ Z d r l g) {z : ℝ} (hz : 0 ≤ z) : 0 < r + 4 * z + 2 * d * r := by
  have := h.r_pos
  have := h.d_nonneg
  positivity

theorem Phase.l_pos (h : Phase κ Z d r l g) : 0 < l := by linarith [h.r_pos, h.long]

theorem Phase.ok (h : Phase κ Z d r l g) {z : ℝ} (hz : 0 ≤ z) : GeomOk z d r l :=
  ⟨h.r_pos, h.l_pos, h.long.ne, h.den hz⟩

theorem Phase.log_pos (h : Phase κ Z d r l g) : 0 < Real.log (4 * l / r) :=
  Real.log_pos (by rw [one_lt_div h.r_pos]; exact h.long)

theorem Phase.log_pos' (h : Phase κ Z d r l g) {z : ℝ} (hz : 0 ≤ z) (hz' : z ≤ Z) :
    0 < Real.log (4 * l / (r + 4 * z + 2 * d * r)) :=
  Real.log_pos (by rw [one_lt_div (h.den hz)]; linarith [h.short])

/-- `g - p` is in the sector. -/
theorem Phase.factor (h : Phase κ Z d r l g) {z : ℝ} (hz' : z ≤ Z) :
    Sec κ (g - ((r + 2 * z + d * r) / (2 * l) : ℝ)) := by
  have hl := h.l_pos
  have hp : (r + 2 * z + d * r) / (2 * l) ≤ (r + 2 * Z + d * r) / (2 * l) := by gcongr
  have hp' : 0 < g.re - (r + 2 * Z + d * r) / (2 * l) := by
    rw [sub_pos, div_lt_iff₀ (by positivity)]
    linarith [h.below]
  have hκ : 0 ≤ κ := nonneg_of_mul_nonneg_left ((abs_nonneg _).trans h.phase) hp'
  constructor
  · rw [Complex.sub_re, Complex.ofReal_re]
    linarith
  · rw [Complex.sub_re, Complex.sub_im, Complex.ofReal_re, Complex.ofReal_im, sub_zero]
    refine h.phase.trans (mul_le_mul_of_nonneg_left ?_ hκ)
    linarith

theorem Phase.nonneg (h : Phase κ Z d r l g) : 0 ≤ κ := (h.factor le_rfl).nonneg

theorem Phase.geom (h : Phase κ Z d r l g) {z : ℝ} (hz : 0 ≤ z) (hz' : z ≤ Z) : Sec κ (geom z d r l g) := by
  have e : Fdm.geom z d r l g = ((Real.log (4 * l / (r + 4 * z + 2 * d * r)) / Real.log (4 * l / r) : ℝ) : ℂ) *
      (g - ((r + 2 * z + d * r) / (2 * l) : ℝ)) := by
    unfold Fdm.geom
    push_cast
    ring
  rw [e]
  exact (h.factor hz').smul (div_pos (h.log_pos' hz hz') h.log_pos)

theorem Phase.slope (h : Phase κ Z d r l g) {z : ℝ} (hz : 0 ≤ z) (hz' : z ≤ Z) : Sec κ (geomSlope z d r l g) := by
  have hl := h.l_pos
  have l1 := h.log_pos
  have l2 := h.log_pos' hz hz'
  have hd := h.den hz
  unfold geomSlope
  exact ((Sec.ofReal (by positivity)).mono h.nonneg).add ((h.factor hz').smul (by positivity))

/-- The logarithms compared with the one at contact. -/
theorem Phase.log_le (h : Phase κ Z d r l g) {z : ℝ} (hz : 0 ≤ z) :
    Real.log (4 * l / (r + 4 * z + 2 * d * r)) ≤ Real.log (4 * l / (r + 2 * d * r)) := by
  have hr := h.r_pos
  have hd := h.d_nonneg
  have hl := h.l_pos
  have := h.den hz
  apply Real.log_le_log (by positivity)
  gcongr
  linarith

/-- The real part of the geometry function is largest in contact. -/
theorem Phase.geom_re_le (h : Phase κ Z d r l g) {z : ℝ} (hz : 0 ≤ z) (hz' : z ≤ Z) :
    (Fdm.geom z d r l g).re ≤ (Fdm.geom 0 d r l g).re := by
  have e : ∀ z, Fdm.geom z d r l g = ((Real.log (4 * l / (r + 4 * z + 2 * d * r)) / Real.log (4 * l / r) : ℝ) : ℂ) *
      (g - ((r + 2 * z + d * r) / (2 * l) : ℝ)) := fun z => by
    unfold Fdm.geom
    push_cast
    ring
  have hl := h.l_pos
  have l1 := h.log_pos
  have l2 := h.log_pos' hz hz'
  have l3 := h.log_le hz
  have f1 := (h.factor hz').re_pos
  rw [e, e, Complex.re_ofReal_mul, Complex.re_ofReal_mul]
  have f2 : (g - ((r + 2 * z + d * r) / (2 * l) : ℝ)).re ≤ (g - ((r + 2 * 0 + d * r) / (2 * l) : ℝ)).re := by
    rw [Complex.sub_re, Complex.sub_re, Complex.ofReal_re, Complex.ofReal_re]
    gcongr
  rw [show r + 4 * (0 : ℝ) + 2 * d * r = r + 2 * d * r by ring]
  exact mul_le_mul (by gcongr) f2 f1.le (div_nonneg (l2.le.trans l3) l1.le)

/-- The imaginary part of the geometry function is at most that of `g`. -/
theorem Phase.geom_im_le (h : Phase κ Z d r l g) {z : ℝ} (hz : 0 ≤ z) (hz' : z ≤ Z) :
    |(Fdm.geom z d r l g).im| ≤ |g.im| := by
  have e : Fdm.geom z d r l g = ((Real.log (4 * l / (r + 4 * z + 2 * d * r)) / Real.log (4 * l / r) : ℝ) : ℂ) *
      (g - ((r + 2 * z + d * r) / (2 * l) : ℝ)) := by
    unfold Fdm.geom
    push_cast
    ring
  have hr := h.r_pos
  have hd := h.d_nonneg
  have hl := h.l_pos
  have l1 := h.log_pos
  have l2 := h.log_pos' hz hz'
  have l3 := h.den hz
  rw [e, Complex.im_ofReal_mul, Complex.sub_im, Complex.ofReal_im, sub_zero, abs_mul,
    abs_of_pos (div_pos l2 l1)]
  refine mul_le_of_le_one_left (abs_nonneg _) ?_
  rw [div_le_one l1]
  apply Real.log_le_log (by positivity)
  gcongr
  nlinarith [mul_nonneg hd hr.le]

/-- The denominator is in the sector of slope `τ`. -/
theorem approach_sec {τ : ℝ} {d1 : ℝ} {w : ℂ} (h1 : Phase κ Z d1 r l g)
    (hw : (Fdm.geom 0 d1 r l g).re < w.re) (hτ : |w.im| + |g.im| ≤ τ * (w.re - (Fdm.geom 0 d1 r l g).re))
    {z : ℝ} (hz : 0 ≤ z) (hz' : z ≤ Z) : Sec τ (w - Fdm.geom z d1 r l g) := by
  have a1 := h1.geom_re_le hz hz'
  have a2 := h1.geom_im_le hz hz'
  have hτ0 : 0 ≤ τ :=
    nonneg_of_mul_nonneg_left ((add_nonneg (abs_nonneg _) (abs_nonneg _)).trans hτ) (sub_pos.2 hw)
  refine ⟨by rw [Complex.sub_re]; linarith, ?_⟩
  rw [Complex.sub_im, Complex.sub_re]
  refine (abs_sub _ _).trans ?_
  refine (add_le_add_right a2 _).trans (hτ.trans ?_)
  exact mul_le_mul_of_nonneg_left (by linarith) hτ0

/-- The signal of the sample has a positive real part. -/
theorem approach_re {τ : ℝ} {d0 d1 : ℝ} {w : ℂ} (h0 : Phase κ Z d0 r l g) (h1 : Phase κ Z d1 r l g)
    (hw : (Fdm.geom 0 d1 r l g).re < w.re) (hτ : |w.im| + |g.im| ≤ τ * (w.re - (Fdm.geom 0 d1 r l g).re))
    (hκτ : (1 + κ) * (1 + τ) ≤ 2) {z : ℝ} (hz : 0 ≤ z) (hz' : z ≤ Z) :
    0 < (Fdm.geom z d0 r l g * (w - Fdm.geom z d1 r l g)⁻¹ / 2).re := by
  have h := ((h0.geom hz hz').mul_one (approach_sec h1 hw hτ hz hz').inv hκτ).re_pos
  rw [show Fdm.geom z d0 r l g * (w - Fdm.geom z d1 r l g)⁻¹ / 2 =
    ((1 / 2 : ℝ) : ℂ) * (Fdm.geom z d0 r l g * (w - Fdm.geom z d1 r l g)⁻¹) by push_cast; ring, Complex.re_ofReal_mul]
  linarith

/-- The approach curve with a complex factor `g` and a complex reflection coefficient `1/w`. -/
theorem approach_anti {τ : ℝ} {d0 d1 : ℝ} {w : ℂ} (h0 : Phase κ Z d0 r l g) (h1 : Phase κ Z d1 r l g)
    (hw : (Fdm.geom 0 d1 r l g).re < w.re) (hτ : |w.im| + |g.im| ≤ τ * (w.re - (Fdm.geom 0 d1 r l g).re))
    (hκτ : (1 + κ) * (1 + τ) ≤ 2) :
    StrictAntiOn (fun z : ℝ => Complex.normSq (1 + Fdm.geom z d0 r l g * (w - Fdm.geom z d1 r l g)⁻¹ / 2))
      (Set.Icc 0 Z) := by
  have hu : ∀ z, 0 ≤ z → z ≤ Z → Sec τ (w - Fdm.geom z d1 r l g) := fun z hz hz' => approach_sec h1 hw hτ hz hz'
  have hder : ∀ z, 0 ≤ z → z ≤ Z →
      HasDerivAt (fun z : ℝ => Complex.normSq (1 + Fdm.geom z d0 r l g * (w - Fdm.geom z d1 r l g)⁻¹ / 2))
        (-(2 * ((starRingEnd ℂ) (1 + Fdm.geom z d0 r l g * (w - Fdm.geom z d1 r l g)⁻¹ / 2) *
          ((geomSlope z d0 r l g * (w - Fdm.geom z d1 r l g)⁻¹ +
            Fdm.geom z d0 r l g * geomSlope z d1 r l g * (w - Fdm.geom z d1 r l g)⁻¹ ^ 2) / 2)).re)) z := by
    intro z hz hz'
    have g0 := geom_deriv g h0.l_pos (h0.den hz)
    have g1 := geom_deriv g h1.l_pos (h1.den hz)
    have hne := (hu z hz hz').ne_zero
    have k1 := (g1.const_sub w).inv hne
    have k2 : HasDerivAt (fun z : ℝ => 1 + Fdm.geom z d0 r l g * (w - Fdm.geom z d1 r l g)⁻¹ / 2)
        (-((geomSlope z d0 r l g * (w - Fdm.geom z d1 r l g)⁻¹ +
            Fdm.geom z d0 r l g * geomSlope z d1 r l g * (w - Fdm.geom z d1 r l g)⁻¹ ^ 2) / 2)) z := by
      refine (((g0.mul k1).div_const 2).const_add 1).congr_deriv ?_
      rw [neg_neg, Pi.inv_apply]
      field_simp
      ring
    have kre := (Complex.reCLM.hasFDerivAt.comp_hasDerivAt z k2)
    have kim := (Complex.imCLM.hasFDerivAt.comp_hasDerivAt z k2)
    have k3 := (kre.mul kre).add (kim.mul kim)
    refine (k3.congr_of_eventuallyEq (Filter.Eventually.of_forall fun x => ?_)).congr_deriv ?_
    · rfl
    · simp only [Function.comp_apply, Complex.reCLM_apply, Complex.imCLM_apply, Complex.mul_re, Complex.conj_re,
        Complex.conj_im, Complex.neg_re, Complex.neg_im]
      ring
  refine strictAntiOn_of_deriv_neg (convex_Icc 0 Z) (fun z hz => (hder z hz.1 hz.2).continuousAt.continuousWithinAt) ?_
  intro z hz
  rw [interior_Icc] at hz
  rw [(hder z hz.1.le hz.2.le).deriv, neg_lt_zero]
  exact mul_pos two_pos (slope_pos (h0.geom hz.1.le hz.2.le) (h0.slope hz.1.le hz.2.le) (h1.slope hz.1.le hz.2.le)
    (hu z hz.1.le hz.2.le).inv hκτ)

/-- The denominator. -/
theorem approach_den {d1 : ℝ} {w : ℂ} (h1 : Phase κ Z d1 r l g)
    (hw : (Fdm.geom 0 d1 r l g).re < w.re) {z : ℝ} (hz : 0 ≤ z) (hz' : z ≤ Z) : w - Fdm.geom z d1 r l g ≠ 0 := by
  intro h
  have a1 := h1.geom_re_le hz hz'
  have := congrArg Complex.re h
  rw [Complex.sub_re, Complex.zero_re] at this
  linarith

end Fdm

end Snompy
