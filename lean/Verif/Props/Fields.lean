import Verif.Lemmas.Fields
import Verif.Lemmas.Qs
import Verif.Lemmas.Far
import Verif.Spec.Bounces
import Verif.Props.FarClassic
import Verif.Props.Quasistatic
import Verif.Props.ThinFilm

/-!
# C117: the coefficients solve the field equations

`Spec/Fields.lean` has the equations.  The coefficients are those of the only solution with an incoming wave from above.
-/

namespace Snompy.Props

open Snompy Filter Topology Set

/-! ## Electrostatics -/

theorem static_fill {q : ℝ} (hq : q ≠ 0) {env : ℂ} {L : List (ℂ × ℝ)} {sub : ℂ} {φ D : ℝ → ℂ} :
    MediaFill (Laplace q φ D) env L sub ↔
      MediaFill (fun e S => Wave e⁻¹ (q : ℂ) D (fun y => (q : ℂ) ^ 2 * φ y) S) env L sub := by
  have hq' : (q : ℂ) ^ 2 ≠ 0 := pow_ne_zero 2 (by exact_mod_cast hq)
  have key : ∀ (e : ℂ) (S : Set ℝ), Laplace q φ D e S ↔ Wave e⁻¹ (q : ℂ) D (fun y => (q : ℂ) ^ 2 * φ y) S := by
    intro e S
    refine forall₂_congr fun y _ => ?_
    constructor
    · rintro ⟨h1, h2⟩
      exact ⟨h2.congr_deriv (by rw [div_inv_eq_mul]; ring), (h1.const_mul _).congr_deriv (by rw [div_eq_mul_inv]; ring)⟩
    · rintro ⟨h1, h2⟩
      refine ⟨?_, h1.congr_deriv (by rw [div_inv_eq_mul]; ring)⟩
      have := h2.const_mul ((q : ℂ) ^ 2)⁻¹
      simp only [inv_mul_cancel_left₀ hq'] at this
      refine this.congr_deriv ?_
      rw [div_eq_mul_inv]
      linear_combination (D y * e⁻¹) * inv_mul_cancel₀ hq'
  have layers : ∀ y, LayersFill (Laplace q φ D) y L sub ↔
      LayersFill (fun e S => Wave e⁻¹ (q : ℂ) D (fun y => (q : ℂ) ^ 2 * φ y) S) y L sub := by
    induction L with
    | nil => exact fun y => key _ _
    | cons l L ih => exact fun y => and_congr (key _ _) (ih _)
  exact and_congr (key _ _) (layers 0)

theorem static_mat {q : ℝ} (hq : 0 < q) (env : ℂ) (L : List (ℂ × ℝ)) (sub : ℂ)
    (hL : ∀ l ∈ L, 0 ≤ l.2 ∧ q * l.2 ≤ maxExpArg) :
    fieldMat (fun e => e⁻¹) (fun _ => (q : ℂ)) env L sub = qsMat q env L sub := by
  have hq' : ((q : ℂ))⁻¹ ≠ 0 := inv_ne_zero (by exact_mod_cast hq.ne')
  unfold fieldMat qsMat
  rw [← gen_scale (q : ℂ)⁻¹ env _ sub hq', List.map_map]
  congr 1
  · rw [mul_inv, inv_inv, mul_comm]
  · refine List.map_congr_left fun l hl => ?_
    obtain ⟨h1, h2⟩ := hL l hl
    rw [Function.comp_apply, clipped_of_abs_le (by rwa [abs_of_nonneg (mul_nonneg hq.le h1)]), mul_inv, inv_inv, mul_comm l.1]
    push_cast
    rfl
  · rw [mul_inv, inv_inv, mul_comm]

theorem static_ok {q : ℝ} (hq : 0 < q) {env : ℂ} {L : List (ℂ × ℝ)} {sub : ℂ} (he : env ≠ 0)
    (hL : ∀ l ∈ L, l.1 ≠ 0 ∧ 0 ≤ l.2) (hs : sub ≠ 0) :
    MediaOk (fun e => e⁻¹) (fun _ => (q : ℂ)) env L sub where
  we := inv_ne_zero he
  ke := by exact_mod_cast hq.ne'
  wl l hl := inv_ne_zero (hL l hl).1
  kl _ _ := by exact_mod_cast hq.ne'
  ws := inv_ne_zero hs
  ks := by exact_mod_cast hq.ne'
  t l hl := (hL l hl).2

theorem exp_top {q : ℝ} (hq : 0 < q) : Tendsto (fun y : ℝ => Complex.exp (-(q : ℂ) * y)) atTop (𝓝 0) := by
  rw [tendsto_zero_iff_norm_tendsto_zero]
  have : (fun y : ℝ => ‖Complex.exp (-(q : ℂ) * y)‖) = fun y : ℝ => Real.exp (-(q * y)) := by
    ext y
    rw [Complex.norm_exp]
    simp
  rw [this]
  exact Real.tendsto_exp_neg_atTop_nhds_zero.comp (tendsto_id.const_mul_atTop hq)

theorem coef_top {q : ℝ} (hq : 0 < q) {c d : ℂ}
    (h : Tendsto (fun y : ℝ => c * Complex.exp ((q : ℂ) * y) + d * Complex.exp (-(q : ℂ) * y)) atTop (𝓝 0)) : c = 0 := by
  have e := exp_top hq
  have h1 := (h.mul e).sub ((e.mul e).const_mul d)
  have h2 : (fun y : ℝ => (c * Complex.exp ((q : ℂ) * y) + d * Complex.exp (-(q : ℂ) * y)) * Complex.exp (-(q : ℂ) * y) -
      d * (Complex.exp (-(q : ℂ) * y) * Complex.exp (-(q : ℂ) * y))) = fun _ => c := by
    ext y
    have : Complex.exp ((q : ℂ) * y) * Complex.exp (-(q : ℂ) * y) = 1 := by
      rw [← Complex.exp_add]
      simp
    linear_combination c * this
  rw [h2] at h1
  simpa using tendsto_nhds_unique tendsto_const_nhds h1

theorem coef_bot {q : ℝ} (hq : 0 < q) {c d : ℂ}
    (h : Tendsto (fun y : ℝ => c * Complex.exp ((q : ℂ) * y) + d * Complex.exp (-(q : ℂ) * y)) atBot (𝓝 0)) : d = 0 := by
  have := h.comp tendsto_neg_atTop_atBot
  refine coef_top (d := c) hq (this.congr fun y => ?_)
  simp only [Function.comp_apply, Complex.ofReal_neg]
  ring_nf

theorem exp_bot {q : ℝ} (hq : 0 < q) : Tendsto (fun y : ℝ => Complex.exp ((q : ℂ) * y)) atBot (𝓝 0) := by
  have := (exp_top hq).comp tendsto_neg_atBot_atTop
  refine this.congr fun y => ?_
  simp

/-- The amplitudes of a potential that vanishes far below, and far above up to the potential `a exp(-q y)` of a source. -/
theorem static_amps {q : ℝ} (hq : 0 < q) {env : ℂ} {L : List (ℂ × ℝ)} {sub : ℂ} (he : env ≠ 0)
    (hL : ∀ l ∈ L, l.1 ≠ 0 ∧ 0 ≤ l.2) (hs : sub ≠ 0) {φ D : ℝ → ℂ} {a : ℂ} (h : IsPotential q env L sub φ D)
    (ha : Tendsto (fun y : ℝ => φ y - a * Complex.exp (-(q : ℂ) * y)) atBot (𝓝 0)) (hb : Tendsto φ atTop (𝓝 0)) :
    ∃ b c : ℂ, (∀ y ≤ 0, φ y = a * Complex.exp (-(q : ℂ) * y) + b * Complex.exp ((q : ℂ) * y)) ∧
      (∀ y ≥ thickness L, φ y = c * Complex.exp (-(q : ℂ) * (y - thickness L))) ∧
      (∀ y ≤ 0, D y = env * q * (b * Complex.exp ((q : ℂ) * y) - a * Complex.exp (-(q : ℂ) * y))) ∧
      ∀ y ≥ thickness L, D y = -(sub * q * c) * Complex.exp (-(q : ℂ) * (y - thickness L)) := by
  have hq' : (q : ℂ) ≠ 0 := by exact_mod_cast hq.ne'
  have ok := static_ok hq he hL hs
  have hf := (static_fill hq.ne').1 h.eqn
  have hv : Continuous fun y => (q : ℂ) ^ 2 * φ y := continuous_const.mul h.cont
  have up := fun y (hy : y ≤ 0) => ok.above h.contD hv hf hy
  have dn := fun y (hy : thickness L ≤ y) => ok.below h.contD hv hf hy
  generalize amp (env⁻¹) (q : ℂ) D (fun y => (q : ℂ) ^ 2 * φ y) 0 = A at up
  generalize amp (sub⁻¹) (q : ℂ) D (fun y => (q : ℂ) ^ 2 * φ y) (thickness L) = B at dn
  have up' : ∀ y ≤ 0, φ y = -(A 0 / (env * q)) * Complex.exp (-(q : ℂ) * y) + A 1 / (env * q) * Complex.exp ((q : ℂ) * y) := by
    intro y hy
    have := (up y hy).2
    rw [← mul_right_inj' (pow_ne_zero 2 hq'), this]
    field_simp
    ring
  have dn' : ∀ y ≥ thickness L, φ y = -(B 0 / (sub * q)) * Complex.exp (-(q : ℂ) * (y - thickness L)) +
      B 1 / (sub * q) * Complex.exp ((q : ℂ) * (y - thickness L)) := by
    intro y hy
    have := (dn y hy).2
    rw [← mul_right_inj' (pow_ne_zero 2 hq'), this]
    field_simp
    ring
  have hA : -(A 0 / (env * q)) = a := by
    refine sub_eq_zero.1 (coef_bot (c := A 1 / (env * q)) hq (ha.congr' ?_))
    filter_upwards [eventually_le_atBot 0] with y hy
    rw [up' y hy]
    ring
  have hB : B 1 / (sub * q) = 0 := by
    have hsh : Tendsto (fun y : ℝ => φ (y + thickness L)) atTop (𝓝 0) := hb.comp (tendsto_atTop_add_const_right _ _ tendsto_id)
    refine coef_top (d := -(B 0 / (sub * q))) hq (hsh.congr' ?_)
    filter_upwards [eventually_ge_atTop 0] with y hy
    rw [dn' _ (by linarith)]
    push_cast
    rw [add_sub_cancel_right]
    ring
  have hB1 : B 1 = 0 := by
    rcases div_eq_zero_iff.1 hB with h | h
    · exact h
    · exact absurd h (mul_ne_zero hs hq')
  refine ⟨A 1 / (env * q), -(B 0 / (sub * q)), fun y hy => ?_, fun y hy => ?_, fun y hy => ?_, fun y hy => ?_⟩
  · rw [up' y hy, hA]
  · rw [dn' y hy, hB, zero_mul, add_zero]
  · rw [(up y hy).1, ← hA]
    field_simp
    ring
  · rw [(dn y hy).1, hB1]
    field_simp
    ring

/-- Electrostatics.  A source above the sample has the potential `a exp(-q y)`.  Every potential that vanishes far below the
surface and that far above is the one of the source is `a (exp(-q y) - r exp(q y))` above the sample and
`a t (env/sub) exp(-q (y - T))` in the substrate, with the quasistatic coefficients `r` and `t`; and there is one. -/
theorem C117_static (q : ℝ) (hq : 0 < q) (env : ℂ) (L : List (ℂ × ℝ)) (sub : ℂ) (nu : Option ℝ) (he : env ≠ 0)
    (hL : ∀ l ∈ L, l.1 ≠ 0 ∧ 0 ≤ l.2 ∧ q * l.2 ≤ maxExpArg) (hs : sub ≠ 0) (r τ : ℂ)
    (hr : (layered env L sub nu).reflCoefQs (FP.num q) = .ok (FP.num r))
    (hτ : (layered env L sub nu).transCoefQs (FP.num q) = .ok (FP.num τ)) :
    (∀ (φ D : ℝ → ℂ) (a : ℂ), IsPotential q env L sub φ D →
      Tendsto (fun y : ℝ => φ y - a * Complex.exp (-(q : ℂ) * y)) atBot (𝓝 0) → Tendsto φ atTop (𝓝 0) →
      (∀ y ≤ 0, φ y = a * (Complex.exp (-(q : ℂ) * y) - r * Complex.exp ((q : ℂ) * y))) ∧
      ∀ y ≥ thickness L, φ y = a * (τ * (env / sub)) * Complex.exp (-(q : ℂ) * (y - thickness L))) ∧
    ∃ φ D : ℝ → ℂ, IsPotential q env L sub φ D ∧
      Tendsto (fun y : ℝ => φ y - Complex.exp (-(q : ℂ) * y)) atBot (𝓝 0) ∧ Tendsto φ atTop (𝓝 0) := by
  have hq' : (q : ℂ) ≠ 0 := by exact_mod_cast hq.ne'
  have ok := static_ok hq he (fun l hl => ⟨(hL l hl).1, (hL l hl).2.1⟩) hs
  have hM : qsMat q env L sub 0 0 ≠ 0 := by
    intro h0
    rw [transCoefQs_eq _ _ _ _ _ (fun l hl => (hL l hl).1) hs, h0, num_div_zero] at hτ
    cases hτ
  rw [reflCoefQs_num _ _ _ _ _ (fun l hl => (hL l hl).1) hs hM] at hr
  rw [transCoefQs_num _ _ _ _ _ (fun l hl => (hL l hl).1) hs hM] at hτ
  have er : qsMat q env L sub 1 0 / qsMat q env L sub 0 0 = r := FP.num.inj (Except.ok.inj hr)
  have eτ : 1 / qsMat q env L sub 0 0 = τ := FP.num.inj (Except.ok.inj hτ)
  have em := static_mat hq env L sub fun l hl => (hL l hl).2
  rw [← em] at hM er eτ
  constructor
  · intro φ D a h ha hb
    obtain ⟨b, c, h1, h2, h3, h4⟩ := static_amps hq he (fun l hl => ⟨(hL l hl).1, (hL l hl).2.1⟩) hs h ha hb
    obtain ⟨i1, i2⟩ := ok.coefs hM h.contD (continuous_const.mul h.cont) ((static_fill hq.ne').1 h.eqn)
      (a := -(env * q * a)) (b := env * q * b) (c := -(sub * q * c))
      (fun y hy => by rw [h3 y hy.le]; ring) (fun y hy => by rw [h4 y hy.le])
    rw [er] at i1
    rw [eτ] at i2
    have hb' : b = -(r * a) := by
      have : env * q * (b + r * a) = 0 := by linear_combination i1
      rcases mul_eq_zero.1 this with h | h
      · exact absurd h (mul_ne_zero he hq')
      · linear_combination h
    have hc' : c = a * (τ * (env / sub)) := by
      have : (q : ℂ) * (sub * c - a * (τ * env)) = 0 := by linear_combination -i2
      rcases mul_eq_zero.1 this with h | h
      · exact absurd h hq'
      · field_simp
        linear_combination h
    exact ⟨fun y hy => by rw [h1 y hy, hb']; ring, fun y hy => by rw [h2 y hy, hc']⟩
  · obtain ⟨u, v, hu, hv, hf, hb⟩ := ok.exists (-(env * q * τ))
    have hamp := ok.amps hu hv hf (by rw [hb]; simp)
    rw [hb] at hamp
    simp only [Matrix.cons_val_zero] at hamp
    have a0 : amp env⁻¹ (q : ℂ) u v 0 0 = -(env * q) := by
      rw [hamp.1, ← eτ]
      linear_combination -(env * q) * mul_one_div_cancel hM
    have a1 : amp env⁻¹ (q : ℂ) u v 0 1 = -(env * q * r) := by
      rw [hamp.2, ← eτ, ← er]
      ring
    have hv2 : (fun y => (q : ℂ) ^ 2 * (v y / (q : ℂ) ^ 2)) = v := by
      ext y
      field_simp
    refine ⟨fun y => v y / (q : ℂ) ^ 2, u, ⟨hv.div_const _, hu, ?_⟩, ?_, ?_⟩
    · rw [static_fill hq.ne', hv2]
      exact hf
    · have : (fun y : ℝ => v y / (q : ℂ) ^ 2 - Complex.exp (-(q : ℂ) * y)) =ᶠ[atBot] fun y => -r * Complex.exp ((q : ℂ) * y) := by
        filter_upwards [eventually_le_atBot 0] with y hy
        rw [(ok.above hu hv hf hy).2, a0, a1]
        field_simp
        ring
      rw [tendsto_congr' this]
      simpa using (exp_bot hq).const_mul (-r)
    · have : (fun y : ℝ => v y / (q : ℂ) ^ 2) =ᶠ[atTop] fun y =>
          env / sub * τ * Complex.exp ((q : ℂ) * thickness L) * Complex.exp (-(q : ℂ) * y) := by
        filter_upwards [eventually_ge_atTop (thickness L)] with y hy
        rw [(ok.below hu hv hf hy).2, hb, mul_assoc _ (Complex.exp _), ← Complex.exp_add]
        simp only [Matrix.cons_val_zero, Matrix.cons_val_one, zero_mul, zero_sub]
        have e : -(q : ℂ) * (y - thickness L) = (q : ℂ) * thickness L + -(q : ℂ) * y := by ring
        rw [e]
        field_simp
      rw [tendsto_congr' this]
      simpa using (exp_top hq).const_mul (env / sub * τ * Complex.exp ((q : ℂ) * thickness L))

/-- The reflection coefficient is not finite exactly if the sample has a potential of its own, without a source: a polariton. -/
theorem C117_polariton (q : ℝ) (hq : 0 < q) (env : ℂ) (L : List (ℂ × ℝ)) (sub : ℂ) (nu : Option ℝ) (he : env ≠ 0)
    (hL : ∀ l ∈ L, l.1 ≠ 0 ∧ 0 ≤ l.2 ∧ q * l.2 ≤ maxExpArg) (hs : sub ≠ 0) :
    (¬ ∃ r, (layered env L sub nu).reflCoefQs (FP.num q) = .ok (FP.num r)) ↔
      ∃ φ D : ℝ → ℂ, IsPotential q env L sub φ D ∧ Tendsto φ atBot (𝓝 0) ∧ Tendsto φ atTop (𝓝 0) ∧ ∃ y, φ y ≠ 0 := by
  have hq' : (q : ℂ) ≠ 0 := by exact_mod_cast hq.ne'
  have ok := static_ok hq he (fun l hl => ⟨(hL l hl).1, (hL l hl).2.1⟩) hs
  have hfin : (¬ ∃ r, (layered env L sub nu).reflCoefQs (FP.num q) = .ok (FP.num r)) ↔ qsMat q env L sub 0 0 = 0 := by
    constructor
    · intro h
      by_contra h0
      exact h ⟨_, reflCoefQs_num _ _ _ _ _ (fun l hl => (hL l hl).1) hs h0⟩
    · rintro h0 ⟨r, hr⟩
      rw [reflCoefQs_eq _ _ _ _ _ (fun l hl => (hL l hl).1) hs, h0, num_div_zero] at hr
      cases hr
  rw [hfin, ← static_mat hq env L sub fun l hl => (hL l hl).2]
  constructor
  · intro h0
    obtain ⟨u, v, hu, hv, hf, hb⟩ := ok.exists 1
    have hamp := ok.amps hu hv hf (by rw [hb]; simp)
    rw [h0, zero_mul] at hamp
    have hv2 : (fun y => (q : ℂ) ^ 2 * (v y / (q : ℂ) ^ 2)) = v := by
      ext y
      field_simp
    refine ⟨fun y => v y / (q : ℂ) ^ 2, u, ⟨hv.div_const _, hu, ?_⟩, ?_, ?_, thickness L, ?_⟩
    · rw [static_fill hq.ne', hv2]
      exact hf
    · generalize amp env⁻¹ (q : ℂ) u v 0 1 = b at *
      have : (fun y : ℝ => v y / (q : ℂ) ^ 2) =ᶠ[atBot] fun y =>
          env⁻¹ * q * amp env⁻¹ (q : ℂ) u v 0 1 / (q : ℂ) ^ 2 * Complex.exp ((q : ℂ) * y) := by
        filter_upwards [eventually_le_atBot 0] with y hy
        rw [(ok.above hu hv hf hy).2, hamp.1]
        ring
      rw [tendsto_congr' this]
      simpa using (exp_bot hq).const_mul (env⁻¹ * q * amp env⁻¹ (q : ℂ) u v 0 1 / (q : ℂ) ^ 2)
    · have : (fun y : ℝ => v y / (q : ℂ) ^ 2) =ᶠ[atTop] fun y =>
          -(sub⁻¹ * q / (q : ℂ) ^ 2) * Complex.exp ((q : ℂ) * thickness L) * Complex.exp (-(q : ℂ) * y) := by
        filter_upwards [eventually_ge_atTop (thickness L)] with y hy
        rw [(ok.below hu hv hf hy).2, hb, mul_assoc _ (Complex.exp _), ← Complex.exp_add]
        simp only [Matrix.cons_val_zero, Matrix.cons_val_one, zero_mul, zero_sub]
        have e : -(q : ℂ) * (y - thickness L) = (q : ℂ) * thickness L + -(q : ℂ) * y := by ring
        rw [e]
        ring
      rw [tendsto_congr' this]
      have := (exp_top hq).const_mul (-(sub⁻¹ * q / (q : ℂ) ^ 2) * Complex.exp ((q : ℂ) * thickness L))
      rwa [mul_zero] at this
    · show v (thickness L) / (q : ℂ) ^ 2 ≠ 0
      rw [(ok.below hu hv hf le_rfl).2, hb]
      simp [hq', hs]
  · rintro ⟨φ, D, h, ha, hb, y, hy⟩
    obtain ⟨b, c, h1, h2, h3, h4⟩ := static_amps hq he (fun l hl => ⟨(hL l hl).1, (hL l hl).2.1⟩) hs (a := 0) h
      (by simpa using ha) hb
    have hv : Continuous fun y => (q : ℂ) ^ 2 * φ y := continuous_const.mul h.cont
    have hf := (static_fill hq.ne').1 h.eqn
    by_contra hM
    obtain ⟨-, i2⟩ := ok.coefs hM h.contD hv hf (a := 0) (b := env * q * b) (c := -(sub * q * c))
      (fun y hy => by rw [h3 y hy.le]; ring) (fun y hy => by rw [h4 y hy.le])
    rw [mul_zero] at i2
    have h0 : amp sub⁻¹ (q : ℂ) D (fun y => (q : ℂ) ^ 2 * φ y) (thickness L) = 0 := by
      rw [ok.amp_below h.contD hv hf (c := -(sub * q * c)) (fun y hy => by rw [h4 y hy.le]), i2]
      ext i
      fin_cases i <;> simp
    have := (ok.zero h.contD hv hf h0 y).2
    rcases mul_eq_zero.1 this with h | h
    · exact hq' (pow_eq_zero_iff two_ne_zero |>.1 h)
    · exact hy h

/-! ## Light -/

theorem LayersFill.map {P Q : ℂ → Set ℝ → Prop} {L : List (ℂ × ℝ)} {sub : ℂ} (hL : ∀ l ∈ L, ∀ S, P l.1 S → Q l.1 S)
    (hs : ∀ S, P sub S → Q sub S) {y : ℝ} (h : LayersFill P y L sub) : LayersFill Q y L sub := by
  induction L generalizing y with
  | nil => exact hs _ h
  | cons l L ih => exact ⟨hL l List.mem_cons_self _ h.1, ih (fun l hl => hL l (List.mem_cons_of_mem _ hl)) h.2⟩

theorem MediaFill.map {P Q : ℂ → Set ℝ → Prop} {env : ℂ} {L : List (ℂ × ℝ)} {sub : ℂ} (he : ∀ S, P env S → Q env S)
    (hL : ∀ l ∈ L, ∀ S, P l.1 S → Q l.1 S) (hs : ∀ S, P sub S → Q sub S) (h : MediaFill P env L sub) :
    MediaFill Q env L sub :=
  ⟨he _ h.1, LayersFill.map hL hs h.2⟩

theorem LayersFill.and {P Q : ℂ → Set ℝ → Prop} {L : List (ℂ × ℝ)} {sub : ℂ} {y : ℝ} (h : LayersFill P y L sub)
    (h' : LayersFill Q y L sub) : LayersFill (fun e S => P e S ∧ Q e S) y L sub := by
  induction L generalizing y with
  | nil => exact ⟨h, h'⟩
  | cons l L ih => exact ⟨⟨h.1, h'.1⟩, ih h.2 h'.2⟩

theorem MediaFill.and {P Q : ℂ → Set ℝ → Prop} {env : ℂ} {L : List (ℂ × ℝ)} {sub : ℂ} (h : MediaFill P env L sub)
    (h' : MediaFill Q env L sub) : MediaFill (fun e S => P e S ∧ Q e S) env L sub :=
  ⟨⟨h.1, h'.1⟩, LayersFill.and h.2 h'.2⟩

/-- There is a function that gives the permittivity at each depth. -/
theorem profile (env : ℂ) (L : List (ℂ × ℝ)) (sub : ℂ) (ht : ∀ l ∈ L, 0 ≤ l.2) :
    ∃ f : ℝ → ℂ, MediaFill (fun e S => ∀ y ∈ S, f y = e) env L sub := by
  classical
  have layers : ∀ y₀ : ℝ, ∃ f : ℝ → ℂ, ∀ g : ℝ → ℂ, (∀ y > y₀, g y = f y) → LayersFill (fun e S => ∀ y ∈ S, g y = e) y₀ L sub := by
    induction L with
    | nil => exact fun y₀ => ⟨fun _ => sub, fun g hg => hg⟩
    | cons l L ih =>
      intro y₀
      obtain ⟨f, hf⟩ := ih (fun l hl => ht l (List.mem_cons_of_mem _ hl)) (y₀ + l.2)
      have h0 : 0 ≤ l.2 := ht l List.mem_cons_self
      refine ⟨fun y => if y < y₀ + l.2 then l.1 else f y, fun g hg => ⟨fun y hy => ?_, hf g fun y hy => ?_⟩⟩
      · exact (hg y hy.1).trans (if_pos hy.2)
      · have : y₀ + l.2 < y := hy
        exact (hg y (by linarith : y > y₀)).trans (if_neg (by linarith))
  obtain ⟨f, hf⟩ := layers 0
  refine ⟨fun y => if y < 0 then env else f y, fun y hy => if_pos hy, hf _ fun y hy => if_neg (not_lt.2 hy.le)⟩

theorem lightP_wave {nu q : ℝ} (hnu : nu ≠ 0) {Ex Ey Hz : ℝ → ℂ} {e : ℂ} (he : e ≠ 0) {S : Set ℝ} :
    MaxwellP nu q Ex Ey Hz e S ↔ Wave e⁻¹ (-Complex.I * kz nu q e) Hz (fun y => Complex.I * nu * Ex y) S ∧
      ∀ y ∈ S, Complex.I * q * Hz y = -(Complex.I * nu * e * Ey y) := by
  have hn : (nu : ℂ) ≠ 0 := by exact_mod_cast hnu
  have hI := Complex.I_ne_zero
  have alg : ∀ y, Complex.I * q * Hz y = -(Complex.I * nu * e * Ey y) →
      Complex.I * nu * (Complex.I * nu * Hz y + Complex.I * q * Ey y) = e⁻¹ * (-Complex.I * kz nu q e) ^ 2 * Hz y := by
    intro y h2
    have h4 : (q : ℂ) * Hz y = -(nu * e * Ey y) := by
      linear_combination -Complex.I * h2 + (q * Hz y + nu * e * Ey y) * Complex.I_sq
    rw [mul_pow, kz_sq, neg_sq, Complex.I_sq]
    field_simp
    linear_combination e * nu * (nu * Hz y + q * Ey y) * Complex.I_sq - q * h4
  constructor
  · intro h
    refine ⟨fun y hy => ?_, fun y hy => (h y hy).2.1⟩
    obtain ⟨h1, h2, h3⟩ := h y hy
    exact ⟨h1.congr_deriv (by rw [div_inv_eq_mul]; ring), (h3.const_mul (Complex.I * nu)).congr_deriv (alg y h2)⟩
  · rintro ⟨h, h2⟩ y hy
    obtain ⟨h1, h3⟩ := h y hy
    refine ⟨h1.congr_deriv (by rw [div_inv_eq_mul]; ring), h2 y hy, ?_⟩
    have hc : Complex.I * (nu : ℂ) ≠ 0 := mul_ne_zero hI hn
    have := h3.const_mul (Complex.I * (nu : ℂ))⁻¹
    simp only [inv_mul_cancel_left₀ hc] at this
    refine this.congr_deriv ?_
    rw [← alg y (h2 y hy), inv_mul_cancel_left₀ hc]

theorem lightS_wave {nu q : ℝ} (hnu : nu ≠ 0) {Ez Hx Hy : ℝ → ℂ} {e : ℂ} {S : Set ℝ} :
    MaxwellS nu q Ez Hx Hy e S ↔ Wave 1 (-Complex.I * kz nu q e) Ez (fun y => -(Complex.I * nu) * Hx y) S ∧
      ∀ y ∈ S, Complex.I * q * Ez y = Complex.I * nu * Hy y := by
  have hn : (nu : ℂ) ≠ 0 := by exact_mod_cast hnu
  have hI := Complex.I_ne_zero
  have alg : ∀ y, Complex.I * q * Ez y = Complex.I * nu * Hy y →
      -(Complex.I * nu) * (Complex.I * q * Hy y - Complex.I * nu * e * Ez y) = 1 * (-Complex.I * kz nu q e) ^ 2 * Ez y := by
    intro y h2
    rw [mul_pow, kz_sq, neg_sq]
    linear_combination Complex.I * q * h2
  constructor
  · intro h
    refine ⟨fun y hy => ?_, fun y hy => (h y hy).2.1⟩
    obtain ⟨h1, h2, h3⟩ := h y hy
    exact ⟨h1.congr_deriv (by ring), (h3.const_mul (-(Complex.I * nu))).congr_deriv (alg y h2)⟩
  · rintro ⟨h, h2⟩ y hy
    obtain ⟨h1, h3⟩ := h y hy
    refine ⟨h1.congr_deriv (by ring), h2 y hy, ?_⟩
    have hc : -(Complex.I * (nu : ℂ)) ≠ 0 := neg_ne_zero.2 (mul_ne_zero hI hn)
    have := h3.const_mul (-(Complex.I * (nu : ℂ)))⁻¹
    simp only [inv_mul_cancel_left₀ hc] at this
    refine this.congr_deriv ?_
    rw [← alg y (h2 y hy), inv_mul_cancel_left₀ hc]

theorem light_mat (pol : String) (w : ℂ → ℂ) (hw : ∀ e, (w e)⁻¹ = if pol = "p" then e else 1) (nu q : ℝ) (env : ℂ)
    (L : List (ℂ × ℝ)) (sub : ℂ) :
    fieldMat w (fun e => -Complex.I * kz nu q e) env L sub = farMat pol nu q env L sub := by
  have hadm : ∀ e, (w e * (-Complex.I * kz nu q e))⁻¹ = Complex.I * adm pol nu q e := by
    intro e
    have hI : (-Complex.I)⁻¹ = Complex.I := by rw [inv_neg, Complex.inv_I, neg_neg]
    rw [mul_inv, mul_inv, hI, hw, adm]
    split <;> ring
  unfold fieldMat farMat
  rw [← gen_scale Complex.I (adm pol nu q env) _ _ Complex.I_ne_zero, List.map_map, hadm, hadm]
  congr 1
  refine List.map_congr_left fun l _ => ?_
  rw [hadm, Function.comp_apply, mul_assoc]

theorem far_coefs {pol : String} {env : ℂ} {L : List (ℂ × ℝ)} {sub : ℂ} {snu : Option ℝ} {nu q : ℝ} (hpol : pol = "p" ∨ pol = "s")
    (h : FarRegular pol nu q env L sub) {r τ : ℂ} (hr : (layered env L sub snu).reflCoef (atQ q nu pol) = .ok (FP.num r))
    (hτ : (layered env L sub snu).transCoef (atQ q nu pol) = .ok (FP.num τ)) :
    farMat pol nu q env L sub 0 0 ≠ 0 ∧ farMat pol nu q env L sub 1 0 / farMat pol nu q env L sub 0 0 = r ∧
      1 / farMat pol nu q env L sub 0 0 = τ := by
  rw [reflCoef_eq pol env L sub snu nu q hpol h] at hr
  rw [transCoef_eq pol env L sub snu nu q hpol h] at hτ
  have hM : farMat pol nu q env L sub 0 0 ≠ 0 := by
    intro h0
    rw [h0, num_div_zero] at hτ
    cases hτ
  rw [FP.num_div _ hM] at hr hτ
  exact ⟨hM, FP.num.inj (Except.ok.inj hr), FP.num.inj (Except.ok.inj hτ)⟩

/-- Light with the electric field in the plane of incidence.  In every solution of Maxwell's equations without a wave coming from
below, `r` and `t` are the amplitudes of the magnetic field of the reflected and of the transmitted wave; and there is one. -/
theorem C117_light_p (nu q : ℝ) (hnu : nu ≠ 0) (env : ℂ) (L : List (ℂ × ℝ)) (sub : ℂ) (snu : Option ℝ)
    (he : env ≠ 0 ∧ env * nu ^ 2 ≠ q ^ 2) (hL : ∀ l ∈ L, l.1 ≠ 0 ∧ l.1 * nu ^ 2 ≠ q ^ 2 ∧ 0 ≤ l.2)
    (hs : sub ≠ 0 ∧ sub * nu ^ 2 ≠ q ^ 2) (r τ : ℂ)
    (hr : (layered env L sub snu).reflCoef (atQ q nu "p") = .ok (FP.num r))
    (hτ : (layered env L sub snu).transCoef (atQ q nu "p") = .ok (FP.num τ)) :
    (∀ (Ex Ey Hz : ℝ → ℂ) (a b c : ℂ), IsLightP nu q env L sub Ex Ey Hz →
      (∀ y : ℝ, y < 0 → Hz y = a * Complex.exp (Complex.I * (Medium.at nu q env).k * y) +
        b * Complex.exp (-Complex.I * (Medium.at nu q env).k * y)) →
      (∀ y : ℝ, y > thickness L → Hz y = c * Complex.exp (Complex.I * (Medium.at nu q sub).k * (y - thickness L))) →
      b = r * a ∧ c = τ * a) ∧
    ∃ Ex Ey Hz : ℝ → ℂ, IsLightP nu q env L sub Ex Ey Hz ∧
      (∀ y : ℝ, y < 0 → Hz y = Complex.exp (Complex.I * (Medium.at nu q env).k * y) +
        r * Complex.exp (-Complex.I * (Medium.at nu q env).k * y)) ∧
      ∀ y : ℝ, y > thickness L → Hz y = τ * Complex.exp (Complex.I * (Medium.at nu q sub).k * (y - thickness L)) := by
  have hI := Complex.I_ne_zero
  have hn : (nu : ℂ) ≠ 0 := by exact_mod_cast hnu
  have hc : Complex.I * (nu : ℂ) ≠ 0 := mul_ne_zero hI hn
  have hk : ∀ {e : ℂ}, e * (nu : ℂ) ^ 2 ≠ (q : ℂ) ^ 2 → kz nu q e ≠ 0 := fun h h0 => h (sub_eq_zero.1 (kz_eq_zero.1 h0))
  obtain ⟨hM, er, eτ⟩ := far_coefs (Or.inl rfl)
    ⟨⟨hk he.2, fun l hl => hk (hL l hl).2.1⟩, fun _ => ⟨fun l hl => (hL l hl).1, hs.1⟩⟩ hr hτ
  have ok : MediaOk (fun e => e⁻¹) (fun e => -Complex.I * kz nu q e) env L sub := {
    we := inv_ne_zero he.1
    ke := mul_ne_zero (neg_ne_zero.2 hI) (hk he.2)
    wl := fun l hl => inv_ne_zero (hL l hl).1
    kl := fun l hl => mul_ne_zero (neg_ne_zero.2 hI) (hk (hL l hl).2.1)
    ws := inv_ne_zero hs.1
    ks := mul_ne_zero (neg_ne_zero.2 hI) (hk hs.2)
    t := fun l hl => (hL l hl).2.2 }
  rw [← light_mat "p" (fun e => e⁻¹) (by simp) nu q env L sub] at hM er eτ
  constructor
  · intro Ex Ey Hz a b c h ha hb
    have hf := MediaFill.map (Q := fun e S => Wave e⁻¹ (-Complex.I * kz nu q e) Hz (fun y => Complex.I * nu * Ex y) S)
      (fun _ h => ((lightP_wave hnu he.1).1 h).1) (fun l hl _ h => ((lightP_wave hnu (hL l hl).1).1 h).1)
      (fun _ h => ((lightP_wave hnu hs.1).1 h).1) h.eqn
    have := ok.coefs hM h.contH (continuous_const.mul h.contE) hf (a := a) (b := b) (c := c)
      (fun y hy => by rw [ha y hy]; simp only [Medium.at, kz, neg_mul, neg_neg]) (fun y hy => by
        rw [hb y hy]; simp only [Medium.at, kz, neg_mul, neg_neg])
    rwa [er, eτ] at this
  · obtain ⟨u, v, hu, hv, hf, h1, h2⟩ := ok.exists_coefs hM
    obtain ⟨f, hprof⟩ := profile env L sub ok.t
    have hv2 : (fun y => Complex.I * nu * (v y / (Complex.I * nu))) = v := by
      ext y
      field_simp
    have alg : ∀ (e : ℂ) (S : Set ℝ), e ≠ 0 → Wave e⁻¹ (-Complex.I * kz nu q e) u v S ∧ (∀ y ∈ S, f y = e) →
        MaxwellP nu q (fun y => v y / (Complex.I * nu)) (fun y => -(q * u y / (nu * f y))) u e S := by
      rintro e S he ⟨h1, h2⟩
      refine (lightP_wave hnu he).2 ⟨by rwa [hv2], fun y hy => ?_⟩
      rw [h2 y hy]
      field_simp
    refine ⟨fun y => v y / (Complex.I * nu), fun y => -(q * u y / (nu * f y)), u, ⟨hv.div_const _, hu, ?_⟩, fun y hy => ?_,
      fun y hy => ?_⟩
    · exact MediaFill.map (fun _ h => alg _ _ he.1 h) (fun l hl _ h => alg _ _ (hL l hl).1 h) (fun _ h => alg _ _ hs.1 h)
        (MediaFill.and hf hprof)
    · rw [h1 y hy.le, er]
      simp only [Medium.at, kz, neg_mul, neg_neg]
    · rw [h2 y hy.le, eτ]
      simp only [Medium.at, kz, neg_mul, neg_neg]

/-- Light with the magnetic field in the plane of incidence: `r` and `t` are the amplitudes of the electric field. -/
theorem C117_light_s (nu q : ℝ) (hnu : nu ≠ 0) (env : ℂ) (L : List (ℂ × ℝ)) (sub : ℂ) (snu : Option ℝ)
    (he : env * nu ^ 2 ≠ q ^ 2) (hL : ∀ l ∈ L, l.1 * nu ^ 2 ≠ q ^ 2 ∧ 0 ≤ l.2) (hs : sub * nu ^ 2 ≠ q ^ 2) (r τ : ℂ)
    (hr : (layered env L sub snu).reflCoef (atQ q nu "s") = .ok (FP.num r))
    (hτ : (layered env L sub snu).transCoef (atQ q nu "s") = .ok (FP.num τ)) :
    (∀ (Ez Hx Hy : ℝ → ℂ) (a b c : ℂ), IsLightS nu q env L sub Ez Hx Hy →
      (∀ y : ℝ, y < 0 → Ez y = a * Complex.exp (Complex.I * (Medium.at nu q env).k * y) +
        b * Complex.exp (-Complex.I * (Medium.at nu q env).k * y)) →
      (∀ y : ℝ, y > thickness L → Ez y = c * Complex.exp (Complex.I * (Medium.at nu q sub).k * (y - thickness L))) →
      b = r * a ∧ c = τ * a) ∧
    ∃ Ez Hx Hy : ℝ → ℂ, IsLightS nu q env L sub Ez Hx Hy ∧
      (∀ y : ℝ, y < 0 → Ez y = Complex.exp (Complex.I * (Medium.at nu q env).k * y) +
        r * Complex.exp (-Complex.I * (Medium.at nu q env).k * y)) ∧
      ∀ y : ℝ, y > thickness L → Ez y = τ * Complex.exp (Complex.I * (Medium.at nu q sub).k * (y - thickness L)) := by
  have hI := Complex.I_ne_zero
  have hn : (nu : ℂ) ≠ 0 := by exact_mod_cast hnu
  have hc : -(Complex.I * (nu : ℂ)) ≠ 0 := neg_ne_zero.2 (mul_ne_zero hI hn)
  have hk : ∀ {e : ℂ}, e * (nu : ℂ) ^ 2 ≠ (q : ℂ) ^ 2 → kz nu q e ≠ 0 := fun h h0 => h (sub_eq_zero.1 (kz_eq_zero.1 h0))
  obtain ⟨hM, er, eτ⟩ := far_coefs (Or.inr rfl)
    ⟨⟨hk he, fun l hl => hk (hL l hl).1⟩, fun h => absurd h (by decide)⟩ hr hτ
  have ok : MediaOk (fun _ => 1) (fun e => -Complex.I * kz nu q e) env L sub := {
    we := one_ne_zero
    ke := mul_ne_zero (neg_ne_zero.2 hI) (hk he)
    wl := fun _ _ => one_ne_zero
    kl := fun l hl => mul_ne_zero (neg_ne_zero.2 hI) (hk (hL l hl).1)
    ws := one_ne_zero
    ks := mul_ne_zero (neg_ne_zero.2 hI) (hk hs)
    t := fun l hl => (hL l hl).2 }
  rw [← light_mat "s" (fun _ => 1) (by simp) nu q env L sub] at hM er eτ
  constructor
  · intro Ez Hx Hy a b c h ha hb
    have hf := MediaFill.map (Q := fun e S => Wave 1 (-Complex.I * kz nu q e) Ez (fun y => -(Complex.I * nu) * Hx y) S)
      (fun _ h => ((lightS_wave hnu).1 h).1) (fun l hl _ h => ((lightS_wave hnu).1 h).1)
      (fun _ h => ((lightS_wave hnu).1 h).1) h.eqn
    have := ok.coefs hM h.contE (continuous_const.mul h.contH) hf (a := a) (b := b) (c := c)
      (fun y hy => by rw [ha y hy]; simp only [Medium.at, kz, neg_mul, neg_neg]) (fun y hy => by
        rw [hb y hy]; simp only [Medium.at, kz, neg_mul, neg_neg])
    rwa [er, eτ] at this
  · obtain ⟨u, v, hu, hv, hf, h1, h2⟩ := ok.exists_coefs hM
    have hv2 : (fun y => -(Complex.I * nu) * (v y / -(Complex.I * nu))) = v := by
      ext y
      exact mul_div_cancel₀ _ hc
    have alg : ∀ (e : ℂ) (S : Set ℝ), Wave 1 (-Complex.I * kz nu q e) u v S →
        MaxwellS nu q u (fun y => v y / -(Complex.I * nu)) (fun y => q * u y / nu) e S := by
      intro e S h1
      refine (lightS_wave hnu).2 ⟨by rwa [hv2], fun y hy => ?_⟩
      field_simp
    refine ⟨u, fun y => v y / -(Complex.I * nu), fun y => q * u y / nu, ⟨hu, hv.div_const _, ?_⟩, fun y hy => ?_,
      fun y hy => ?_⟩
    · exact MediaFill.map (fun _ h => alg _ _ h) (fun l hl _ h => alg _ _ h) (fun _ h => alg _ _ h) hf
    · rw [h1 y hy.le, er]
      simp only [Medium.at, kz, neg_mul, neg_neg]
    · rw [h2 y hy.le, eτ]
      simp only [Medium.at, kz, neg_mul, neg_neg]

theorem far_mode {pol : String} {env : ℂ} {L : List (ℂ × ℝ)} {sub : ℂ} {snu : Option ℝ} {nu q : ℝ} (hpol : pol = "p" ∨ pol = "s")
    (h : FarRegular pol nu q env L sub) :
    (¬ ∃ r, (layered env L sub snu).reflCoef (atQ q nu pol) = .ok (FP.num r)) ↔ farMat pol nu q env L sub 0 0 = 0 := by
  rw [reflCoef_eq pol env L sub snu nu q hpol h]
  constructor
  · intro h
    by_contra h0
    exact h ⟨_, by rw [FP.num_div _ h0]⟩
  · rintro h0 ⟨r, hr⟩
    rw [h0, num_div_zero] at hr
    cases hr

/-- The far-field coefficient is not finite exactly if the sample has a field of its own, with outgoing waves only. -/
theorem C117_guided_p (nu q : ℝ) (hnu : nu ≠ 0) (env : ℂ) (L : List (ℂ × ℝ)) (sub : ℂ) (snu : Option ℝ)
    (he : env ≠ 0 ∧ env * nu ^ 2 ≠ q ^ 2) (hL : ∀ l ∈ L, l.1 ≠ 0 ∧ l.1 * nu ^ 2 ≠ q ^ 2 ∧ 0 ≤ l.2)
    (hs : sub ≠ 0 ∧ sub * nu ^ 2 ≠ q ^ 2) :
    (¬ ∃ r, (layered env L sub snu).reflCoef (atQ q nu "p") = .ok (FP.num r)) ↔
      ∃ Ex Ey Hz : ℝ → ℂ, IsLightP nu q env L sub Ex Ey Hz ∧
        (∃ b, ∀ y : ℝ, y < 0 → Hz y = b * Complex.exp (-Complex.I * (Medium.at nu q env).k * y)) ∧
        (∃ c, ∀ y : ℝ, y > thickness L → Hz y = c * Complex.exp (Complex.I * (Medium.at nu q sub).k * (y - thickness L))) ∧
        ∃ y, Hz y ≠ 0 := by
  have hI := Complex.I_ne_zero
  have hn : (nu : ℂ) ≠ 0 := by exact_mod_cast hnu
  have hk : ∀ {e : ℂ}, e * (nu : ℂ) ^ 2 ≠ (q : ℂ) ^ 2 → kz nu q e ≠ 0 := fun h h0 => h (sub_eq_zero.1 (kz_eq_zero.1 h0))
  have ok : MediaOk (fun e => e⁻¹) (fun e => -Complex.I * kz nu q e) env L sub := {
    we := inv_ne_zero he.1
    ke := mul_ne_zero (neg_ne_zero.2 hI) (hk he.2)
    wl := fun l hl => inv_ne_zero (hL l hl).1
    kl := fun l hl => mul_ne_zero (neg_ne_zero.2 hI) (hk (hL l hl).2.1)
    ws := inv_ne_zero hs.1
    ks := mul_ne_zero (neg_ne_zero.2 hI) (hk hs.2)
    t := fun l hl => (hL l hl).2.2 }
  rw [far_mode (Or.inl rfl) ⟨⟨hk he.2, fun l hl => hk (hL l hl).2.1⟩, fun _ => ⟨fun l hl => (hL l hl).1, hs.1⟩⟩,
    ← light_mat "p" (fun e => e⁻¹) (by simp) nu q env L sub, ok.mode]
  constructor
  · rintro ⟨u, v, hu, hv, hf, hb, ⟨c, hc⟩, h0⟩
    obtain ⟨f, hprof⟩ := profile env L sub ok.t
    have hv2 : (fun y => Complex.I * nu * (v y / (Complex.I * nu))) = v := by
      ext y
      field_simp
    have alg : ∀ (e : ℂ) (S : Set ℝ), e ≠ 0 → Wave e⁻¹ (-Complex.I * kz nu q e) u v S ∧ (∀ y ∈ S, f y = e) →
        MaxwellP nu q (fun y => v y / (Complex.I * nu)) (fun y => -(q * u y / (nu * f y))) u e S := by
      rintro e S he ⟨h1, h2⟩
      refine (lightP_wave hnu he).2 ⟨by rwa [hv2], fun y hy => ?_⟩
      rw [h2 y hy]
      field_simp
    refine ⟨fun y => v y / (Complex.I * nu), fun y => -(q * u y / (nu * f y)), u, ⟨hv.div_const _, hu, ?_⟩, hb,
      ⟨c, fun y hy => ?_⟩, h0⟩
    · exact MediaFill.map (fun _ h => alg _ _ he.1 h) (fun l hl _ h => alg _ _ (hL l hl).1 h) (fun _ h => alg _ _ hs.1 h)
        (MediaFill.and hf hprof)
    · rw [hc y hy]
      simp only [Medium.at, kz, neg_mul, neg_neg]
  · rintro ⟨Ex, Ey, Hz, h, hb, ⟨c, hc⟩, h0⟩
    have hf := MediaFill.map (Q := fun e S => Wave e⁻¹ (-Complex.I * kz nu q e) Hz (fun y => Complex.I * nu * Ex y) S)
      (fun _ h => ((lightP_wave hnu he.1).1 h).1) (fun l hl _ h => ((lightP_wave hnu (hL l hl).1).1 h).1)
      (fun _ h => ((lightP_wave hnu hs.1).1 h).1) h.eqn
    refine ⟨Hz, fun y => Complex.I * nu * Ex y, h.contH, continuous_const.mul h.contE, hf, hb, ⟨c, fun y hy => ?_⟩, h0⟩
    rw [hc y hy]
    simp only [Medium.at, kz, neg_mul, neg_neg]

theorem C117_guided_s (nu q : ℝ) (hnu : nu ≠ 0) (env : ℂ) (L : List (ℂ × ℝ)) (sub : ℂ) (snu : Option ℝ)
    (he : env * nu ^ 2 ≠ q ^ 2) (hL : ∀ l ∈ L, l.1 * nu ^ 2 ≠ q ^ 2 ∧ 0 ≤ l.2) (hs : sub * nu ^ 2 ≠ q ^ 2) :
    (¬ ∃ r, (layered env L sub snu).reflCoef (atQ q nu "s") = .ok (FP.num r)) ↔
      ∃ Ez Hx Hy : ℝ → ℂ, IsLightS nu q env L sub Ez Hx Hy ∧
        (∃ b, ∀ y : ℝ, y < 0 → Ez y = b * Complex.exp (-Complex.I * (Medium.at nu q env).k * y)) ∧
        (∃ c, ∀ y : ℝ, y > thickness L → Ez y = c * Complex.exp (Complex.I * (Medium.at nu q sub).k * (y - thickness L))) ∧
        ∃ y, Ez y ≠ 0 := by
  have hI := Complex.I_ne_zero
  have hn : (nu : ℂ) ≠ 0 := by exact_mod_cast hnu
  have hc : -(Complex.I * (nu : ℂ)) ≠ 0 := neg_ne_zero.2 (mul_ne_zero hI hn)
  have hk : ∀ {e : ℂ}, e * (nu : ℂ) ^ 2 ≠ (q : ℂ) ^ 2 → kz nu q e ≠ 0 := fun h h0 => h (sub_eq_zero.1 (kz_eq_zero.1 h0))
  have ok : MediaOk (fun _ => 1) (fun e => -Complex.I * kz nu q e) env L sub := {
    we := one_ne_zero
    ke := mul_ne_zero (neg_ne_zero.2 hI) (hk he)
    wl := fun _ _ => one_ne_zero
    kl := fun l hl => mul_ne_zero (neg_ne_zero.2 hI) (hk (hL l hl).1)
    ws := one_ne_zero
    ks := mul_ne_zero (neg_ne_zero.2 hI) (hk hs)
    t := fun l hl => (hL l hl).2 }
  rw [far_mode (Or.inr rfl) ⟨⟨hk he, fun l hl => hk (hL l hl).1⟩, fun h => absurd h (by decide)⟩,
    ← light_mat "s" (fun _ => 1) (by simp) nu q env L sub, ok.mode]
  constructor
  · rintro ⟨u, v, hu, hv, hf, hb, ⟨c, hc'⟩, h0⟩
    have hv2 : (fun y => -(Complex.I * nu) * (v y / -(Complex.I * nu))) = v := by
      ext y
      exact mul_div_cancel₀ _ hc
    have alg : ∀ (e : ℂ) (S : Set ℝ), Wave 1 (-Complex.I * kz nu q e) u v S →
        MaxwellS nu q u (fun y => v y / -(Complex.I * nu)) (fun y => q * u y / nu) e S := by
      intro e S h1
      refine (lightS_wave hnu).2 ⟨by rwa [hv2], fun y hy => ?_⟩
      field_simp
    refine ⟨u, fun y => v y / -(Complex.I * nu), fun y => q * u y / nu, ⟨hu, hv.div_const _, ?_⟩, hb,
      ⟨c, fun y hy => ?_⟩, h0⟩
    · exact MediaFill.map (fun _ h => alg _ _ h) (fun l hl _ h => alg _ _ h) (fun _ h => alg _ _ h) hf
    · rw [hc' y hy]
      simp only [Medium.at, kz, neg_mul, neg_neg]
  · rintro ⟨Ez, Hx, Hy, h, hb, ⟨c, hc'⟩, h0⟩
    have hf := MediaFill.map (Q := fun e S => Wave 1 (-Complex.I * kz nu q e) Ez (fun y => -(Complex.I * nu) * Hx y) S)
      (fun _ h => ((lightS_wave hnu).1 h).1) (fun l hl _ h => ((lightS_wave hnu).1 h).1)
      (fun _ h => ((lightS_wave hnu).1 h).1) h.eqn
    refine ⟨Ez, fun y => -(Complex.I * nu) * Hx y, h.contE, continuous_const.mul h.contH, hf, hb, ⟨c, fun y hy => ?_⟩, h0⟩
    rw [hc' y hy]
    simp only [Medium.at, kz, neg_mul, neg_neg]

/-! ## Examples -/

theorem example_film : ∀ l ∈ [((3 : ℂ) + Complex.I, (2 : ℝ))], Passive l.1 ∧ 0 ≤ l.2 ∧ (0 < l.1.im ∨ (1 / 2 : ℝ) ^ 2 < l.1.re * 1 ^ 2) := by
  intro l hl
  simp only [List.mem_singleton] at hl
  subst hl
  exact ⟨Or.inl (by simp), by norm_num, Or.inl (by simp)⟩

/-- A potential above a film that absorbs. -/
example : ∃ r τ : ℂ, ∃ φ D : ℝ → ℂ, IsPotential 1 1 [((3 : ℂ) + Complex.I, (2 : ℝ))] 4 φ D ∧
    (layered 1 [(3 + Complex.I, 2)] 4).reflCoefQs (FP.num 1) = .ok (FP.num r) ∧
    (∀ y ≤ 0, φ y = 1 * (Complex.exp (-((1 : ℝ) : ℂ) * y) - r * Complex.exp (((1 : ℝ) : ℂ) * y))) ∧
    ∀ y ≥ (2 : ℝ), φ y = 1 * (τ * (1 / 4)) * Complex.exp (-((1 : ℝ) : ℂ) * (y - (2 : ℝ))) := by
  have hne : ∀ l ∈ [((3 : ℂ) + Complex.I, (2 : ℝ))], l.1 ≠ 0 := by simp [Complex.ext_iff]
  have hM : qsMat 1 1 [((3 : ℂ) + Complex.I, (2 : ℝ))] 4 0 0 ≠ 0 := by
    obtain ⟨β, h, -⟩ := C15_passive 1 [((3 : ℂ) + Complex.I, (2 : ℝ))] 4 none 1 one_pos
      (fun l hl => ⟨(example_film l hl).1, (example_film l hl).2.1⟩) (Or.inr ⟨by norm_num, by norm_num⟩) zero_le_one
    rw [Complex.ofReal_one, reflCoefQs_eq _ _ _ _ _ hne (by norm_num)] at h
    intro h0
    rw [h0, num_div_zero] at h
    cases h
  have hr := reflCoefQs_num 1 [((3 : ℂ) + Complex.I, (2 : ℝ))] 4 none 1 hne (by norm_num) hM
  have hτ := transCoefQs_num 1 [((3 : ℂ) + Complex.I, (2 : ℝ))] 4 none 1 hne (by norm_num) hM
  obtain ⟨h1, φ, D, h, ha, hb⟩ := C117_static 1 one_pos 1 _ 4 none one_ne_zero
    (fun l hl => ⟨hne l hl, by simp at hl; subst hl; norm_num; linarith [maxExpArg_gt]⟩) (by norm_num) _ _ hr hτ
  have := h1 φ D 1 h (by simpa using ha) hb
  refine ⟨_, 1 / qsMat 1 1 [((3 : ℂ) + Complex.I, (2 : ℝ))] 4 0 0, φ, D, h, hr, this.1, ?_⟩
  have e : thickness [((3 : ℂ) + Complex.I, (2 : ℝ))] = 2 := by simp [thickness]
  rw [e] at this
  exact this.2

/-- The field of the wave that a film of permittivity `-2` in air guides. -/
example : ∃ φ D : ℝ → ℂ, IsPotential (Real.log 3) 1 [(((-2 : ℝ) : ℂ), (1 : ℝ))] 1 φ D ∧ Tendsto φ atBot (𝓝 0) ∧ Tendsto φ atTop (𝓝 0) ∧
    ∃ y, φ y ≠ 0 := by
  have hlog : Real.log 3 * 1 ≤ maxExpArg := by
    have : Real.log 3 ≤ 3 - 1 := Real.log_le_sub_one_of_pos (by norm_num)
    linarith [maxExpArg_gt]
  refine (C117_polariton (Real.log 3) (Real.log_pos (by norm_num)) 1 _ 1 none one_ne_zero ?_ one_ne_zero).1 ?_
  · intro l hl
    simp only [List.mem_singleton] at hl
    subst hl
    exact ⟨by norm_num, zero_le_one, hlog⟩
  have h := C116_dispersion 1 (-2) 1 1 (Real.log 3) none one_pos one_pos (by norm_num) one_pos (Real.log_pos (by norm_num)) hlog
  have e : Real.log ((-2 - 1) * (-2 - 1) / ((-2 + 1) * (-2 + 1))) = 2 * Real.log 3 := by
    rw [show ((-2 - 1) * (-2 - 1) / ((-2 + 1) * (-2 + 1)) : ℝ) = 3 ^ 2 by norm_num, Real.log_pow]
    norm_num
  have := h.2 ⟨by norm_num, by norm_num, by rw [e]; ring⟩
  simpa using this

theorem example_media : ((1 : ℂ) ≠ 0 ∧ (1 : ℂ) * ((1 : ℝ) : ℂ) ^ 2 ≠ ((1 / 2 : ℝ) : ℂ) ^ 2) ∧
    (∀ l ∈ [((3 : ℂ) + Complex.I, (2 : ℝ))], l.1 ≠ 0 ∧ l.1 * ((1 : ℝ) : ℂ) ^ 2 ≠ ((1 / 2 : ℝ) : ℂ) ^ 2 ∧ 0 ≤ l.2) ∧
    ((9 / 4 : ℂ) ≠ 0 ∧ (9 / 4 : ℂ) * ((1 : ℝ) : ℂ) ^ 2 ≠ ((1 / 2 : ℝ) : ℂ) ^ 2) := by
  refine ⟨⟨one_ne_zero, by norm_num⟩, fun l hl => ?_, by norm_num, by norm_num⟩
  simp only [List.mem_singleton] at hl
  subst hl
  refine ⟨by simp [Complex.ext_iff], fun h => ?_, by norm_num⟩
  have := congrArg Complex.im h
  rw [← Complex.ofReal_pow, ← Complex.ofReal_pow, Complex.im_mul_ofReal, Complex.ofReal_im] at this
  norm_num at this

/-- Light on an absorbing film on glass. -/
example : ∃ Ex Ey Hz : ℝ → ℂ, IsLightP 1 (1 / 2) 1 [((3 : ℂ) + Complex.I, (2 : ℝ))] (9 / 4) Ex Ey Hz := by
  obtain ⟨r, t, -, hr, ht⟩ := C85_passive 1 [((3 : ℂ) + Complex.I, 2)] (9 / 4) none 1 (1 / 2) "p" (by simp) one_ne_zero
    (Or.inr ⟨by simp, by simp⟩) (Or.inr (by norm_num)) example_film (Or.inr ⟨by norm_num, by norm_num⟩)
  obtain ⟨Ex, Ey, Hz, h, -⟩ := (C117_light_p 1 (1 / 2) one_ne_zero 1 _ (9 / 4) none example_media.1 example_media.2.1
    example_media.2.2 r t hr ht).2
  exact ⟨Ex, Ey, Hz, h⟩

example : ∃ Ez Hx Hy : ℝ → ℂ, IsLightS 1 (1 / 2) 1 [((3 : ℂ) + Complex.I, (2 : ℝ))] (9 / 4) Ez Hx Hy := by
  obtain ⟨r, t, -, hr, ht⟩ := C85_passive 1 [((3 : ℂ) + Complex.I, 2)] (9 / 4) none 1 (1 / 2) "s" (by simp) one_ne_zero
    (Or.inr ⟨by simp, by simp⟩) (Or.inr (by norm_num)) example_film (Or.inr ⟨by norm_num, by norm_num⟩)
  obtain ⟨Ez, Hx, Hy, h, -⟩ := (C117_light_s 1 (1 / 2) one_ne_zero 1 _ (9 / 4) none example_media.1.2
    (fun l hl => (example_media.2.1 l hl).2) example_media.2.2.2 r t hr ht).2
  exact ⟨Ez, Hx, Hy, h⟩

example := C117_guided_p 1 (1 / 2) one_ne_zero 1 [((3 : ℂ) + Complex.I, (2 : ℝ))] (9 / 4) none example_media.1 example_media.2.1
  example_media.2.2
example := C117_guided_s 1 (1 / 2) one_ne_zero 1 [((3 : ℂ) + Complex.I, (2 : ℝ))] (9 / 4) none example_media.1.2
  (fun l hl => (example_media.2.1 l hl).2) example_media.2.2.2

end Snompy.Props
