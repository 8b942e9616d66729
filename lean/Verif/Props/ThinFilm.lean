import Verif.Props.TaylorLayered
import Verif.Props.Convergence
import Mathlib.Analysis.SpecialFunctions.Trigonometric.DerivHyp

/-!
# C116: thin films and the polaritons of films
-/

namespace Snompy.Props

open Snompy Filter Topology

/-! ## The reflection coefficient of one film -/

/-- Numerator and denominator, for `x = q t`. -/
noncomputable def filmNum (e f s : ℂ) (x : ℝ) : ℂ := f * (s - e) * Real.cosh x + (f ^ 2 - e * s) * Real.sinh x
noncomputable def filmDen (e f s : ℂ) (x : ℝ) : ℂ := f * (s + e) * Real.cosh x + (f ^ 2 + e * s) * Real.sinh x

theorem film_eq (e f s : ℂ) (t : ℝ) (nu : Option ℝ) (hf : f ≠ 0) (hs : s ≠ 0) (q : ℝ) :
    (layered e [(f, t)] s nu).reflCoefQs (FP.num q) = .ok (FP.num (filmNum e f s (clipped (q * t)) / (2 * f * s)) /
      FP.num (filmDen e f s (clipped (q * t)) / (2 * f * s))) := by
  rw [reflCoefQs_eq _ _ _ _ _ (by simpa using hf) hs]
  have h2 : (2 * f * s : ℂ) ≠ 0 := mul_ne_zero (mul_ne_zero two_ne_zero hf) hs
  have hc : ∀ x : ℝ, Complex.exp (x : ℂ) = Real.cosh x + Real.sinh x := fun x => by
    rw [← Complex.ofReal_exp, ← Real.cosh_add_sinh]
    push_cast
    rfl
  have hc' : ∀ x : ℝ, Complex.exp (-(x : ℂ)) = Real.cosh x - Real.sinh x := fun x => by
    rw [← Complex.ofReal_neg, ← Complex.ofReal_exp, ← Real.cosh_sub_sinh]
    push_cast
    rfl
  congr 3
  · rw [eq_div_iff h2]
    simp only [qsMat, List.map_cons, List.map_nil, gen, TM, PM, filmNum, Matrix.mul_apply, Fin.sum_univ_two, Matrix.of_apply,
      Matrix.cons_val', Matrix.cons_val_zero, Matrix.cons_val_one, Matrix.cons_val_fin_one]
    rw [hc, hc']
    field_simp
    ring
  · rw [eq_div_iff h2]
    simp only [qsMat, List.map_cons, List.map_nil, gen, TM, PM, filmDen, Matrix.mul_apply, Fin.sum_univ_two, Matrix.of_apply,
      Matrix.cons_val', Matrix.cons_val_zero, Matrix.cons_val_one, Matrix.cons_val_fin_one]
    rw [hc, hc']
    field_simp
    ring

theorem film_num (e f s : ℂ) (t : ℝ) (nu : Option ℝ) (hf : f ≠ 0) (hs : s ≠ 0) (q : ℝ)
    (hd : filmDen e f s (clipped (q * t)) ≠ 0) :
    (layered e [(f, t)] s nu).reflCoefQs (FP.num q) =
      .ok (FP.num (filmNum e f s (clipped (q * t)) / filmDen e f s (clipped (q * t)))) := by
  have h2 : (2 * f * s : ℂ) ≠ 0 := mul_ne_zero (mul_ne_zero two_ne_zero hf) hs
  rw [film_eq e f s t nu hf hs, FP.num_div _ (div_ne_zero hd h2), div_div_div_cancel_right₀ h2]

theorem film_finite (e f s : ℂ) (t : ℝ) (nu : Option ℝ) (hf : f ≠ 0) (hs : s ≠ 0) (q : ℝ) :
    (∃ v, (layered e [(f, t)] s nu).reflCoefQs (FP.num q) = .ok (FP.num v)) ↔ filmDen e f s (clipped (q * t)) ≠ 0 := by
  constructor
  · rintro ⟨v, hv⟩ h0
    rw [film_eq e f s t nu hf hs, h0, zero_div, num_div_zero] at hv
    cases hv
  · exact fun h => ⟨_, film_num e f s t nu hf hs q h⟩

/-! ## Thin films -/

theorem film_deriv {e f s : ℂ} (hf : f ≠ 0) (hse : s + e ≠ 0) (q : ℝ) :
    HasDerivAt (fun t : ℝ => filmNum e f s (q * t) / filmDen e f s (q * t))
      (2 * q * (e * (f ^ 2 - s ^ 2) / (f * (s + e) ^ 2))) 0 := by
  have hlin : HasDerivAt (fun t : ℝ => q * t) q 0 := by simpa using (hasDerivAt_id (0 : ℝ)).const_mul q
  have hC : HasDerivAt (fun t : ℝ => ((Real.cosh (q * t) : ℝ) : ℂ)) 0 0 := by
    have := (hlin.cosh).ofReal_comp
    simpa using this
  have hS : HasDerivAt (fun t : ℝ => ((Real.sinh (q * t) : ℝ) : ℂ)) q 0 := by
    have := (hlin.sinh).ofReal_comp
    simpa using this
  have hN : HasDerivAt (fun t : ℝ => filmNum e f s (q * t)) ((f ^ 2 - e * s) * q) 0 := by
    exact ((hC.const_mul (f * (s - e))).add (hS.const_mul (f ^ 2 - e * s))).congr_deriv (by ring)
  have hD : HasDerivAt (fun t : ℝ => filmDen e f s (q * t)) ((f ^ 2 + e * s) * q) 0 := by
    exact ((hC.const_mul (f * (s + e))).add (hS.const_mul (f ^ 2 + e * s))).congr_deriv (by ring)
  have h0 : filmDen e f s (q * 0) = f * (s + e) := by simp [filmDen]
  have h1 : filmNum e f s (q * 0) = f * (s - e) := by simp [filmNum]
  have := hN.div hD (by rw [h0]; exact mul_ne_zero hf hse)
  rw [h0, h1] at this
  refine this.congr_deriv ?_
  field_simp
  ring

theorem film_eventually {e f s : ℂ} (nu : Option ℝ) (hf : f ≠ 0) (hs : s ≠ 0) (hse : s + e ≠ 0) (q : ℝ) :
    ∀ᶠ t : ℝ in 𝓝 0, (layered e [(f, t)] s nu).reflCoefQs (FP.num q) =
      .ok (FP.num (filmNum e f s (q * t) / filmDen e f s (q * t))) := by
  have hc : Continuous fun t : ℝ => filmDen e f s (q * t) := by
    have := Real.continuous_cosh
    have := Real.continuous_sinh
    unfold filmDen
    fun_prop
  have h1 : ∀ᶠ t : ℝ in 𝓝 0, filmDen e f s (q * t) ≠ 0 := by
    refine hc.continuousAt.eventually_ne ?_
    simp only [filmDen, mul_zero, Real.cosh_zero, Real.sinh_zero, Complex.ofReal_one, Complex.ofReal_zero, mul_one, add_zero]
    exact mul_ne_zero hf hse
  have h2 : ∀ᶠ t : ℝ in 𝓝 0, |q * t| < maxExpArg := by
    have hq : Continuous fun t : ℝ => |q * t| := by fun_prop
    refine (hq.tendsto 0).eventually_lt_const ?_
    simp only [mul_zero, abs_zero]
    linarith [maxExpArg_gt]
  filter_upwards [h1, h2] with t h1 h2
  have hcl := clipped_of_abs_le h2.le
  rw [film_num e f s t nu hf hs q (by rwa [hcl]), hcl]

/-- A thin film changes the reflection coefficient by `2 q t e (f² - s²) / (f (s + e)²)`, to first order in its thickness. -/
theorem C116_thin (e f s : ℂ) (nu : Option ℝ) (hf : f ≠ 0) (hs : s ≠ 0) (hse : s + e ≠ 0) (q : ℝ) :
    ∃ b : ℝ → ℂ, (∀ᶠ t in 𝓝 0, (layered e [(f, t)] s nu).reflCoefQs (FP.num q) = .ok (FP.num (b t))) ∧
      (bulk e s nu).reflCoefQs (FP.num q) = .ok (FP.num (b 0)) ∧
      HasDerivAt b (2 * q * (e * (f ^ 2 - s ^ 2) / (f * (s + e) ^ 2))) 0 := by
  refine ⟨_, film_eventually nu hf hs hse q, ?_, film_deriv hf hse q⟩
  rw [C09_refl e s nu _ hs hse]
  congr 2
  simp only [filmNum, filmDen, mul_zero, Real.cosh_zero, Real.sinh_zero, Complex.ofReal_one, Complex.ofReal_zero, mul_one,
    add_zero]
  rw [mul_div_mul_left _ _ hf]

theorem hasDerivAt_list_sum {α : Type} (l : List α) (F : α → ℝ → ℂ) (F' : α → ℂ) {x : ℝ}
    (h : ∀ a ∈ l, HasDerivAt (F a) (F' a) x) :
    HasDerivAt (fun t => (l.map fun a => F a t).sum) (l.map F').sum x := by
  induction l with
  | nil => simpa using hasDerivAt_const x (0 : ℂ)
  | cons a l ih =>
    simp only [List.map_cons, List.sum_cons]
    exact (h a (by simp)).add (ih fun b hb => h b (by simp [hb]))

theorem average_deriv (env : Env) (e f s : ℂ) (nu : Option ℝ) (hf : f ≠ 0) (hs : s ≠ 0) (hse : s + e ≠ 0) (z : ℝ)
    (hz : 0 < z) (nLag : Option ℕ) (hr : env.RuleOk nLag) :
    ∃ b : ℝ → ℂ, (∀ᶠ t in 𝓝 0, (layered e [(f, t)] s nu).reflCoefQsAboveSurf env (FP.num z) nLag = .ok (FP.num (b t))) ∧
      b 0 = (s - e) / (s + e) ∧
      HasDerivAt b ((((env.laggauss (nLag.getD env.defaults.nLag)).map fun xw => xw.2 * xw.1 ^ 2).sum / z : ℝ) *
        (e * (f ^ 2 - s ^ 2) / (f * (s + e) ^ 2))) 0 := by
  set rule := env.laggauss (nLag.getD env.defaults.nLag) with hrule
  refine ⟨fun t => (rule.map fun xw => ((xw.2 * xw.1 : ℝ) : ℂ) *
    (filmNum e f s (xw.1 / (2 * z) * t) / filmDen e f s (xw.1 / (2 * z) * t))).sum, ?_, ?_, ?_⟩
  · have hall : ∀ᶠ t : ℝ in 𝓝 0, ∀ xw ∈ rule, (layered e [(f, t)] s nu).reflCoefQs (FP.num (xw.1 / (2 * z))) =
        .ok (FP.num (filmNum e f s (xw.1 / (2 * z) * t) / filmDen e f s (xw.1 / (2 * z) * t))) := by
      have := (Set.Finite.subset (List.finite_toSet rule) fun _ h => h).eventually_all (l := 𝓝 (0 : ℝ))
        (p := fun (xw : ℝ × ℝ) t => (layered e [(f, t)] s nu).reflCoefQs (FP.num (xw.1 / (2 * z))) =
          .ok (FP.num (filmNum e f s (xw.1 / (2 * z) * t) / filmDen e f s (xw.1 / (2 * z) * t))))
      exact this.2 fun xw _ => film_eventually nu hf hs hse _
    filter_upwards [hall] with t ht
    exact aboveSurf_num env _ (fun q => filmNum e f s (q * t) / filmDen e f s (q * t)) z hz.ne' nLag hr.1
      ⟨_, film_eq e f s t nu hf hs z⟩ ht
  · simp only [filmNum, filmDen, mul_zero, Real.cosh_zero, Real.sinh_zero, Complex.ofReal_one, Complex.ofReal_zero, mul_one,
      add_zero, mul_div_mul_left _ _ hf]
    rw [sum_const_mul, hr.2.sum_wx hr.1]
    simp
  · refine (hasDerivAt_list_sum rule _ (fun xw => ((xw.2 * xw.1 : ℝ) : ℂ) *
      (2 * ((xw.1 / (2 * z) : ℝ) : ℂ) * (e * (f ^ 2 - s ^ 2) / (f * (s + e) ^ 2)))) fun xw _ =>
      (film_deriv hf hse _).const_mul _).congr_deriv ?_
    clear_value rule
    generalize e * (f ^ 2 - s ^ 2) / (f * (s + e) ^ 2) = k
    have hz' : (z : ℂ) ≠ 0 := by exact_mod_cast hz.ne'
    clear hrule
    induction rule with
    | nil => simp
    | cons a l ih =>
      simp only [List.map_cons, List.sum_cons]
      rw [ih]
      push_cast
      field_simp

/-- A thin film changes the charge average above it by `2 t e (f² - s²) / (z f (s + e)²)`, if the rule has at least two nodes. -/
theorem C116_average (env : Env) (e f s : ℂ) (nu : Option ℝ) (hf : f ≠ 0) (hs : s ≠ 0) (hse : s + e ≠ 0) (z : ℝ)
    (hz : 0 < z) (nLag : Option ℕ) (hr : env.RuleOk nLag) (h2 : 2 ≤ nLag.getD env.defaults.nLag) :
    ∃ b : ℝ → ℂ, (∀ᶠ t in 𝓝 0, (layered e [(f, t)] s nu).reflCoefQsAboveSurf env (FP.num z) nLag = .ok (FP.num (b t))) ∧
      b 0 = (s - e) / (s + e) ∧ HasDerivAt b (2 / z * (e * (f ^ 2 - s ^ 2) / (f * (s + e) ^ 2))) 0 := by
  obtain ⟨b, hb, h0, hd⟩ := average_deriv env e f s nu hf hs hse z hz nLag hr
  refine ⟨b, hb, h0, hd.congr_deriv ?_⟩
  rw [hr.2.exact 2 (by omega)]
  push_cast
  norm_num [Nat.factorial]

/-- With one node (`n_lag=1`) the change is only half of that. -/
theorem C116_one_node (env : Env) (e f s : ℂ) (nu : Option ℝ) (hf : f ≠ 0) (hs : s ≠ 0) (hse : s + e ≠ 0) (z : ℝ)
    (hz : 0 < z) (hr : env.RuleOk (some 1)) :
    ∃ b : ℝ → ℂ,
      (∀ᶠ t in 𝓝 0, (layered e [(f, t)] s nu).reflCoefQsAboveSurf env (FP.num z) (some 1) = .ok (FP.num (b t))) ∧
      b 0 = (s - e) / (s + e) ∧ HasDerivAt b (1 / z * (e * (f ^ 2 - s ^ 2) / (f * (s + e) ^ 2))) 0 := by
  obtain ⟨b, hb, h0, hd⟩ := average_deriv env e f s nu hf hs hse z hz (some 1) hr
  refine ⟨b, hb, h0, hd.congr_deriv ?_⟩
  have h := hr.2
  simp only [Option.getD_some] at h ⊢
  have hl := h.length
  have e0 := h.exact 0 (by norm_num)
  have e1 := h.exact 1 (by norm_num)
  obtain ⟨a, ha⟩ := List.length_eq_one_iff.1 hl
  rw [ha] at e0 e1 ⊢
  simp only [List.map_cons, List.map_nil, List.sum_cons, List.sum_nil, pow_zero, mul_one, add_zero, Nat.factorial_zero,
    Nat.factorial_one, Nat.cast_one, pow_one] at e0 e1 ⊢
  rw [e0, one_mul] at e1
  rw [e0, e1]
  simp

/-- A thin film in the finite dipole model with the charge average: the signal of the substrate and the first-order change. -/
theorem C116_signal (env : Env) (e f s : ℂ) (nu : Option ℝ) (hf : f ≠ 0) (hs : s ≠ 0) (hse : s + e ≠ 0)
    (z r l : ℝ) (g : ℂ) (d0 d1 dA : ℝ) (h0 : Fdm.GeomOk z d0 r l) (h1 : Fdm.GeomOk z d1 r l) (hz : 0 < z + r * dA)
    (hd : (s - e) / (s + e) * Fdm.geom z d1 r l g ≠ 1) (nLag : Option ℕ) (hr : env.RuleOk nLag)
    (h2 : 2 ≤ nLag.getD env.defaults.nLag) :
    ∃ a : ℝ → ℂ,
      (∀ᶠ t in 𝓝 0, Fdm.effPol env (layered e [(f, t)] s nu) (some (FP.num z)) (fdmTip r l g d0 d1 dA) nLag (some "Q_ave") =
        .ok (FP.num (a t))) ∧
      Fdm.effPol env (bulk e s nu) (some (FP.num z)) (fdmTip r l g d0 d1 dA) nLag (some "bulk") = .ok (FP.num (a 0)) ∧
      HasDerivAt a (Fdm.geom z d0 r l g / (2 * (1 - (s - e) / (s + e) * Fdm.geom z d1 r l g) ^ 2) *
        (2 / (z + r * dA) * (e * (f ^ 2 - s ^ 2) / (f * (s + e) ^ 2)))) 0 := by
  obtain ⟨b, hb, hb0, hbd⟩ := C116_average env e f s nu hf hs hse _ hz nLag hr h2
  have hne : 1 - b 0 * Fdm.geom z d1 r l g ≠ 0 := by
    rw [hb0]
    exact sub_ne_zero.2 hd.symm
  refine ⟨fun t => 1 + b t * Fdm.geom z d0 r l g / (2 * (1 - b t * Fdm.geom z d1 r l g)), ?_, ?_, ?_⟩
  · have hc : ∀ᶠ t in 𝓝 0, 1 - b t * Fdm.geom z d1 r l g ≠ 0 :=
      (continuousAt_const.sub (hbd.continuousAt.mul continuousAt_const)).eventually_ne hne
    filter_upwards [hb, hc] with t ht hct
    rw [Fdm.effPol_Qave, fdm_fdmTip]
    simp only [Option.getD_some, FP.num_mul, FP.num_add]
    rw [ht, PyM.ok_bind, Fdm.geomFunc_num h0, Fdm.geomFunc_num h1, Fdm.formula_num _ _ _ _ hct]
  · rw [Fdm.effPol_bulk _ _ (bulk_multilayer _ _ _), C09_refl e s nu _ hs hse, PyM.ok_bind, fdm_fdmTip]
    simp only [Option.getD_some]
    rw [Fdm.geomFunc_num h0, Fdm.geomFunc_num h1, ← hb0, Fdm.formula_num _ _ _ _ hne]
  · have hn := hbd.mul_const (Fdm.geom z d0 r l g)
    have hdn := ((hasDerivAt_const (0 : ℝ) (1 : ℂ)).sub (hbd.mul_const (Fdm.geom z d1 r l g))).const_mul (2 : ℂ)
    refine ((hn.div hdn (mul_ne_zero two_ne_zero hne)).const_add 1).congr_deriv ?_
    rw [← hb0]
    push_cast
    generalize 2 / ((z : ℂ) + r * dA) * (e * (f ^ 2 - s ^ 2) / (f * (s + e) ^ 2)) = k
    simp only [Pi.sub_apply]
    field_simp
    ring

/-! ## Polaritons of the film -/

/-- The reflection coefficient of a film is not finite exactly where the film guides a wave: `e^(2 q t) (f+e)(f+s) = (f-e)(f-s)`. -/
theorem C116_polariton (e f s : ℂ) (t q : ℝ) (nu : Option ℝ) (hf : f ≠ 0) (hs : s ≠ 0) (hq : |q * t| ≤ maxExpArg) :
    (¬ ∃ v, (layered e [(f, t)] s nu).reflCoefQs (FP.num q) = .ok (FP.num v)) ↔
      (Real.exp (2 * (q * t)) : ℂ) * ((f + e) * (f + s)) = (f - e) * (f - s) := by
  rw [film_finite e f s t nu hf hs, clipped_of_abs_le hq, not_not]
  have hx : Complex.exp (q * t : ℝ) ≠ 0 := Complex.exp_ne_zero _
  have hD : 2 * Complex.exp (q * t : ℝ) * filmDen e f s (q * t) =
      (Real.exp (2 * (q * t)) : ℂ) * ((f + e) * (f + s)) - (f - e) * (f - s) := by
    have h1 : (Real.exp (2 * (q * t)) : ℂ) = Complex.exp (q * t : ℝ) ^ 2 := by
      rw [← Complex.ofReal_exp, ← Complex.ofReal_pow, ← Real.exp_nat_mul]
      norm_num
    have h2 : ((Real.cosh (q * t) : ℝ) : ℂ) = (Complex.exp (q * t : ℝ) + (Complex.exp (q * t : ℝ))⁻¹) / 2 := by
      rw [Complex.ofReal_cosh, Complex.cosh, Complex.exp_neg]
    have h3 : ((Real.sinh (q * t) : ℝ) : ℂ) = (Complex.exp (q * t : ℝ) - (Complex.exp (q * t : ℝ))⁻¹) / 2 := by
      rw [Complex.ofReal_sinh, Complex.sinh, Complex.exp_neg]
    rw [filmDen, h1, h2, h3]
    field_simp
    ring
  rw [← sub_eq_zero (a := _ * _), ← hD]
  simp [Complex.exp_ne_zero]

/-- Between two half spaces of the same material the waves are even or odd. -/
theorem C116_symmetric (e f : ℂ) (t q : ℝ) (nu : Option ℝ) (hf : f ≠ 0) (he : e ≠ 0) (hq : |q * t| ≤ maxExpArg) :
    (¬ ∃ v, (layered e [(f, t)] e nu).reflCoefQs (FP.num q) = .ok (FP.num v)) ↔
      f * Real.cosh (q * t / 2) = -e * Real.sinh (q * t / 2) ∨ f * Real.sinh (q * t / 2) = -e * Real.cosh (q * t / 2) := by
  rw [film_finite e f e t nu hf he, clipped_of_abs_le hq, not_not]
  have hD : filmDen e f e (q * t) = 2 * ((f * Real.cosh (q * t / 2) + e * Real.sinh (q * t / 2)) *
      (f * Real.sinh (q * t / 2) + e * Real.cosh (q * t / 2))) := by
    have h1 : Real.cosh (q * t) = Real.cosh (q * t / 2) ^ 2 + Real.sinh (q * t / 2) ^ 2 := by
      rw [← Real.cosh_two_mul]
      ring_nf
    have h2 : Real.sinh (q * t) = 2 * Real.sinh (q * t / 2) * Real.cosh (q * t / 2) := by
      rw [← Real.sinh_two_mul]
      ring_nf
    rw [filmDen, h1, h2]
    push_cast
    ring
  rw [hD, mul_eq_zero, mul_eq_zero]
  simp only [two_ne_zero, false_or]
  constructor
  · rintro (h | h)
    · exact .inl (by linear_combination h)
    · exact .inr (by linear_combination h)
  · rintro (h | h)
    · exact .inl (by linear_combination h)
    · exact .inr (by linear_combination h)

/-- Dispersion relation of the polaritons of a lossless film: a negative permittivity outside of `[-max e s, -min e s]` guides
one wave, whose wave number is inversely proportional to the thickness. -/
theorem C116_dispersion (e f s t q : ℝ) (nu : Option ℝ) (he : 0 < e) (hs : 0 < s) (hf : f ≠ 0) (ht : 0 < t) (hq : 0 < q)
    (hqt : q * t ≤ maxExpArg) :
    (¬ ∃ v, (layered e [((f : ℂ), t)] s nu).reflCoefQs (FP.num q) = .ok (FP.num v)) ↔
      f < 0 ∧ 0 < (f + e) * (f + s) ∧ q = Real.log ((f - e) * (f - s) / ((f + e) * (f + s))) / (2 * t) := by
  have hx : 0 < q * t := mul_pos hq ht
  rw [C116_polariton e f s t q nu (by exact_mod_cast hf) (by exact_mod_cast hs.ne') (by rwa [abs_of_pos hx])]
  have hr : ((Real.exp (2 * (q * t)) : ℂ) * (((f : ℂ) + e) * (f + s)) = (f - e) * (f - s)) ↔
      Real.exp (2 * (q * t)) * ((f + e) * (f + s)) = (f - e) * (f - s) := by
    rw [← Complex.ofReal_inj]
    push_cast
    rfl
  rw [hr]
  have hE : 1 < Real.exp (2 * (q * t)) := Real.one_lt_exp_iff.2 (by linarith)
  constructor
  · intro h
    have hneg : f < 0 := by
      rcases lt_or_gt_of_ne hf with h' | h'
      · exact h'
      · exfalso
        nlinarith [mul_pos h' (add_pos he hs), mul_pos (add_pos h' he) (add_pos h' hs)]
    have hpos : 0 < (f + e) * (f + s) := by
      have : 0 < (f - e) * (f - s) := mul_pos_of_neg_of_neg (by linarith) (by linarith)
      rw [← h] at this
      exact (mul_pos_iff_of_pos_left (by linarith)).1 this
    refine ⟨hneg, hpos, ?_⟩
    rw [← h, mul_div_assoc, div_self hpos.ne', mul_one, Real.log_exp]
    field_simp
  · rintro ⟨hneg, hpos, h⟩
    have hlog : 2 * (q * t) = Real.log ((f - e) * (f - s) / ((f + e) * (f + s))) := by
      rw [h]
      field_simp
    rw [hlog, Real.exp_log (div_pos (mul_pos_of_neg_of_neg (by linarith) (by linarith)) hpos)]
    exact div_mul_cancel₀ _ hpos.ne'

/-! ## Examples -/

example := C116_thin 1 (⟨-2, 1⟩) 3 none (by simp [Complex.ext_iff]) (by norm_num) (by norm_num) 5

example (d : Defaults) := C116_average ⟨d, Laguerre.rule⟩ 1 2 3 none (by norm_num) (by norm_num) (by norm_num) 4 (by norm_num)
  (some 3) ⟨by simp, Laguerre.gaussLaguerre_rule (by simp)⟩ (by simp)

example (d : Defaults) := C116_one_node ⟨d, Laguerre.rule⟩ 1 2 3 none (by norm_num) (by norm_num) (by norm_num) 4 (by norm_num)
  ⟨by simp, Laguerre.gaussLaguerre_rule (by simp)⟩

example (d : Defaults) := C116_signal ⟨d, Laguerre.rule⟩ 1 2 1 none (by norm_num) (by norm_num) (by norm_num) 0 1 300 Complex.I 1
  (1 / 2) 1.4 example_geomOk.1 example_geomOk.2 (by norm_num) (by simp) (some 3)
  ⟨by simp, Laguerre.gaussLaguerre_rule (by simp)⟩ (by simp)

/-- A film of permittivity `-2` in air guides a wave with `q t = log 3`. -/
example : ¬ ∃ v, (layered 1 [((-2 : ℝ), 1)] 1).reflCoefQs (FP.num (Real.log 3)) = .ok (FP.num v) := by
  have h := C116_dispersion 1 (-2) 1 1 (Real.log 3) none one_pos one_pos (by norm_num) one_pos (Real.log_pos (by norm_num))
    (by
      have : Real.log 3 ≤ 3 - 1 := Real.log_le_sub_one_of_pos (by norm_num)
      linarith [maxExpArg_gt])
  have e : Real.log ((-2 - 1) * (-2 - 1) / ((-2 + 1) * (-2 + 1))) = 2 * Real.log 3 := by
    rw [show ((-2 - 1) * (-2 - 1) / ((-2 + 1) * (-2 + 1)) : ℝ) = 3 ^ 2 by norm_num, Real.log_pow]
    norm_num
  have := h.2 ⟨by norm_num, by norm_num, by rw [e]; ring⟩
  simpa using this

example := C116_symmetric 1 (-2) 1 1 none (by norm_num) one_ne_zero (by simp; linarith [maxExpArg_gt])
example := C116_polariton 1 (-2) 3 1 1 none (by norm_num) (by norm_num) (by simp; linarith [maxExpArg_gt])

end Snompy.Props
