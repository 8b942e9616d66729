import Verif.Props.Spectra
import Verif.Props.Pdm
import Verif.Props.Fdm
import Mathlib.Analysis.Calculus.Deriv.ZPow
import Mathlib.Analysis.Real.Pi.Bounds
import Mathlib.Analysis.Calculus.LocalExtr.Rolle
import Mathlib.LinearAlgebra.Lagrange

/-!
# C128: how many measurements determine the parameters of a model

Three heights determine the radius and the polarisability of the tip and the reflection coefficient of the sample in the point
dipole model; two do not.  Five frequencies determine a Lorentz oscillator.
-/

namespace Snompy.Props

open Snompy

/-! ## Approach curves of the point dipole model -/

/-- `1`, `(r₁ + z)⁻³` and `(r₂ + z)⁻³` are independent at any three heights. -/
theorem cubes_independent_real {r₁ r₂ z₁ z₂ z₃ a b c : ℝ} (hr : r₁ ≠ r₂) (h12 : z₁ < z₂) (h23 : z₂ < z₃) (p₁ : 0 < r₁ + z₁)
    (p₂ : 0 < r₂ + z₁) (h : ∀ z ∈ ({z₁, z₂, z₃} : Set ℝ), a + b * (r₁ + z) ^ (-3 : ℤ) + c * (r₂ + z) ^ (-3 : ℤ) = 0) :
    a = 0 ∧ b = 0 ∧ c = 0 := by
  have der : ∀ z, z₁ ≤ z → HasDerivAt (fun z => a + b * (r₁ + z) ^ (-3 : ℤ) + c * (r₂ + z) ^ (-3 : ℤ))
      (b * (-3 * (r₁ + z) ^ (-4 : ℤ)) + c * (-3 * (r₂ + z) ^ (-4 : ℤ))) z := fun z hz => by
    have d : ∀ r : ℝ, 0 < r + z₁ → HasDerivAt (fun z => (r + z) ^ (-3 : ℤ)) (-3 * (r + z) ^ (-4 : ℤ)) z := fun r hp => by
      have h1 := (hasDerivAt_zpow (-3) (r + z) (.inl (by linarith : (0 : ℝ) < r + z).ne')).comp z ((hasDerivAt_id z).const_add r)
      refine HasDerivAt.congr_deriv (f := fun z => (r + z) ^ (-3 : ℤ)) h1 ?_
      norm_num
    have h2 := ((d r₁ p₁).const_mul b).const_add a |>.add ((d r₂ p₂).const_mul c)
    exact h2
  have rolle : ∀ x y, z₁ ≤ x → x < y → x ∈ ({z₁, z₂, z₃} : Set ℝ) → y ∈ ({z₁, z₂, z₃} : Set ℝ) →
      ∃ w ∈ Set.Ioo x y, b * (r₂ + w) ^ 4 + c * (r₁ + w) ^ 4 = 0 := fun x y hx hxy mx my => by
    obtain ⟨w, hw, h0⟩ := exists_hasDerivAt_eq_zero hxy (f := fun z => a + b * (r₁ + z) ^ (-3 : ℤ) + c * (r₂ + z) ^ (-3 : ℤ))
      (fun z hz => (der z (hx.trans hz.1)).continuousAt.continuousWithinAt) ((h x mx).trans (h y my).symm)
      fun z hz => der z (hx.trans hz.1.le)
    refine ⟨w, hw, ?_⟩
    have q₁ : (r₁ + w) ^ 4 ≠ 0 := (pow_pos (by linarith [hw.1] : 0 < r₁ + w) 4).ne'
    have q₂ : (r₂ + w) ^ 4 ≠ 0 := (pow_pos (by linarith [hw.1] : 0 < r₂ + w) 4).ne'
    have e : ∀ x : ℝ, x ^ (-4 : ℤ) = (x ^ 4)⁻¹ := fun x => by rw [zpow_neg]; norm_cast
    rw [e, e] at h0
    linear_combination (-1 / 3) * (r₁ + w) ^ 4 * (r₂ + w) ^ 4 * h0 - b * (r₂ + w) ^ 4 * inv_mul_cancel₀ q₁ -
      c * (r₁ + w) ^ 4 * inv_mul_cancel₀ q₂
  obtain ⟨w₁, m₁, e₁⟩ := rolle z₁ z₂ le_rfl h12 (by simp) (by simp)
  obtain ⟨w₂, m₂, e₂⟩ := rolle z₂ z₃ h12.le h23 (by simp) (by simp)
  have hw : w₁ < w₂ := m₁.2.trans m₂.1
  have a1 : 0 < r₁ + w₁ := by linarith [m₁.1]
  have a2 : 0 < r₂ + w₁ := by linarith [m₁.1]
  have b1 : 0 < r₁ + w₂ := by linarith
  have b2 : 0 < r₂ + w₂ := by linarith
  have hb : b = 0 := by
    by_contra hb
    have e3 : b * ((r₂ + w₁) * (r₁ + w₂)) ^ 4 = b * ((r₂ + w₂) * (r₁ + w₁)) ^ 4 := by
      linear_combination (r₁ + w₂) ^ 4 * e₁ - (r₁ + w₁) ^ 4 * e₂
    have e4 := (pow_left_inj₀ (by positivity) (by positivity) (by norm_num)).1 (mul_left_cancel₀ hb e3)
    have : (r₁ - r₂) * (w₂ - w₁) = 0 := by linear_combination -e4
    rcases mul_eq_zero.1 this with h | h
    · exact hr (sub_eq_zero.1 h)
    · linarith
  have hc : c = 0 := by
    rw [hb, zero_mul, zero_add] at e₁
    exact (mul_eq_zero.1 e₁).resolve_right (pow_pos a1 4).ne'
  have := h z₁ (by simp)
  rw [hb, hc] at this
  exact ⟨by linarith, hb, hc⟩

theorem cubes_independent {r₁ r₂ z₁ z₂ z₃ : ℝ} {a b c : ℂ} (hr : r₁ ≠ r₂) (h12 : z₁ < z₂) (h23 : z₂ < z₃) (p₁ : 0 < r₁ + z₁)
    (p₂ : 0 < r₂ + z₁)
    (h : ∀ z ∈ ({z₁, z₂, z₃} : Set ℝ), a + b * ((r₁ + z) ^ (-3 : ℤ) : ℝ) + c * ((r₂ + z) ^ (-3 : ℤ) : ℝ) = 0) :
    a = 0 ∧ b = 0 ∧ c = 0 := by
  have re := cubes_independent_real (a := a.re) (b := b.re) (c := c.re) hr h12 h23 p₁ p₂ fun z hz => by
    have := congrArg Complex.re (h z hz)
    rwa [Complex.add_re, Complex.add_re, Complex.re_mul_ofReal, Complex.re_mul_ofReal, Complex.zero_re] at this
  have im := cubes_independent_real (a := a.im) (b := b.im) (c := c.im) hr h12 h23 p₁ p₂ fun z hz => by
    have := congrArg Complex.im (h z hz)
    rwa [Complex.add_im, Complex.add_im, Complex.im_mul_ofReal, Complex.im_mul_ofReal, Complex.zero_im] at this
  exact ⟨Complex.ext re.1 im.1, Complex.ext re.2.1 im.2.1, Complex.ext re.2.2 im.2.2⟩

/-- The inverse of a signal of the point dipole model. -/
theorem pdm_reciprocal {env : Env} {s : Stack (FP ℝ) (FP ℂ)} {z r : ℝ} {α β v : ℂ} (hβ : s.reflCoefQs = .ok (FP.num β))
    (hz : 0 < r + z) (hα : α ≠ 0) (h : Pdm.effPol env s (some (FP.num z)) (tip r α) = .ok (FP.num v)) :
    v⁻¹ = α⁻¹ - β / (16 * Real.pi) * ((r + z) ^ (-3 : ℤ) : ℝ) := by
  rw [Pdm.effPol_num env s _ z r α β (pdm_tip env r α) hβ hz.ne'] at h
  by_cases h0 : 1 - Pdm.geom z r α * β = 0
  · rw [h0, num_div_zero] at h
    simp at h
  · rw [FP.num_div _ h0] at h
    simp only [Except.ok.injEq, FP.num.injEq] at h
    have hpi : (Real.pi : ℂ) ≠ 0 := Complex.ofReal_ne_zero.2 Real.pi_ne_zero
    have e : (((r + z) ^ (-3 : ℤ) : ℝ) : ℂ) = ((r + z : ℂ) ^ 3)⁻¹ := by
      rw [zpow_neg]
      norm_cast
    have hrz : (r + z : ℂ) ^ 3 ≠ 0 := pow_ne_zero 3 (by exact_mod_cast hz.ne')
    rw [← h, e, inv_div, sub_div, Pdm.geom, one_div]
    field_simp

/-- Three heights determine the tip and the sample. -/
theorem C128_pdm (env : Env) (s₁ s₂ : Stack (FP ℝ) (FP ℂ)) (β₁ β₂ : ℂ) (h₁ : s₁.reflCoefQs = .ok (FP.num β₁))
    (h₂ : s₂.reflCoefQs = .ok (FP.num β₂)) (hβ : β₁ ≠ 0) (r₁ r₂ : ℝ) (α₁ α₂ : ℂ) (hα₁ : α₁ ≠ 0) (hα₂ : α₂ ≠ 0) (z₁ z₂ z₃ : ℝ)
    (h12 : z₁ < z₂) (h23 : z₂ < z₃) (p₁ : 0 < r₁ + z₁) (p₂ : 0 < r₂ + z₁)
    (h : ∀ z ∈ ({z₁, z₂, z₃} : Set ℝ), ∃ v : ℂ, Pdm.effPol env s₁ (some (FP.num z)) (tip r₁ α₁) = .ok (FP.num v) ∧
      Pdm.effPol env s₂ (some (FP.num z)) (tip r₂ α₂) = .ok (FP.num v)) : r₁ = r₂ ∧ α₁ = α₂ ∧ β₁ = β₂ := by
  have hpi : (16 * Real.pi : ℂ) ≠ 0 := mul_ne_zero (by norm_num) (Complex.ofReal_ne_zero.2 Real.pi_ne_zero)
  have key : ∀ z ∈ ({z₁, z₂, z₃} : Set ℝ), (α₂⁻¹ - α₁⁻¹) + β₁ / (16 * Real.pi) * ((r₁ + z) ^ (-3 : ℤ) : ℝ) +
      -(β₂ / (16 * Real.pi)) * ((r₂ + z) ^ (-3 : ℤ) : ℝ) = 0 := fun z hz => by
    obtain ⟨v, e1, e2⟩ := h z hz
    have hzz : z₁ ≤ z := by
      rcases hz with rfl | rfl | rfl
      · exact le_rfl
      · exact h12.le
      · exact (h12.trans h23).le
    have k1 := pdm_reciprocal h₁ (by linarith) hα₁ e1
    have k2 := pdm_reciprocal h₂ (by linarith) hα₂ e2
    linear_combination k1 - k2
  have hr : r₁ = r₂ := by
    by_contra hr
    exact div_ne_zero hβ hpi (cubes_independent hr h12 h23 p₁ p₂ key).2.1
  subst hr
  have hβ' : β₁ / (16 * Real.pi) = β₂ / (16 * Real.pi) := by
    have e : (β₁ / (16 * Real.pi) - β₂ / (16 * Real.pi)) * (((r₁ + z₁) ^ (-3 : ℤ) - (r₁ + z₂) ^ (-3 : ℤ) : ℝ) : ℂ) = 0 := by
      push_cast
      have k1 := key z₁ (by simp)
      have k2 := key z₂ (by simp)
      push_cast at k1 k2
      linear_combination k1 - k2
    refine sub_eq_zero.1 ((mul_eq_zero.1 e).resolve_right (Complex.ofReal_ne_zero.2 (sub_ne_zero.2 fun e => ?_)))
    have e' : ∀ x : ℝ, x ^ (-3 : ℤ) = (x ^ 3)⁻¹ := fun x => by rw [zpow_neg]; norm_cast
    rw [e', e', inv_inj] at e
    have := (pow_left_inj₀ p₁.le (by linarith) (by norm_num)).1 e
    linarith
  refine ⟨rfl, ?_, (div_left_inj' hpi).1 hβ'⟩
  have := key z₁ (by simp)
  rw [hβ'] at this
  exact inv_injective (by linear_combination -this)

/-- The conclusion separates tips: no second radius gives the same signals. -/
example (env : Env) (r : ℝ) (hr : 0 < r) (hne : r ≠ 1) (α : ℂ) (hα : α ≠ 0) : ¬ ∀ z ∈ ({1, 2, 3} : Set ℝ), ∃ v : ℂ,
    Pdm.effPol env (bulk 1 2) (some (FP.num z)) (tip 1 1) = .ok (FP.num v) ∧
      Pdm.effPol env (bulk 1 2) (some (FP.num z)) (tip r α) = .ok (FP.num v) := fun h =>
  hne (C128_pdm env (bulk 1 2) (bulk 1 2) _ _ (C09_refl 1 2 none _ two_ne_zero (by norm_num)) (C09_refl 1 2 none _ two_ne_zero (by norm_num))
    (by norm_num) 1 r 1 α one_ne_zero hα 1 2 3 (by norm_num) (by norm_num) (by norm_num) (by linarith) h).1.symm

/-- All other hypotheses hold at once. -/
example (env : Env) : ∀ z ∈ ({1, 2, 3} : Set ℝ), ∃ v : ℂ, Pdm.effPol env (bulk 1 2) (some (FP.num z)) (tip 1 1) = .ok (FP.num v) := by
  intro z hz
  have hz1 : 1 ≤ z := by rcases hz with rfl | rfl | rfl <;> norm_num
  have hβ : (bulk 1 2).reflCoefQs = .ok (FP.num ((2 - 1) / (2 + 1))) := C09_refl 1 2 none _ two_ne_zero (by norm_num)
  rw [Pdm.effPol_num env _ _ z 1 1 _ (pdm_tip env 1 1) hβ (by linarith), FP.num_div]
  · exact ⟨_, rfl⟩
  · rw [Pdm.geom]
    intro h
    have hp := Real.pi_gt_three
    have h1 : (16 * Real.pi * (1 + z) ^ 3 : ℝ) ≠ 0 := by positivity
    have h2 : ((16 * Real.pi * (1 + z) ^ 3 : ℝ) : ℂ) * 3 = 1 := by
      have h1' : ((16 * Real.pi * (1 + z) ^ 3 : ℝ) : ℂ) ≠ 0 := Complex.ofReal_ne_zero.2 h1
      push_cast at h1' h ⊢
      have m := one_div_mul_cancel h1'
      generalize (16 * Real.pi * (1 + z) ^ 3 : ℂ) = X at h h1' m ⊢
      linear_combination 3 * X * h + m
    have h3 : 16 * Real.pi * (1 + z) ^ 3 * 3 = 1 := by exact_mod_cast h2
    have h4 : (1 : ℝ) ≤ (1 + z) ^ 3 := one_le_pow₀ (by linarith)
    nlinarith

/-- Two heights are not enough, even for lossless tips and samples. -/
theorem C128_two_heights (env : Env) : ∃ β₁ β₂ α₁ α₂ : ℝ, 0 < β₁ ∧ β₁ < β₂ ∧ β₂ < 1 ∧ 0 < α₁ ∧ 0 < α₂ ∧
    ∀ s₁ s₂ : Stack (FP ℝ) (FP ℂ), s₁.reflCoefQs = .ok (FP.num (β₁ : ℂ)) → s₂.reflCoefQs = .ok (FP.num (β₂ : ℂ)) →
      ∀ z ∈ ({0, 1} : Set ℝ), ∃ v : ℂ, Pdm.effPol env s₁ (some (FP.num z)) (tip 1 α₁) = .ok (FP.num v) ∧
        Pdm.effPol env s₂ (some (FP.num z)) (tip 2 α₂) = .ok (FP.num v) := by
  have hp := Real.pi_gt_three
  set K : ℝ := 1600 * (16 * Real.pi) with hK
  have hK0 : 76800 < K := by rw [hK]; linarith
  have c0 : (K : ℂ) ≠ 0 := Complex.ofReal_ne_zero.2 (by linarith)
  have c1 : (K : ℂ) - 37 ≠ 0 := by exact_mod_cast (by linarith : K - 37 ≠ 0)
  have c2 : (K : ℂ) - 189 ≠ 0 := by exact_mod_cast (by linarith : K - 189 ≠ 0)
  have c3 : (K : ℂ) - 56 ≠ 0 := by exact_mod_cast (by linarith : K - 56 ≠ 0)
  have hKc : (16 * Real.pi : ℂ) = K / 1600 := by
    rw [hK]
    push_cast
    ring
  refine ⟨19 / 200, 189 / 200, K / (K - 37), 1, by norm_num, by norm_num, by norm_num, div_pos (by linarith) (by linarith), one_pos,
    fun s₁ s₂ h₁ h₂ z hz => ?_⟩
  have num : ∀ {α d v : ℂ}, d ≠ 0 → α / d = v → (.ok (FP.num α / FP.num d) : PyM (FP ℂ)) = .ok (FP.num v) := fun h e => by
    rw [FP.num_div _ h, e]
  rcases hz with rfl | rfl
  · refine ⟨K / (K - 189), ?_, ?_⟩
    · have e : 1 - Pdm.geom 0 1 ((K / (K - 37) : ℝ) : ℂ) * ((19 / 200 : ℝ) : ℂ) = (K - 189) / (K - 37) := by
        rw [Pdm.geom, hKc]
        push_cast
        field_simp
        ring
      rw [Pdm.effPol_num env s₁ _ 0 1 _ _ (pdm_tip env 1 _) h₁ (by norm_num), e]
      refine num (div_ne_zero c2 c1) ?_
      push_cast
      field_simp
    · have e : 1 - Pdm.geom 0 2 ((1 : ℝ) : ℂ) * ((189 / 200 : ℝ) : ℂ) = (K - 189) / K := by
        rw [Pdm.geom, hKc]
        push_cast
        field_simp
        ring
      rw [Pdm.effPol_num env s₂ _ 0 2 _ _ (pdm_tip env 2 _) h₂ (by norm_num), e]
      refine num (div_ne_zero c2 c0) ?_
      push_cast
      field_simp
  · refine ⟨K / (K - 56), ?_, ?_⟩
    · have e : 1 - Pdm.geom 1 1 ((K / (K - 37) : ℝ) : ℂ) * ((19 / 200 : ℝ) : ℂ) = (K - 56) / (K - 37) := by
        rw [Pdm.geom, hKc]
        push_cast
        field_simp
        ring
      rw [Pdm.effPol_num env s₁ _ 1 1 _ _ (pdm_tip env 1 _) h₁ (by norm_num), e]
      refine num (div_ne_zero c3 c1) ?_
      push_cast
      field_simp
    · have e : 1 - Pdm.geom 1 2 ((1 : ℝ) : ℂ) * ((189 / 200 : ℝ) : ℂ) = (K - 56) / K := by
        rw [Pdm.geom, hKc]
        push_cast
        field_simp
        ring
      rw [Pdm.effPol_num env s₂ _ 1 2 _ _ (pdm_tip env 2 _) h₂ (by norm_num), e]
      refine num (div_ne_zero c3 c0) ?_
      push_cast
      field_simp

/-- Over a sample without contrast the radius of the tip has no effect. -/
theorem C128_blind (env : Env) (s : Stack (FP ℝ) (FP ℂ)) (h : s.reflCoefQs = .ok (FP.num 0)) (r₁ r₂ z : ℝ) (α : ℂ) (h₁ : r₁ + z ≠ 0)
    (h₂ : r₂ + z ≠ 0) :
    Pdm.effPol env s (some (FP.num z)) (tip r₁ α) = .ok (FP.num α) ∧ Pdm.effPol env s (some (FP.num z)) (tip r₂ α) = .ok (FP.num α) := by
  constructor
  · rw [Pdm.effPol_num env s _ z r₁ α 0 (pdm_tip env r₁ α) h h₁, mul_zero, sub_zero, FP.num_div _ one_ne_zero, div_one]
  · rw [Pdm.effPol_num env s _ z r₂ α 0 (pdm_tip env r₂ α) h h₂, mul_zero, sub_zero, FP.num_div _ one_ne_zero, div_one]

/-! ## Lorentz oscillators -/

/-- A quartic with five zeros. -/
theorem quartic_zero {c₀ c₁ c₂ c₃ c₄ : ℂ} (S : Finset ℝ) (hS : 5 ≤ S.card)
    (h : ∀ x ∈ S, c₀ + c₁ * x + c₂ * x ^ 2 + c₃ * x ^ 3 + c₄ * x ^ 4 = 0) : c₀ = 0 ∧ c₁ = 0 ∧ c₂ = 0 ∧ c₃ = 0 ∧ c₄ = 0 := by
  open Polynomial in
  set P : ℂ[X] := C c₄ * X ^ 4 + C c₃ * X ^ 3 + C c₂ * X ^ 2 + C c₁ * X + C c₀ with hP
  have hdeg : P.degree < 5 := by
    refine lt_of_le_of_lt (b := (4 : WithBot ℕ)) ?_ (by norm_num)
    rw [hP]
    compute_degree
  have h0 : P = 0 := by
    refine Polynomial.eq_zero_of_degree_lt_of_eval_finset_eq_zero (s := S.map ⟨fun x : ℝ => (x : ℂ), Complex.ofReal_injective⟩) ?_ ?_
    · rw [Finset.card_map]
      exact lt_of_lt_of_le hdeg (by exact_mod_cast hS)
    · intro y hy
      obtain ⟨x, hx, rfl⟩ := Finset.mem_map.1 hy
      rw [← h x hx, hP]
      simp only [Function.Embedding.coeFn_mk, Polynomial.eval_add, Polynomial.eval_mul, Polynomial.eval_C, Polynomial.eval_pow,
        Polynomial.eval_X]
      ring
  have co : ∀ n, P.coeff n = 0 := fun n => by rw [h0, Polynomial.coeff_zero]
  have k0 := co 0
  have k1 := co 1
  have k2 := co 2
  have k3 := co 3
  have k4 := co 4
  simp [hP, Polynomial.coeff_X, Polynomial.coeff_C, Polynomial.coeff_X_pow] at k0 k1 k2 k3 k4
  exact ⟨k0, k1, k2, k3, k4⟩

/-- Five frequencies determine the oscillator. -/
theorem C128_lorentz (J₁ J₂ g₁ g₂ A₁ A₂ : ℝ) (e₁ e₂ : ℂ) (hA : A₁ ≠ 0) (S : Finset ℝ) (hS : 5 ≤ S.card)
    (h : ∀ nu ∈ S, ∃ x : ℂ, lorentz nu J₁ g₁ A₁ (FP.num e₁) = .ok (FP.num x) ∧ lorentz nu J₂ g₂ A₂ (FP.num e₂) = .ok (FP.num x)) :
    J₁ ^ 2 = J₂ ^ 2 ∧ g₁ = g₂ ∧ A₁ = A₂ ∧ e₁ = e₂ := by
  have val : ∀ {nu J g A : ℝ} {e x : ℂ}, lorentz nu J g A (FP.num e) = .ok (FP.num x) →
      (J : ℂ) ^ 2 - nu ^ 2 - Complex.I * g * nu ≠ 0 ∧ x = e + A / ((J : ℂ) ^ 2 - nu ^ 2 - Complex.I * g * nu) := by
    intro nu J g A e x hx
    by_cases h0 : (J : ℂ) ^ 2 - nu ^ 2 - Complex.I * g * nu = 0
    · rw [lorentz] at hx
      have := (C55_pole nu J g 1 A e h0).symm.trans hx
      simp at this
    · refine ⟨h0, ?_⟩
      have := (C55_lorentz nu J g 1 A e h0).symm.trans hx
      simpa using this.symm
  have key := quartic_zero (c₀ := (e₁ - e₂) * J₁ ^ 2 * J₂ ^ 2 + A₁ * J₂ ^ 2 - A₂ * J₁ ^ 2)
    (c₁ := -Complex.I * ((e₁ - e₂) * (J₁ ^ 2 * g₂ + J₂ ^ 2 * g₁) + A₁ * g₂ - A₂ * g₁))
    (c₂ := -(e₁ - e₂) * (J₁ ^ 2 + J₂ ^ 2 + g₁ * g₂) - A₁ + A₂) (c₃ := Complex.I * (e₁ - e₂) * (g₁ + g₂)) (c₄ := e₁ - e₂) S hS
    fun nu hnu => by
      obtain ⟨x, x1, x2⟩ := h nu hnu
      obtain ⟨d1, k1⟩ := val x1
      obtain ⟨d2, k2⟩ := val x2
      rw [k1] at k2
      have m1 := div_mul_cancel₀ (A₁ : ℂ) d1
      have m2 := div_mul_cancel₀ (A₂ : ℂ) d2
      generalize (A₁ : ℂ) / ((J₁ : ℂ) ^ 2 - nu ^ 2 - Complex.I * g₁ * nu) = y₁ at k2 m1
      generalize (A₂ : ℂ) / ((J₂ : ℂ) ^ 2 - nu ^ 2 - Complex.I * g₂ * nu) = y₂ at k2 m2
      linear_combination ((J₁ : ℂ) ^ 2 - nu ^ 2 - Complex.I * g₁ * nu) * ((J₂ : ℂ) ^ 2 - nu ^ 2 - Complex.I * g₂ * nu) * k2 -
        ((J₂ : ℂ) ^ 2 - nu ^ 2 - Complex.I * g₂ * nu) * m1 + ((J₁ : ℂ) ^ 2 - nu ^ 2 - Complex.I * g₁ * nu) * m2 -
        ((e₁ - e₂) * g₁ * g₂ * nu ^ 2) * Complex.I_sq
  obtain ⟨k0, k1, k2, -, k4⟩ := key
  rw [k4] at k0 k1 k2
  have a : A₁ = A₂ := by
    have : (A₁ : ℂ) = A₂ := by linear_combination -k2
    exact_mod_cast this
  subst a
  have hA' : (A₁ : ℂ) ≠ 0 := Complex.ofReal_ne_zero.2 hA
  refine ⟨?_, ?_, rfl, sub_eq_zero.1 k4⟩
  · have : (J₁ : ℂ) ^ 2 = J₂ ^ 2 := mul_left_cancel₀ hA' (by linear_combination -k0)
    exact_mod_cast this
  · have : (g₁ : ℂ) = g₂ := mul_left_cancel₀ (mul_ne_zero Complex.I_ne_zero hA') (by linear_combination k1)
    exact_mod_cast this

/-- The conclusion separates oscillators: no second damping gives the same permittivities. -/
example (J g A : ℝ) (e : ℂ) (hg : g ≠ 1) : ¬ ∀ nu ∈ ({1, 2, 3, 4, 5} : Finset ℝ), ∃ x : ℂ,
    lorentz nu 1 1 1 (FP.num 2) = .ok (FP.num x) ∧ lorentz nu J g A (FP.num e) = .ok (FP.num x) := fun h =>
  hg (C128_lorentz 1 J 1 g 1 A 2 e one_ne_zero _ (by norm_num) h).2.1.symm

/-- The other hypotheses hold at once. -/
example : ∀ nu ∈ ({1, 2, 3, 4, 5} : Finset ℝ), ∃ x : ℂ, lorentz nu 1 1 1 (FP.num 2) = .ok (FP.num x) := by
  intro nu hnu
  have h0 : 0 < nu := by
    simp only [Finset.mem_insert, Finset.mem_singleton] at hnu
    rcases hnu with rfl | rfl | rfl | rfl | rfl <;> norm_num
  refine ⟨_, (C55_lorentz nu 1 1 1 1 2 fun h => ?_)⟩
  have := congrArg Complex.im h
  simp [pow_two] at this
  exact h0.ne' this

/-- The sign of the resonance frequency has no effect. -/
theorem C128_sign (nu J g A : ℝ) (e : ℂ) : lorentz nu (-J) g A (FP.num e) = lorentz nu J g A (FP.num e) := by
  have hJ : (((-J : ℝ) : ℂ)) ^ 2 = (J : ℂ) ^ 2 := by
    push_cast
    ring
  rw [lorentz, lorentz]
  by_cases h : (J : ℂ) ^ 2 - nu ^ 2 - Complex.I * g * nu = 0
  · exact (C55_pole nu (-J) g 1 A e (by rwa [hJ])).trans (C55_pole nu J g 1 A e h).symm
  · have k1 := C55_lorentz nu J g 1 A e h
    have k2 := C55_lorentz nu (-J) g 1 A e (by rwa [hJ])
    rw [hJ] at k2
    exact k2.trans k1.symm

/-- Five signals of the point dipole model over an unknown material determine its oscillator, if the tip is known. -/
theorem C128_spectrum (env : Env) (r z : ℝ) (α e : ℂ) (hz : 0 < r + z) (hα : α ≠ 0) (he : e ≠ 0) (J₁ J₂ g₁ g₂ A₁ A₂ : ℝ) (e₁ e₂ : ℂ)
    (hA : A₁ ≠ 0) (S : Finset ℝ) (hS : 5 ≤ S.card)
    (h : ∀ nu ∈ S, ∃ x₁ x₂ v : ℂ, lorentz nu J₁ g₁ A₁ (FP.num e₁) = .ok (FP.num x₁) ∧ lorentz nu J₂ g₂ A₂ (FP.num e₂) = .ok (FP.num x₂) ∧
      (x₁ ≠ 0 ∧ x₁ + e ≠ 0) ∧ (x₂ ≠ 0 ∧ x₂ + e ≠ 0) ∧
      Pdm.effPol env (bulk e x₁ (some nu)) (some (FP.num z)) (tip r α) = .ok (FP.num v) ∧
      Pdm.effPol env (bulk e x₂ (some nu)) (some (FP.num z)) (tip r α) = .ok (FP.num v)) :
    J₁ ^ 2 = J₂ ^ 2 ∧ g₁ = g₂ ∧ A₁ = A₂ ∧ e₁ = e₂ := by
  refine C128_lorentz J₁ J₂ g₁ g₂ A₁ A₂ e₁ e₂ hA S hS fun nu hnu => ?_
  obtain ⟨x₁, x₂, v, l1, l2, ⟨n1, d1⟩, ⟨n2, d2⟩, v1, v2⟩ := h nu hnu
  have k1 := pdm_reciprocal (C09_refl e x₁ (some nu) _ n1 d1) hz hα v1
  have k2 := pdm_reciprocal (C09_refl e x₂ (some nu) _ n2 d2) hz hα v2
  have hpi : (16 * Real.pi : ℂ) ≠ 0 := mul_ne_zero (by norm_num) (Complex.ofReal_ne_zero.2 Real.pi_ne_zero)
  have hw : (((r + z) ^ (-3 : ℤ) : ℝ) : ℂ) ≠ 0 := Complex.ofReal_ne_zero.2 (zpow_ne_zero _ hz.ne')
  have k3 : (x₁ - e) / (x₁ + e) = (x₂ - e) / (x₂ + e) :=
    (div_left_inj' hpi).1 (mul_right_cancel₀ hw (by linear_combination k1 - k2))
  rw [div_eq_div_iff d1 d2] at k3
  have : x₁ = x₂ := mul_left_cancel₀ (mul_ne_zero two_ne_zero he) (by linear_combination k3)
  exact ⟨x₁, l1, this ▸ l2⟩

/-- The hypotheses on the first material hold at once. -/
example (env : Env) : ∀ nu ∈ ({1, 2, 3, 4, 5} : Finset ℝ), ∃ x v : ℂ, lorentz nu 1 1 1 (FP.num 2) = .ok (FP.num x) ∧
    (x ≠ 0 ∧ x + 1 ≠ 0) ∧ Pdm.effPol env (bulk 1 x (some nu)) (some (FP.num 1)) (tip 1 1) = .ok (FP.num v) := by
  intro nu hnu
  have h0 : 0 < nu := by
    simp only [Finset.mem_insert, Finset.mem_singleton] at hnu
    rcases hnu with rfl | rfl | rfl | rfl | rfl <;> norm_num
  obtain ⟨x, hx, him⟩ : ∃ x : ℂ, lorentz nu 1 1 1 (FP.num 2) = .ok (FP.num x) ∧ 0 < x.im := by
    have h1 := lorentz_eq nu 1 1 1 (2 : ℝ) (Or.inr (by simpa using h0.ne'))
    have h2 := (lorentz_parts nu 1 1 1 2).2
    refine ⟨_, by simpa using h1, ?_⟩
    have h3 : 0 < 1 * (1 * nu) / ((1 ^ 2 - nu ^ 2) ^ 2 + (1 * nu) ^ 2) := by positivity
    rw [← h2] at h3
    simpa using h3
  have n1 : x ≠ 0 := fun h => by simp [h] at him
  have n2 : x + 1 ≠ 0 := fun h => by
    have := congrArg Complex.im h
    simp at this
    exact him.ne' this
  have hβ := C09_refl 1 x (some nu) (FP.num 0) n1 n2
  refine ⟨x, ?_, hx, ⟨n1, n2⟩, ?_⟩
  rotate_left
  · rw [Pdm.effPol_num env _ _ 1 1 1 _ (pdm_tip env 1 1) hβ (by norm_num), FP.num_div]
    intro h
    have hg : Pdm.geom 1 1 1 = ((1 / (16 * Real.pi * 8) : ℝ) : ℂ) := by
      rw [Pdm.geom]
      push_cast
      norm_num
    have hp := Real.pi_gt_three
    have hlt : 1 / (16 * Real.pi * 8) < 1 := by
      rw [div_lt_one (by positivity)]
      linarith
    rw [hg] at h
    generalize 1 / (16 * Real.pi * 8) = g at h hlt
    have h1 := div_mul_cancel₀ (x - 1) n2
    generalize (x - 1) / (x + 1) = β at h h1
    have h2 : x + 1 = (g : ℂ) * (x - 1) := by linear_combination (x + 1) * h + (g : ℂ) * h1
    have h3 := congrArg Complex.im h2
    rw [Complex.im_ofReal_mul] at h3
    simp at h3
    nlinarith

end Snompy.Props
