import Verif.Lemmas.Identify
import Verif.Props.Demod

/-!
# C104: what a signal says about the sample

`docs/examples/scripts/inversion.py` looks for the permittivity that gives a signal.  These theorems say for which samples the
signal of `eff_pol_n` determines the reflection coefficient, how errors of the signal spread, and for which samples it does not.
-/

namespace Snompy.Props

open Snompy Finset

/-! ## Weakly reflecting samples -/

private theorem pos_mean {p : ℝ → ℝ} {x0 A : ℝ} (hA : 0 ≤ A) (hp : ∀ x, x0 - A ≤ x → x ≤ x0 + A → 0 ≤ p x) (N : ℕ) :
    ∃ m : ℝ, 0 ≤ m ∧ demodSum (fun x => (p x : ℂ)) x0 A 0 N = m := by
  refine ⟨(∑ k ∈ range N, (p (x0 + Real.cos (phase N (k + 1)) * A) + p (x0 + Real.cos (phase N k) * A)) / 2) / N, ?_, ?_⟩
  · have h : ∀ θ, 0 ≤ p (x0 + Real.cos θ * A) := fun θ =>
      hp _ (by nlinarith [Real.neg_one_le_cos θ]) (by nlinarith [Real.cos_le_one θ])
    exact div_nonneg (sum_nonneg fun k _ => div_nonneg (add_nonneg (h _) (h _)) (by norm_num)) (Nat.cast_nonneg N)
  · unfold demodSum wave
    push_cast
    simp

/-- From an estimate of a difference to a lower bound. -/
private theorem lower {d c δ : ℂ} {K M : ℝ} (h : ‖d - δ * c‖ ≤ ‖δ‖ * K * M) : (‖c‖ - K * M) * ‖δ‖ ≤ ‖d‖ := by
  have h1 := norm_sub_norm_le (δ * c) d
  rw [norm_sub_rev, norm_mul] at h1
  nlinarith

/-- Point dipole model: the signals of two samples differ in proportion to their reflection coefficients.  `cₙ` and `c₀` are
the coefficients of the linear term at the harmonic and at harmonic 0. -/
theorem C104_pdm (env : Env) (s₁ s₂ : Stack (FP ℝ) (FP ℂ)) (β₁ β₂ : ℂ) (h₁ : s₁.reflCoefQs = .ok (FP.num β₁))
    (h₂ : s₂.reflCoefQs = .ok (FP.num β₂)) (z r A n ρ : ℝ) (α : ℂ) (N : ℕ) (hz : 0 < r + z) (hA : 0 ≤ A) (hN : N ≠ 0)
    (b₁ : ‖β₁‖ ≤ ρ) (b₂ : ‖β₂‖ ≤ ρ) (hρ : ρ * (‖α‖ / (16 * Real.pi * (r + z) ^ 3)) < 1) (cₙ c₀ : ℂ)
    (hn : Pdm.taylorCoef env (FP.num z) 1 (FP.num A) (FP.num n) (FP.num r) (FP.num α) (some N) = .ok (FP.num cₙ))
    (h0 : Pdm.taylorCoef env (FP.num z) 1 (FP.num A) (FP.num 0) (FP.num r) (FP.num α) (some N) = .ok (FP.num c₀)) :
    ∃ v₁ v₂ : ℂ,
      Pdm.effPolN env s₁ (FP.num A) (FP.num n) (some (FP.num z)) (some N) (tip r α) = .ok (FP.num v₁) ∧
      Pdm.effPolN env s₂ (FP.num A) (FP.num n) (some (FP.num z)) (some N) (tip r α) = .ok (FP.num v₂) ∧
      ‖α‖ * ((‖cₙ‖ - (((1 - ρ * (‖α‖ / (16 * Real.pi * (r + z) ^ 3))) ^ 2)⁻¹ - 1) * ‖c₀‖) * ‖β₁ - β₂‖) ≤ ‖v₁ - v₂‖ := by
  have hpi := Real.pi_pos
  have hρ0 : 0 ≤ ρ := (norm_nonneg _).trans b₁
  set w : ℝ → ℝ := fun x => 1 / (16 * Real.pi * (r + x) ^ 3) with hw
  have w0 : ∀ x, z ≤ x → 0 ≤ w x := fun x hx => by
    have : 0 < r + x := by linarith
    positivity
  have hg : ∀ x, Pdm.geom x r α = α * (w x : ℂ) := fun x => by
    simp only [Pdm.geom, hw]
    push_cast
    ring
  have hgn : ∀ x, z ≤ x → ‖Pdm.geom x r α‖ = ‖α‖ * w x := fun x hx => by
    rw [hg, norm_mul, Complex.norm_real, Real.norm_of_nonneg (w0 x hx)]
  have hmax : ∀ x, z ≤ x → ‖Pdm.geom x r α‖ ≤ ‖α‖ / (16 * Real.pi * (r + z) ^ 3) := fun x hx => by
    rw [hgn x hx]
    simp only [hw]
    rw [mul_one_div]
    gcongr
  have ht : ∀ β : ℂ, ‖β‖ ≤ ρ → ∀ x, z ≤ x → ‖β * Pdm.geom x r α‖ ≤ ρ * (‖α‖ / (16 * Real.pi * (r + z) ^ 3)) :=
    fun β hβ x hx => by
      rw [norm_mul]
      exact mul_le_mul hβ (hmax x hx) (norm_nonneg _) hρ0
  have en := Pdm.taylorCoef_num env hz α 1 hA n hN
  have e0 := Pdm.taylorCoef_num env hz α 1 hA 0 hN
  rw [Nat.cast_one, hn] at en
  rw [Nat.cast_one, h0] at e0
  injection en with en
  injection en with en
  injection e0 with e0
  injection e0 with e0
  unfold Pdm.coef at en e0
  simp only [pow_one] at en e0
  refine ⟨_, _, pdm_effPolN_num env s₁ β₁ h₁ z r α hz A hA (fun x hx _ => (ht β₁ b₁ x hx).trans_lt hρ) n N hN,
    pdm_effPolN_num env s₂ β₂ h₂ z r α hz A hA (fun x hx _ => (ht β₂ b₂ x hx).trans_lt hρ) n N hN, ?_⟩
  have key := signal_diff (f0 := fun x => Pdm.geom x r α) (f1 := fun x => Pdm.geom x r α) (p := fun x => ‖α‖ * w x)
    (x0 := z + A) hA hρ (fun x hx _ => ht β₁ b₁ x (by linarith)) (fun x hx _ => ht β₂ b₂ x (by linarith))
    (fun x hx _ => (hgn x (by linarith)).le) n N
  have hc0 : (demodSum (fun x => ((‖α‖ * w x : ℝ) : ℂ)) (z + A) A 0 N).re = ‖c₀‖ := by
    obtain ⟨m, hm, e⟩ := pos_mean (p := w) (x0 := z + A) hA (fun x hx _ => w0 x (by linarith)) N
    have e1 : c₀ = α * m := by
      rw [e0, ← e, ← demodSum_smul]
      exact congrArg (fun f => demodSum f (z + A) A 0 N) (funext hg)
    have e2 : demodSum (fun x => ((‖α‖ * w x : ℝ) : ℂ)) (z + A) A 0 N = ((‖α‖ * m : ℝ) : ℂ) := by
      push_cast
      rw [← e, ← demodSum_smul]
    rw [e2, Complex.ofReal_re, e1, norm_mul, Complex.norm_real, Real.norm_of_nonneg hm]
  rw [hc0, ← en] at key
  have hd : demodSum (fun x => α * (1 - β₁ * Pdm.geom x r α)⁻¹) (z + A) A n N -
      demodSum (fun x => α * (1 - β₂ * Pdm.geom x r α)⁻¹) (z + A) A n N =
      α * (demodSum (fun x => β₁ * Pdm.geom x r α * (1 - β₁ * Pdm.geom x r α)⁻¹) (z + A) A n N -
        demodSum (fun x => β₂ * Pdm.geom x r α * (1 - β₂ * Pdm.geom x r α)⁻¹) (z + A) A n N) := by
    rw [← demodSum_sub, ← demodSum_sub, ← demodSum_smul]
    refine demodSum_congr hA n N fun x hx _ => ?_
    have ne : ∀ β : ℂ, ‖β‖ ≤ ρ → 1 - β * Pdm.geom x r α ≠ 0 := fun β hβ => sub_ne_zero.2 fun e => by
      have := (ht β hβ x (by linarith)).trans_lt hρ
      rw [← e, norm_one] at this
      linarith
    have n1 := ne β₁ b₁
    have n2 := ne β₂ b₂
    generalize Pdm.geom x r α = g at n1 n2
    have e1 : β₁ * g * (1 - β₁ * g)⁻¹ = (1 - β₁ * g)⁻¹ - 1 := by
      field_simp
      ring
    have e2 : β₂ * g * (1 - β₂ * g)⁻¹ = (1 - β₂ * g)⁻¹ - 1 := by
      field_simp
      ring
    rw [e1, e2]
    ring
  rw [hd, norm_mul]
  exact mul_le_mul_of_nonneg_left (lower key) (norm_nonneg _)

/-- Finite dipole model: likewise, if the geometry functions are at most `F₀` and `F₁` during the oscillation. -/
theorem C104_fdm (env : Env) (s₁ s₂ : Stack (FP ℝ) (FP ℂ)) (m₁ : s₁.multilayer = false) (m₂ : s₂.multilayer = false)
    (β₁ β₂ : ℂ) (h₁ : s₁.reflCoefQs = .ok (FP.num β₁)) (h₂ : s₂.reflCoefQs = .ok (FP.num β₂))
    (z r l A n ρ F₀ F₁ : ℝ) (g : ℂ) (d0 d1 dA : ℝ) (nLag : Option ℕ) (N : ℕ) (g0 : Fdm.GeomOk z d0 r l)
    (g1 : Fdm.GeomOk z d1 r l) (hA : 0 ≤ A) (hN : N ≠ 0)
    (f0 : ∀ x, z ≤ x → x ≤ z + 2 * A → ‖Fdm.geom x d0 r l g‖ ≤ F₀)
    (f1 : ∀ x, z ≤ x → x ≤ z + 2 * A → ‖Fdm.geom x d1 r l g‖ ≤ F₁)
    (b₁ : ‖β₁‖ ≤ ρ) (b₂ : ‖β₂‖ ≤ ρ) (hρ : ρ * F₁ < 1) (cₙ : ℂ)
    (hn : Fdm.taylorCoef env (FP.num z) 1 (FP.num A) (FP.num n) (FP.num r) (FP.num l) (FP.num g) (FP.num d0) (FP.num d1)
      (some N) = .ok (FP.num cₙ)) :
    ∃ v₁ v₂ : ℂ,
      Fdm.effPolN env s₁ (FP.num A) (FP.num n) (some (FP.num z)) (some N) (fdmTip r l g d0 d1 dA) nLag (some "bulk") =
        .ok (FP.num v₁) ∧
      Fdm.effPolN env s₂ (FP.num A) (FP.num n) (some (FP.num z)) (some N) (fdmTip r l g d0 d1 dA) nLag (some "bulk") =
        .ok (FP.num v₂) ∧
      (‖cₙ‖ - (((1 - ρ * F₁) ^ 2)⁻¹ - 1) * (F₀ / 2)) * ‖β₁ - β₂‖ ≤ ‖v₁ - v₂‖ := by
  have hρ0 : 0 ≤ ρ := (norm_nonneg _).trans b₁
  have ht : ∀ β : ℂ, ‖β‖ ≤ ρ → ∀ x, z ≤ x → x ≤ z + 2 * A → ‖β * Fdm.geom x d1 r l g‖ ≤ ρ * F₁ := fun β hβ x hx hx' => by
    rw [norm_mul]
    exact mul_le_mul hβ (f1 x hx hx') (norm_nonneg _) hρ0
  have hne : ∀ β : ℂ, ‖β‖ ≤ ρ → ∀ x, z ≤ x → x ≤ z + 2 * A → β * Fdm.geom x d1 r l g ≠ 1 := fun β hβ x hx hx' e => by
    have := (ht β hβ x hx hx').trans_lt hρ
    rw [e, norm_one] at this
    linarith
  have en := Fdm.taylorCoef_num env g0 g1 g 1 hA n hN
  rw [Nat.cast_one, hn] at en
  injection en with en
  injection en with en
  unfold Fdm.coef at en
  rw [if_neg one_ne_zero] at en
  simp only [Nat.sub_self, pow_zero, mul_one] at en
  refine ⟨_, _, effPolN_num env s₁ m₁ β₁ h₁ z r l g d0 d1 dA g0 g1 A hA (hne β₁ b₁) nLag n N hN,
    effPolN_num env s₂ m₂ β₂ h₂ z r l g d0 d1 dA g0 g1 A hA (hne β₂ b₂) nLag n N hN, ?_⟩
  have key := signal_diff (f0 := fun x => Fdm.geom x d0 r l g) (f1 := fun x => Fdm.geom x d1 r l g) (p := fun _ => F₀)
    (x0 := z + A) hA hρ (fun x hx hx' => ht β₁ b₁ x (by linarith) (by linarith))
    (fun x hx hx' => ht β₂ b₂ x (by linarith) (by linarith)) (fun x hx hx' => f0 x (by linarith) (by linarith)) n N
  have hc : (demodSum (fun _ => (F₀ : ℂ)) (z + A) A 0 N).re = F₀ := by
    unfold demodSum wave
    have : (N : ℂ) ≠ 0 := by exact_mod_cast hN
    simp [this]
  rw [hc] at key
  have hd : demodSum (fun x => 1 + β₁ * Fdm.geom x d0 r l g / (2 * (1 - β₁ * Fdm.geom x d1 r l g))) (z + A) A n N -
      demodSum (fun x => 1 + β₂ * Fdm.geom x d0 r l g / (2 * (1 - β₂ * Fdm.geom x d1 r l g))) (z + A) A n N =
      1 / 2 * (demodSum (fun x => β₁ * Fdm.geom x d0 r l g * (1 - β₁ * Fdm.geom x d1 r l g)⁻¹) (z + A) A n N -
        demodSum (fun x => β₂ * Fdm.geom x d0 r l g * (1 - β₂ * Fdm.geom x d1 r l g)⁻¹) (z + A) A n N) := by
    rw [← demodSum_sub, ← demodSum_sub, ← demodSum_smul]
    refine demodSum_congr hA n N fun x hx _ => ?_
    rw [div_eq_mul_inv, div_eq_mul_inv, mul_inv, mul_inv]
    ring
  rw [hd, norm_mul, en, norm_div, Complex.norm_ofNat]
  have := lower key
  have e : ‖(1 / 2 : ℂ)‖ = 1 / 2 := by norm_num
  rw [e]
  nlinarith

/-- If the linear term at the harmonic is large enough, equal signals mean equal reflection coefficients. -/
theorem C104_pdm_unique (env : Env) (s₁ s₂ : Stack (FP ℝ) (FP ℂ)) (β₁ β₂ : ℂ) (h₁ : s₁.reflCoefQs = .ok (FP.num β₁))
    (h₂ : s₂.reflCoefQs = .ok (FP.num β₂)) (z r A n ρ : ℝ) (α : ℂ) (N : ℕ) (hz : 0 < r + z) (hA : 0 ≤ A) (hN : N ≠ 0)
    (hα : α ≠ 0) (b₁ : ‖β₁‖ ≤ ρ) (b₂ : ‖β₂‖ ≤ ρ) (hρ : ρ * (‖α‖ / (16 * Real.pi * (r + z) ^ 3)) < 1) (cₙ c₀ : ℂ)
    (hn : Pdm.taylorCoef env (FP.num z) 1 (FP.num A) (FP.num n) (FP.num r) (FP.num α) (some N) = .ok (FP.num cₙ))
    (h0 : Pdm.taylorCoef env (FP.num z) 1 (FP.num A) (FP.num 0) (FP.num r) (FP.num α) (some N) = .ok (FP.num c₀))
    (hc : (((1 - ρ * (‖α‖ / (16 * Real.pi * (r + z) ^ 3))) ^ 2)⁻¹ - 1) * ‖c₀‖ < ‖cₙ‖)
    (heq : Pdm.effPolN env s₁ (FP.num A) (FP.num n) (some (FP.num z)) (some N) (tip r α) =
      Pdm.effPolN env s₂ (FP.num A) (FP.num n) (some (FP.num z)) (some N) (tip r α)) : β₁ = β₂ := by
  obtain ⟨v₁, v₂, e₁, e₂, h⟩ := C104_pdm env s₁ s₂ β₁ β₂ h₁ h₂ z r A n ρ α N hz hA hN b₁ b₂ hρ cₙ c₀ hn h0
  rw [e₁, e₂] at heq
  injection heq with heq
  injection heq with heq
  rw [heq, sub_self, norm_zero] at h
  by_contra hne
  have := mul_pos (norm_pos_iff.2 hα) (mul_pos (sub_pos.2 hc) (norm_pos_iff.2 (sub_ne_zero.2 hne)))
  linarith

/-- The same for the finite dipole model. -/
theorem C104_fdm_unique (env : Env) (s₁ s₂ : Stack (FP ℝ) (FP ℂ)) (m₁ : s₁.multilayer = false) (m₂ : s₂.multilayer = false)
    (β₁ β₂ : ℂ) (h₁ : s₁.reflCoefQs = .ok (FP.num β₁)) (h₂ : s₂.reflCoefQs = .ok (FP.num β₂))
    (z r l A n ρ F₀ F₁ : ℝ) (g : ℂ) (d0 d1 dA : ℝ) (nLag : Option ℕ) (N : ℕ) (g0 : Fdm.GeomOk z d0 r l)
    (g1 : Fdm.GeomOk z d1 r l) (hA : 0 ≤ A) (hN : N ≠ 0)
    (f0 : ∀ x, z ≤ x → x ≤ z + 2 * A → ‖Fdm.geom x d0 r l g‖ ≤ F₀)
    (f1 : ∀ x, z ≤ x → x ≤ z + 2 * A → ‖Fdm.geom x d1 r l g‖ ≤ F₁)
    (b₁ : ‖β₁‖ ≤ ρ) (b₂ : ‖β₂‖ ≤ ρ) (hρ : ρ * F₁ < 1) (cₙ : ℂ)
    (hn : Fdm.taylorCoef env (FP.num z) 1 (FP.num A) (FP.num n) (FP.num r) (FP.num l) (FP.num g) (FP.num d0) (FP.num d1)
      (some N) = .ok (FP.num cₙ))
    (hc : (((1 - ρ * F₁) ^ 2)⁻¹ - 1) * (F₀ / 2) < ‖cₙ‖)
    (heq : Fdm.effPolN env s₁ (FP.num A) (FP.num n) (some (FP.num z)) (some N) (fdmTip r l g d0 d1 dA) nLag (some "bulk") =
      Fdm.effPolN env s₂ (FP.num A) (FP.num n) (some (FP.num z)) (some N) (fdmTip r l g d0 d1 dA) nLag (some "bulk")) :
    β₁ = β₂ := by
  obtain ⟨v₁, v₂, e₁, e₂, h⟩ := C104_fdm env s₁ s₂ m₁ m₂ β₁ β₂ h₁ h₂ z r l A n ρ F₀ F₁ g d0 d1 dA nLag N g0 g1 hA hN f0 f1 b₁ b₂
    hρ cₙ hn
  rw [e₁, e₂] at heq
  injection heq with heq
  injection heq with heq
  rw [heq, sub_self, norm_zero] at h
  by_contra hne
  have := mul_pos (sub_pos.2 hc) (norm_pos_iff.2 (sub_ne_zero.2 hne))
  linarith

/-! Examples: two samples of the wave, above and below. -/

private theorem two_samples (g : ℝ → ℂ) (x0 A : ℝ) :
    demodSum g x0 A 1 2 = (g (x0 + A) - g (x0 - A)) / 2 ∧ demodSum g x0 A 0 2 = (g (x0 + A) + g (x0 - A)) / 2 := by
  have p0 : phase 2 0 = -Real.pi := by unfold phase; simp
  have p1 : phase 2 1 = 0 := by unfold phase; push_cast; ring
  have p2 : phase 2 2 = Real.pi := by unfold phase; push_cast; ring
  have e1 : Complex.exp (-Complex.I * (1 : ℝ) * (-Real.pi : ℝ)) = -1 := by
    rw [show (-Complex.I * (1 : ℝ) * (-Real.pi : ℝ) : ℂ) = Real.pi * Complex.I by push_cast; ring, Complex.exp_pi_mul_I]
  have e2 : Complex.exp (-Complex.I * (1 : ℝ) * (Real.pi : ℝ)) = -1 := by
    rw [show (-Complex.I * (1 : ℝ) * (Real.pi : ℝ) : ℂ) = -(Real.pi * Complex.I) by push_cast; ring, Complex.exp_neg,
      Complex.exp_pi_mul_I]
    norm_num
  unfold demodSum wave
  simp only [sum_range_succ, sum_range_zero, zero_add, Nat.reduceAdd, p0, p1, p2, e1, e2, Real.cos_neg, Real.cos_pi, Real.cos_zero,
    one_mul, neg_one_mul, ← sub_eq_add_neg]
  constructor <;> simp <;> ring

private theorem example_pdm_coef (env : Env) :
    Pdm.taylorCoef env (FP.num 0) 1 (FP.num 1) (FP.num 1) (FP.num 1) (FP.num ((4 * Real.pi : ℝ) : ℂ)) (some 2) =
      .ok (FP.num ((-13 / 108 : ℝ) : ℂ)) ∧
    Pdm.taylorCoef env (FP.num 0) 1 (FP.num 1) (FP.num 0) (FP.num 1) (FP.num ((4 * Real.pi : ℝ) : ℂ)) (some 2) =
      .ok (FP.num ((14 / 108 : ℝ) : ℂ)) := by
  have h := fun n : ℝ => Pdm.taylorCoef_num env (z := 0) (r := 1) (by norm_num) ((4 * Real.pi : ℝ) : ℂ) 1 zero_le_one n two_ne_zero
  have hpi : (Real.pi : ℂ) ≠ 0 := by exact_mod_cast Real.pi_ne_zero
  have h1 := h 1
  have h0 := h 0
  rw [Nat.cast_one] at h1 h0
  rw [h1, h0]
  unfold Pdm.coef
  rw [(two_samples _ _ _).1, (two_samples _ _ _).2]
  unfold Pdm.geom
  constructor <;> congr 2 <;> push_cast <;> field_simp <;> norm_num

private theorem example_factor : 1 * (‖((4 * Real.pi : ℝ) : ℂ)‖ / (16 * Real.pi * (1 + 0) ^ 3)) = 1 / 4 := by
  rw [Complex.norm_real, Real.norm_eq_abs, abs_of_pos (by positivity)]
  have := Real.pi_ne_zero
  field_simp
  norm_num

example (env : Env) (s₁ s₂ : Stack (FP ℝ) (FP ℂ)) (β₁ β₂ : ℂ) (h₁ : s₁.reflCoefQs = .ok (FP.num β₁))
    (h₂ : s₂.reflCoefQs = .ok (FP.num β₂)) (b₁ : ‖β₁‖ ≤ 1) (b₂ : ‖β₂‖ ≤ 1) :=
  C104_pdm env s₁ s₂ β₁ β₂ h₁ h₂ 0 1 1 1 1 ((4 * Real.pi : ℝ) : ℂ) 2 (by norm_num) zero_le_one two_ne_zero b₁ b₂
    (by rw [example_factor]; norm_num) _ _ (example_pdm_coef env).1 (example_pdm_coef env).2

example (env : Env) (s₁ s₂ : Stack (FP ℝ) (FP ℂ)) (β₁ β₂ : ℂ) (h₁ : s₁.reflCoefQs = .ok (FP.num β₁))
    (h₂ : s₂.reflCoefQs = .ok (FP.num β₂)) (b₁ : ‖β₁‖ ≤ 1) (b₂ : ‖β₂‖ ≤ 1) :=
  C104_pdm_unique env s₁ s₂ β₁ β₂ h₁ h₂ 0 1 1 1 1 ((4 * Real.pi : ℝ) : ℂ) 2 (by norm_num) zero_le_one two_ne_zero
    (by exact_mod_cast (by positivity : (4 * Real.pi : ℝ) ≠ 0)) b₁ b₂
    (by rw [example_factor]; norm_num) _ _ (example_pdm_coef env).1 (example_pdm_coef env).2
    (by rw [example_factor, Complex.norm_real, Complex.norm_real]; norm_num)

example : (bulk 1 2).reflCoefQs = .ok (FP.num ((1 / 3 : ℝ) : ℂ)) ∧ (bulk 1 3).reflCoefQs = .ok (FP.num ((1 / 2 : ℝ) : ℂ)) := by
  constructor <;> rw [C09_refl] <;> norm_num

theorem identify_rgeom : rgeom 0 (1 / 2) 1 4 1 = 39 / 64 ∧ rgeom (1 / 2) (1 / 2) 1 4 1 = 22 / 64 := by
  have l2 : Real.log 2 ≠ 0 := (Real.log_pos one_lt_two).ne'
  have l4 : Real.log 4 = 2 * Real.log 2 := by rw [show (4 : ℝ) = 2 ^ 2 by norm_num, Real.log_pow]; norm_num
  have l8 : Real.log 8 = 3 * Real.log 2 := by rw [show (8 : ℝ) = 2 ^ 3 by norm_num, Real.log_pow]; norm_num
  have l16 : Real.log 16 = 4 * Real.log 2 := by rw [show (16 : ℝ) = 2 ^ 4 by norm_num, Real.log_pow]; norm_num
  unfold rgeom
  norm_num [l4, l8, l16]
  constructor <;> field_simp <;> norm_num

theorem identify_reach (z : ℝ) (h : 0 ≤ z) (h' : z ≤ 1 / 2) : InReach z (1 / 2) 1 4 1 := by
  constructor <;> linarith

theorem identify_sup (z : ℝ) (h : 0 ≤ z) (h' : z ≤ 0 + 2 * (1 / 4)) :
    ‖Fdm.geom z (1 / 2) 1 4 ((1 : ℝ) : ℂ)‖ ≤ 39 / 64 := by
  have hr := identify_reach z h (by linarith)
  rw [geom_rgeom, Complex.norm_real, Real.norm_eq_abs, abs_of_pos (rgeom_pos hr), ← identify_rgeom.1]
  rcases h.eq_or_lt with rfl | h
  · exact le_rfl
  · exact (rgeom_anti hr le_rfl h).le

theorem identify_geomOk : Fdm.GeomOk 0 (1 / 2) 1 4 := by constructor <;> norm_num

theorem identify_coef (env : Env) :
    Fdm.taylorCoef env (FP.num 0) 1 (FP.num (1 / 4)) (FP.num 1) (FP.num 1) (FP.num 4) (FP.num ((1 : ℝ) : ℂ)) (FP.num (1 / 2))
      (FP.num (1 / 2)) (some 2) = .ok (FP.num ((-17 / 256 : ℝ) : ℂ)) := by
  have h := Fdm.taylorCoef_num env identify_geomOk identify_geomOk ((1 : ℝ) : ℂ) 1 (A := 1 / 4) (by norm_num) 1 two_ne_zero
  rw [Nat.cast_one] at h
  rw [h]
  unfold Fdm.coef
  rw [if_neg one_ne_zero, (two_samples _ _ _).1, geom_rgeom, geom_rgeom, show (0 + 1 / 4 + 1 / 4 : ℝ) = 1 / 2 by norm_num,
    show (0 + 1 / 4 - 1 / 4 : ℝ) = 0 by norm_num, identify_rgeom.1, identify_rgeom.2]
  congr 2
  push_cast
  norm_num

example (env : Env) (s₁ s₂ : Stack (FP ℝ) (FP ℂ)) (m₁ : s₁.multilayer = false) (m₂ : s₂.multilayer = false) (β₁ β₂ : ℂ)
    (h₁ : s₁.reflCoefQs = .ok (FP.num β₁)) (h₂ : s₂.reflCoefQs = .ok (FP.num β₂)) (b₁ : ‖β₁‖ ≤ 1 / 8) (b₂ : ‖β₂‖ ≤ 1 / 8)
    (dA : ℝ) :=
  C104_fdm env s₁ s₂ m₁ m₂ β₁ β₂ h₁ h₂ 0 1 4 (1 / 4) 1 (1 / 8) (39 / 64) (39 / 64) ((1 : ℝ) : ℂ) (1 / 2) (1 / 2) dA none 2
    identify_geomOk identify_geomOk (by norm_num) two_ne_zero identify_sup identify_sup b₁ b₂ (by norm_num) _ (identify_coef env)

example (env : Env) (s₁ s₂ : Stack (FP ℝ) (FP ℂ)) (m₁ : s₁.multilayer = false) (m₂ : s₂.multilayer = false) (β₁ β₂ : ℂ)
    (h₁ : s₁.reflCoefQs = .ok (FP.num β₁)) (h₂ : s₂.reflCoefQs = .ok (FP.num β₂)) (b₁ : ‖β₁‖ ≤ 1 / 8) (b₂ : ‖β₂‖ ≤ 1 / 8)
    (dA : ℝ) :=
  C104_fdm_unique env s₁ s₂ m₁ m₂ β₁ β₂ h₁ h₂ 0 1 4 (1 / 4) 1 (1 / 8) (39 / 64) (39 / 64) ((1 : ℝ) : ℂ) (1 / 2) (1 / 2) dA none 2
    identify_geomOk identify_geomOk (by norm_num) two_ne_zero identify_sup identify_sup b₁ b₂ (by norm_num) _ (identify_coef env)
    (by rw [Complex.norm_real]; norm_num)

/-! ## Lossless dielectrics -/

private theorem bulk_real {e ε : ℝ} (h0 : ε ≠ 0) (h : ε + e ≠ 0) :
    (bulk e ε).reflCoefQs = .ok (FP.num (((ε - e) / (ε + e) : ℝ) : ℂ)) := by
  rw [C09_refl]
  · push_cast
    rfl
  · exact_mod_cast h0
  · exact_mod_cast h

/-- Two lossless dielectrics with the same signal at any harmonic are the same: finite dipole model. -/
theorem C104_dielectric_fdm (env : Env) (e ε₁ ε₂ : ℝ) (he : 0 < e) (h1 : e < ε₁) (h2 : e < ε₂) (r l g d0 d1 dA z A : ℝ)
    (hA : 0 < A) (nLag : Option ℕ) (n : ℤ) (N : ℕ) (hN : N ≠ 0) (hz : 0 ≤ z) (r0 : InReach (z + 2 * A) d0 r l g)
    (r1 : InReach (z + 2 * A) d1 r l g)
    (heq : Fdm.effPolN env (bulk e ε₁) (FP.num A) (FP.num n) (some (FP.num z)) (some N) (fdmTip r l g d0 d1 dA) nLag
        (some "bulk") =
      Fdm.effPolN env (bulk e ε₂) (FP.num A) (FP.num n) (some (FP.num z)) (some N) (fdmTip r l g d0 d1 dA) nLag
        (some "bulk")) : ε₁ = ε₂ := by
  rcases lt_trichotomy ε₁ ε₂ with h | h | h
  · obtain ⟨v₁, v₂, q₁, q₂, -, q⟩ := C72_contrast env e ε₁ ε₂ he h1 h r l g d0 d1 dA z A hA nLag n N hN hz r0 r1
    rw [q₁, q₂] at heq
    injection heq with heq
    injection heq with heq
    rw [heq] at q
    exact absurd q (lt_irrefl _)
  · exact h
  · obtain ⟨v₁, v₂, q₁, q₂, -, q⟩ := C72_contrast env e ε₂ ε₁ he h2 h r l g d0 d1 dA z A hA nLag n N hN hz r0 r1
    rw [q₁, q₂] at heq
    injection heq with heq
    injection heq with heq
    rw [heq] at q
    exact absurd q (lt_irrefl _)

/-- Point dipole model, as long as the resonance is not reached. -/
theorem C104_dielectric_pdm (env : Env) (e ε₁ ε₂ : ℝ) (he : 0 < e) (h1 : e < ε₁) (h2 : e < ε₂) (r α z A : ℝ)
    (hA : 0 < A) (n : ℤ) (N : ℕ) (hN : N ≠ 0) (hα : 0 < α) (hr : 0 < r + z) (hres : α ≤ 16 * Real.pi * (r + z) ^ 3)
    (heq : Pdm.effPolN env (bulk e ε₁) (FP.num A) (FP.num n) (some (FP.num z)) (some N) (tip r α) =
      Pdm.effPolN env (bulk e ε₂) (FP.num A) (FP.num n) (some (FP.num z)) (some N) (tip r α)) : ε₁ = ε₂ := by
  have key : ∀ ε ε' : ℝ, e < ε → ε < ε' →
      Pdm.effPolN env (bulk e ε) (FP.num A) (FP.num n) (some (FP.num z)) (some N) (tip r α) ≠
      Pdm.effPolN env (bulk e ε') (FP.num A) (FP.num n) (some (FP.num z)) (some N) (tip r α) := fun ε ε' h h' => by
    have hp : 0 < ε + e := by linarith
    have hp' : 0 < ε' + e := by linarith
    have hb : (ε - e) / (ε + e) < (ε' - e) / (ε' + e) := by
      rw [div_lt_div_iff₀ hp hp']
      nlinarith
    have hb1 : (ε' - e) / (ε' + e) < 1 := by rw [div_lt_one hp']; linarith
    have hb0 : 0 < (ε - e) / (ε + e) := div_pos (by linarith) hp
    obtain ⟨v₁, v₂, q₁, q₂, -, q⟩ := C72_pdm env _ _ _ _ (bulk_real (by linarith) hp.ne') (bulk_real (by linarith) hp'.ne')
      r α z z A hA n N hN hα le_rfl hr hb0 hb.le (.inl hb) (by nlinarith)
    rw [q₁, q₂]
    intro e'
    injection e' with e'
    injection e' with e'
    have : (-1 : ℝ) ^ n * v₁ = (-1 : ℝ) ^ n * v₂ := by exact_mod_cast e'
    have := mul_left_cancel₀ (zpow_ne_zero n (by norm_num : (-1 : ℝ) ≠ 0)) this
    linarith
  rcases lt_trichotomy ε₁ ε₂ with h | h | h
  · exact absurd heq (key _ _ h1 h)
  · exact h
  · exact absurd heq.symm (key _ _ h2 h)

example (env : Env) := C104_dielectric_fdm env 1 2 3 one_pos (by norm_num) (by norm_num) 1 4 1 (1 / 2) (1 / 2) 1 0 (1 / 4)
  (by norm_num) none 1 2 two_ne_zero le_rfl (identify_reach _ (by norm_num) (by norm_num)) (identify_reach _ (by norm_num) (by norm_num))

example (env : Env) := C104_dielectric_pdm env 1 2 3 one_pos (by norm_num) (by norm_num) 1 1 0 1 one_pos 1 2 two_ne_zero one_pos
  (by norm_num) (by have := Real.two_le_pi; norm_num; linarith)

/-! ## Dielectrics and metals -/

/-- The point dipole polarisability of a real reflection coefficient. -/
private noncomputable def pol (r α b x : ℝ) : ℝ := α * (1 - b * (α / (16 * Real.pi * (r + x) ^ 3)))⁻¹

private theorem pol_signal (env : Env) (s : Stack (FP ℝ) (FP ℂ)) (b : ℝ) (hb : s.reflCoefQs = .ok (FP.num (b : ℂ)))
    (z r α : ℝ) (h : 0 < r + z) (A : ℝ) (hA : 0 ≤ A)
    (hd : ∀ x, z ≤ x → x ≤ z + 2 * A → 1 - b * (α / (16 * Real.pi * (r + x) ^ 3)) ≠ 0) (n : ℝ) (N : ℕ) (hN : N ≠ 0) :
    ∃ v : ℝ, Pdm.effPolN env s (FP.num A) (FP.num n) (some (FP.num z)) (some N) (tip r α) = .ok (FP.num (v : ℂ)) ∧
      demodSum (fun x => (pol r α b x : ℂ)) (z + A) A n N = v := by
  have hval : ∀ x, z ≤ x → x ≤ z + 2 * A → Pdm.effPol env s (some (FP.num x)) (tip r α) =
      .ok (FP.num (pol r α b x : ℂ)) := fun x hx hx' => by
    have e : (1 - Pdm.geom x r α * b : ℂ) = ((1 - b * (α / (16 * Real.pi * (r + x) ^ 3)) : ℝ) : ℂ) := by
      unfold Pdm.geom
      push_cast
      ring
    rw [Pdm.effPol_val env s _ x r α b (pdm_tip env r α) hb (by linarith), e, div_eq_mul_inv]
    · unfold pol
      push_cast
      rfl
    · rw [e]
      exact_mod_cast hd x hx hx'
  obtain ⟨v, hv⟩ := C43_real env (pol r α b) (z + A) A n N hN
  rw [demod_onFinite env _ _ _ _ (some N) hN, Option.getD_some] at hv
  injection hv with hv
  injection hv with hv
  refine ⟨v, ?_, hv⟩
  rw [← hv]
  unfold Pdm.effPolN
  simp only [Option.getD_some, FP.num_add]
  exact demod_eval env _ (fun x => (pol r α b x : ℂ)) _ _ _ (some N) hN
    ⟨_, hval _ (by linarith) (by linarith)⟩ fun θ =>
    hval _ (by nlinarith [Real.neg_one_le_cos θ]) (by nlinarith [Real.cos_le_one θ])

/-- With a reflection coefficient `s/y`, `y` small and `s` a sign, the signal is close to a cube. -/
private theorem far_bound {r α x y s Q : ℝ} (hα : 0 < α) (hx : 0 < r + x) (hQ : 16 * Real.pi * (r + x) ^ 3 / α ≤ Q)
    (hs : s * s = 1) (hy : 0 < y) (hyQ : 2 * Q * y ≤ 1) :
    1 - -s / y * (α / (16 * Real.pi * (r + x) ^ 3)) ≠ 0 ∧
    |pol r α (-s / y) x - s * y * (16 * Real.pi * (r + x) ^ 3)| ≤ 2 * α * Q ^ 2 * y ^ 2 := by
  have hpi := Real.pi_pos
  have hq0 : 0 < 16 * Real.pi * (r + x) ^ 3 / α := by positivity
  have e1 : α / (16 * Real.pi * (r + x) ^ 3) = (16 * Real.pi * (r + x) ^ 3 / α)⁻¹ := (inv_div _ _).symm
  have e2 : 16 * Real.pi * (r + x) ^ 3 = α * (16 * Real.pi * (r + x) ^ 3 / α) := by field_simp
  unfold pol
  rw [e1]
  generalize 16 * Real.pi * (r + x) ^ 3 / α = q at hQ hq0 e2
  rw [e2]
  have hqy : q * y ≤ 1 / 2 := by nlinarith
  have hs1 : s = 1 ∨ s = -1 := mul_self_eq_one_iff.1 hs
  have hD : 1 / 2 ≤ |q * y + s| := by
    rcases hs1 with rfl | rfl
    · rw [abs_of_pos (by positivity)]
      nlinarith [mul_pos hq0 hy]
    · rw [abs_of_neg (by linarith)]
      linarith
  have hD0 : q * y + s ≠ 0 := fun h => by rw [h, abs_zero] at hD; linarith
  have e3 : 1 - -s / y * q⁻¹ = (q * y + s) / (q * y) := by
    field_simp
    ring
  refine ⟨by rw [e3]; exact div_ne_zero hD0 (by positivity), ?_⟩
  rw [e3, inv_div]
  have e4 : α * (q * y / (q * y + s)) - s * y * (α * q) = -s * α * (q * y) ^ 2 / (q * y + s) := by
    field_simp
    linear_combination -hs
  rw [e4, abs_div, div_le_iff₀ (by linarith)]
  have e5 : |-s * α * (q * y) ^ 2| = α * (q * y) ^ 2 := by
    rcases hs1 with rfl | rfl
    · rw [show -1 * α * (q * y) ^ 2 = -(α * (q * y) ^ 2) by ring, abs_neg, abs_of_nonneg (by positivity)]
    · rw [show - -1 * α * (q * y) ^ 2 = α * (q * y) ^ 2 by ring, abs_of_nonneg (by positivity)]
  rw [e5]
  have h6 : (q * y) ^ 2 ≤ Q ^ 2 * y ^ 2 := by
    rw [← mul_pow]
    exact pow_le_pow_left₀ (by positivity) (by nlinarith) 2
  have h7 : 0 ≤ α * (Q ^ 2 * y ^ 2) := by positivity
  nlinarith [mul_le_mul_of_nonneg_left hD h7, mul_le_mul_of_nonneg_left h6 hα.le]

private theorem one_mean {N : ℕ} (hN : N ≠ 0) (x0 A : ℝ) : (demodSum (fun _ => ((1 : ℝ) : ℂ)) x0 A 0 N).re = 1 := by
  have := demodSum_const ((1 : ℝ) : ℂ) x0 A 0 hN (.inl rfl)
  rw [Int.cast_zero] at this
  rw [this, if_pos rfl, Complex.ofReal_re]

private theorem near_bound {g α b : ℝ} (hα : 0 < α) (hg : 0 < g) (hb : 0 < b) (h : b * g ≤ 1 / 2) :
    |α * (1 - b * g)⁻¹ - α| ≤ 2 * α * (b * g) := by
  have h0 : 0 < b * g := mul_pos hb hg
  have hD : 0 < 1 - b * g := by linarith
  have e : α * (1 - b * g)⁻¹ - α = α * (b * g) / (1 - b * g) := by
    field_simp
    ring
  rw [e, abs_of_pos (by positivity), div_le_iff₀ hD]
  nlinarith [mul_pos hα h0]

private theorem pol_continuous {r α s y₁ y₀ x0 A : ℝ} (hy : 0 < y₁)
    (h : ∀ y, y₁ ≤ y → y ≤ y₀ → ∀ x, x0 - A ≤ x → x ≤ x0 + A → 1 - -s / y * (α / (16 * Real.pi * (r + x) ^ 3)) ≠ 0)
    (hA : 0 ≤ A) (n : ℝ) (N : ℕ) :
    ContinuousOn (fun y => (demodSum (fun x => (pol r α (-s / y) x : ℂ)) x0 A n N).re) (Set.Icc y₁ y₀) := by
  have hw : ∀ θ, ContinuousOn (fun y => wave (fun x => (pol r α (-s / y) x : ℂ)) x0 A n θ) (Set.Icc y₁ y₀) := fun θ => by
    unfold wave
    refine ContinuousOn.mul (Complex.continuous_ofReal.comp_continuousOn ?_) continuousOn_const
    unfold pol
    refine continuousOn_const.mul (ContinuousOn.inv₀ ?_ fun y hy' => h y hy'.1 hy'.2 _ (by nlinarith [Real.neg_one_le_cos θ])
      (by nlinarith [Real.cos_le_one θ]))
    exact continuousOn_const.sub ((continuousOn_const.div continuousOn_id fun y hy' => (hy.trans_le hy'.1).ne').mul continuousOn_const)
  unfold demodSum
  refine Complex.continuous_re.comp_continuousOn (ContinuousOn.div_const (continuousOn_finsetSum _ fun k _ => ?_) _)
  exact ((hw _).add (hw _)).div_const _

/-- A signal does not say what the sample is: in the point dipole model every weak enough dielectric has at each of the harmonics
1, 2 and 3 exactly the signal of some lossless metal. -/
theorem C104_ambiguous (env : Env) (e r α z A : ℝ) (he : 0 < e) (hr : 0 < r + z) (hα : 0 < α) (hA : 0 < A) (n N : ℕ)
    (h1 : 1 ≤ n) (h3 : n ≤ 3) (hN : n + 3 < N) :
    ∃ δ > 0, ∀ ε₁ : ℝ, e < ε₁ → ε₁ < e + δ → ∃ ε₂ < 0, ∃ v : ℝ, v ≠ 0 ∧
      Pdm.effPolN env (bulk e ε₁) (FP.num A) (FP.num n) (some (FP.num z)) (some N) (tip r α) = .ok (FP.num (v : ℂ)) ∧
      Pdm.effPolN env (bulk e (ε₂ : ℝ)) (FP.num A) (FP.num n) (some (FP.num z)) (some N) (tip r α) =
        .ok (FP.num (v : ℂ)) := by
  have hpi := Real.pi_pos
  have hN0 : N ≠ 0 := by omega
  obtain ⟨d, hd, hcube⟩ := demodSum_cube r (z + A) hA (by linarith) h1 h3 hN
  set Q := 16 * Real.pi * (r + (z + 2 * A)) ^ 3 / α with hQ
  have hQ0 : 0 < Q := by have : 0 < r + (z + 2 * A) := by linarith
                         positivity
  have hq : ∀ x, z ≤ x → x ≤ z + 2 * A → 16 * Real.pi * (r + x) ^ 3 / α ≤ Q := fun x hx hx' => by
    have := pow_le_pow_left₀ (by linarith : 0 ≤ r + x) (by linarith : r + x ≤ r + (z + 2 * A)) 3
    rw [hQ]
    gcongr
  set s : ℝ := (-1) ^ n with hs
  have hss : s * s = 1 := by rw [hs, ← mul_pow]; norm_num
  have hs1 : s = 1 ∨ s = -1 := mul_self_eq_one_iff.1 hss
  -- how small the inverse of the reflection coefficient must be
  obtain ⟨y₀, hy0, hy1, hyQ, hyd⟩ : ∃ y₀ : ℝ, 0 < y₀ ∧ y₀ < 1 ∧ 2 * Q * y₀ ≤ 1 ∧ 2 * α * Q ^ 2 * y₀ ≤ 8 * Real.pi * d := by
    refine ⟨min (1 / 2) (min (1 / (2 * Q)) (8 * Real.pi * d / (2 * α * Q ^ 2))), by positivity, ?_, ?_, ?_⟩
    · exact lt_of_le_of_lt (min_le_left _ _) (by norm_num)
    · have := (min_le_right (1 / 2 : ℝ) _).trans (min_le_left (1 / (2 * Q)) (8 * Real.pi * d / (2 * α * Q ^ 2)))
      rw [le_div_iff₀ (by positivity)] at this
      linarith
    · have := (min_le_right (1 / 2 : ℝ) _).trans (min_le_right (1 / (2 * Q)) (8 * Real.pi * d / (2 * α * Q ^ 2)))
      rw [le_div_iff₀ (by positivity)] at this
      linarith
  have far : ∀ y, 0 < y → y ≤ y₀ → ∀ x, z ≤ x → x ≤ z + 2 * A →
      1 - -s / y * (α / (16 * Real.pi * (r + x) ^ 3)) ≠ 0 ∧
      |pol r α (-s / y) x - s * y * (16 * Real.pi * (r + x) ^ 3)| ≤ 2 * α * Q ^ 2 * y ^ 2 := fun y hy hy' x hx hx' =>
    far_bound hα (by linarith) (hq x hx hx') hss hy (by nlinarith)
  have farT : ∀ y, 0 < y → y ≤ y₀ →
      |s * (demodSum (fun x => (pol r α (-s / y) x : ℂ)) (z + A) A n N).re - 16 * Real.pi * d * y| ≤ 8 * Real.pi * d * y :=
    fun y hy hy' => by
    have h := demodSum_le (F := fun x => (pol r α (-s / y) x : ℂ) - (s * y * (16 * Real.pi) : ℝ) * (((r + x) ^ 3 : ℝ) : ℂ))
      (p := fun _ => 1) (x0 := z + A) (A := A) (K := 2 * α * Q ^ 2 * y ^ 2) hA.le (fun x hx hx' => by
        have := (far y hy hy' x (by linarith) (by linarith)).2
        rw [← Complex.ofReal_mul, ← Complex.ofReal_sub, Complex.norm_real, Real.norm_eq_abs, mul_one]
        rw [show s * y * (16 * Real.pi) * (r + x) ^ 3 = s * y * (16 * Real.pi * (r + x) ^ 3) by ring]
        exact this) n N
    rw [one_mean hN0, mul_one, demodSum_sub, demodSum_smul, hcube, ← Complex.ofReal_mul] at h
    have h' := (Complex.abs_re_le_norm _).trans h
    rw [Complex.sub_re, Complex.ofReal_re] at h'
    have e' : s * (demodSum (fun x => (pol r α (-s / y) x : ℂ)) (z + A) A n N).re - 16 * Real.pi * d * y =
        s * ((demodSum (fun x => (pol r α (-s / y) x : ℂ)) (z + A) A n N).re - s * y * (16 * Real.pi) * d) := by
      linear_combination (16 * Real.pi * d * y) * hss
    have es : |s| = 1 := by rcases hs1 with h | h <;> rw [h] <;> norm_num
    rw [e', abs_mul, es, one_mul]
    have h2 : 2 * α * Q ^ 2 * y ≤ 8 * Real.pi * d :=
      (mul_le_mul_of_nonneg_left hy' (by positivity : 0 ≤ 2 * α * Q ^ 2)).trans hyd
    have := mul_le_mul_of_nonneg_right h2 hy.le
    linarith
  -- how weak the dielectric must be
  set G := α / (16 * Real.pi * (r + z) ^ 3) with hG
  have hG0 : 0 < G := by positivity
  have hg : ∀ x, z ≤ x → 0 < α / (16 * Real.pi * (r + x) ^ 3) ∧ α / (16 * Real.pi * (r + x) ^ 3) ≤ G := fun x hx => by
    have h0 : 0 < r + x := by linarith
    have := pow_le_pow_left₀ hr.le (by linarith : r + z ≤ r + x) 3
    refine ⟨by positivity, ?_⟩
    rw [hG]
    gcongr
  obtain ⟨η, hη, hηG, hηd⟩ : ∃ η : ℝ, 0 < η ∧ η * G ≤ 1 / 2 ∧ 2 * α * (η * G) ≤ 8 * Real.pi * d * y₀ := by
    refine ⟨min (1 / (2 * G)) (8 * Real.pi * d * y₀ / (2 * α * G)), by positivity, ?_, ?_⟩
    · have := min_le_left (1 / (2 * G)) (8 * Real.pi * d * y₀ / (2 * α * G))
      rw [le_div_iff₀ (by positivity)] at this
      linarith
    · have := min_le_right (1 / (2 * G)) (8 * Real.pi * d * y₀ / (2 * α * G))
      rw [le_div_iff₀ (by positivity)] at this
      linarith
  refine ⟨2 * e * η, by positivity, fun ε₁ hε hε' => ?_⟩
  set b := (ε₁ - e) / (ε₁ + e) with hb
  have hp : 0 < ε₁ + e := by linarith
  have hb0 : 0 < b := div_pos (by linarith) hp
  have hbη : b ≤ η := by
    rw [hb, div_le_iff₀ hp]
    nlinarith
  have hbG : b * G ≤ 1 / 2 := by nlinarith
  have bg : ∀ x, z ≤ x → b * (α / (16 * Real.pi * (r + x) ^ 3)) ≤ b * G := fun x hx =>
    mul_le_mul_of_nonneg_left (hg x hx).2 hb0.le
  obtain ⟨t, ht, htS⟩ := pol_signal env (bulk e ε₁) b (bulk_real (by linarith) hp.ne') z r α hr A hA.le
    (fun x hx _ => by have := bg x hx; intro h; linarith) n N hN0
  -- its signal is small and has the sign of the harmonic
  have hnd : ¬ (N : ℤ) ∣ (n : ℤ) := fun h => by
    have := Int.le_of_dvd (by omega) h
    omega
  have hsmall : |t| ≤ 8 * Real.pi * d * y₀ := by
    have h := demodSum_le (F := fun x => (pol r α b x : ℂ) - (α : ℂ)) (p := fun _ => 1) (x0 := z + A) (A := A)
      (K := 2 * α * (b * G)) hA.le (fun x hx hx' => by
        have hx0 : z ≤ x := by linarith
        rw [← Complex.ofReal_sub, Complex.norm_real, Real.norm_eq_abs, mul_one]
        refine (near_bound hα (hg x hx0).1 hb0 ((bg x hx0).trans hbG)).trans ?_
        exact mul_le_mul_of_nonneg_left (bg x hx0) (by positivity)) n N
    have hc := demodSum_const (α : ℂ) (z + A) A n hN0 (.inr hnd)
    rw [Int.cast_natCast, if_neg (by omega)] at hc
    rw [one_mean hN0, mul_one, demodSum_sub, htS, hc, sub_zero, Complex.norm_real, Real.norm_eq_abs] at h
    refine h.trans (le_trans ?_ hηd)
    gcongr
  have hsign : 0 < s * t := by
    have h16 : α * b * 2 ≤ 16 * Real.pi * (r + z) ^ 3 := by
      have h16 : 0 < 16 * Real.pi * (r + z) ^ 3 := by positivity
      have : b * G * (16 * Real.pi * (r + z) ^ 3) = α * b := by rw [hG]; field_simp
      nlinarith
    obtain ⟨v₁, v₂, q₁, -, q, -⟩ := C72_pdm env (bulk e ε₁) (bulk e ε₁) b b (bulk_real (by linarith) hp.ne')
      (bulk_real (by linarith) hp.ne') r α z (z - (r + z) / 10) A hA n N hN0 hα (by linarith) (by linarith) hb0 le_rfl
      (.inr (by linarith)) (by
        rw [show (r + (z - (r + z) / 10)) ^ 3 = (r + z) ^ 3 * (729 / 1000) by ring]
        have := mul_pos hα hb0
        nlinarith)
    rw [Int.cast_natCast] at q₁
    rw [ht] at q₁
    injection q₁ with q₁
    injection q₁ with q₁
    have q₂ : t = (-1 : ℝ) ^ (n : ℤ) * v₁ := by exact_mod_cast q₁
    rw [zpow_natCast, ← hs] at q₂
    rw [if_neg hnd] at q
    rw [q₂, ← mul_assoc, hss, one_mul]
    exact q
  -- a metal with that signal
  set y₁ := min y₀ (s * t / (24 * Real.pi * d)) with hy₁
  have hy₁0 : 0 < y₁ := by positivity
  have hle : y₁ ≤ y₀ := min_le_left _ _
  have hc := pol_continuous (r := r) (α := α) (s := s) (y₁ := y₁) (y₀ := y₀) (x0 := z + A) (A := A) hy₁0
    (fun y h h' x hx hx' => (far y (hy₁0.trans_le h) h' x (by linarith) (by linarith)).1) hA.le n N
  have hlow : s * (demodSum (fun x => (pol r α (-s / y₁) x : ℂ)) (z + A) A n N).re ≤ s * t := by
    have := (abs_le.1 (farT y₁ hy₁0 hle)).2
    have h' := min_le_right y₀ (s * t / (24 * Real.pi * d))
    rw [← hy₁, le_div_iff₀ (by positivity)] at h'
    linarith
  have hhigh : s * t ≤ s * (demodSum (fun x => (pol r α (-s / y₀) x : ℂ)) (z + A) A n N).re := by
    have h1' := (abs_le.1 (farT y₀ hy0 le_rfl)).1
    have h2' : s * t ≤ |t| := by
      rcases hs1 with h | h <;> rw [h]
      · rw [one_mul]; exact le_abs_self t
      · rw [neg_one_mul]; exact neg_le_abs t
    linarith
  obtain ⟨y, hy, hyt⟩ := intermediate_value_Icc hle (continuousOn_const.mul hc : ContinuousOn (fun y => s *
    (demodSum (fun x => (pol r α (-s / y) x : ℂ)) (z + A) A n N).re) _) ⟨hlow, hhigh⟩
  have hyp : 0 < y := hy₁0.trans_le hy.1
  have hs0 : s ≠ 0 := fun h => by rw [h] at hss; norm_num at hss
  have hys : y + s ≠ 0 := by
    rcases hs1 with h | h <;> rw [h]
    · linarith
    · have := hy.2
      linarith
  have hneg : e * (y - s) / (y + s) < 0 := by
    have := hy.2
    rcases hs1 with h | h <;> rw [h]
    · exact div_neg_of_neg_of_pos (mul_neg_of_pos_of_neg he (by linarith)) (by linarith)
    · exact div_neg_of_pos_of_neg (mul_pos he (by linarith)) (by linarith)
  have hsum : e * (y - s) / (y + s) + e = 2 * e * y / (y + s) := by field_simp; ring
  have hβ : (e * (y - s) / (y + s) - e) / (e * (y - s) / (y + s) + e) = -s / y := by
    rw [hsum]
    field_simp
    ring
  have hbm := bulk_real (e := e) (ε := e * (y - s) / (y + s)) hneg.ne (by rw [hsum]; positivity)
  rw [hβ] at hbm
  obtain ⟨t', ht', htS'⟩ := pol_signal env (bulk e (e * (y - s) / (y + s) : ℝ)) (-s / y) hbm z r α hr A hA.le
    (fun x hx hx' => (far y hyp hy.2 x hx hx').1) n N hN0
  refine ⟨_, hneg, t, fun h => by rw [h, mul_zero] at hsign; exact lt_irrefl _ hsign, ht, ?_⟩
  have : t' = t := by
    have h : s * (demodSum (fun x => (pol r α (-s / y) x : ℂ)) (z + A) A n N).re = s * t := hyt
    rw [htS', Complex.ofReal_re] at h
    exact mul_left_cancel₀ hs0 h
  rw [ht', this]

example (env : Env) := C104_ambiguous env 1 1 1 0 1 one_pos (by norm_num) one_pos one_pos 2 6 (by norm_num) (by norm_num) (by norm_num)

end Snompy.Props
