import Verif.Props.Harmonics

/-!
# C115: how the signal depends on the tip
-/

namespace Snompy

open Finset

theorem Alt.add {f g : ℝ → ℝ} {A : ℝ} {S : Set ℝ} {a b : ℕ → ℝ → ℝ} (hf : Alt f A S a) (hg : Alt g A S b) :
    Alt (fun x => f x + g x) A S (fun k R => a k R + b k R) where
  nonneg k R hR := add_nonneg (hf.nonneg k R hR) (hg.nonneg k R hR)
  anti k _ hR _ hR' hle := add_le_add (hf.anti k hR hR' hle) (hg.anti k hR hR' hle)
  sum R hR y hy := by simpa only [add_mul] using (hf.sum R hR y hy).add (hg.sum R hR y hy)

theorem Alt.Strict.add {g : ℝ → ℝ} {A : ℝ} {S : Set ℝ} {a b : ℕ → ℝ → ℝ} (ha : Alt.Strict S a) (hg : Alt g A S b) :
    Alt.Strict S (fun k R => a k R + b k R) where
  pos k R hR := add_pos_of_pos_of_nonneg (ha.pos k R hR) (hg.nonneg k R hR)
  anti k _ hR _ hR' hlt := add_lt_add_of_lt_of_le (ha.anti k hR hR' hlt) (hg.anti k hR hR' hlt.le)

/-- Larger functions `f₀ + e₀` and `f₁ + e₁` in `β f₀ / (1 - β f₁)`. -/
theorem Alt.grow {f₀ f₁ e₀ e₁ : ℝ → ℝ} {A : ℝ} {S : Set ℝ} {a₀ a₁ c₀ c₁ : ℕ → ℝ → ℝ} (h₀ : Alt f₀ A S a₀)
    (h₁ : Alt f₁ A S a₁) (k₀ : Alt e₀ A S c₀) (s₀ : Alt.Strict S c₀) (k₁ : Alt e₁ A S c₁) (hA : 0 < A) {β : ℝ} (hβ : 0 < β)
    (hf : ∀ R ∈ S, β * f₁ (R + -A) < 1) (hg : ∀ R ∈ S, β * (f₁ (R + -A) + e₁ (R + -A)) < 1) :
    ∃ b, Alt (fun x => (1 - β * (f₁ x + e₁ x))⁻¹ * (β * e₀ x) +
      (1 - β * f₁ x)⁻¹ * ((1 - β * (f₁ x + e₁ x))⁻¹ * (β * f₀ x * (β * e₁ x)))) A S b ∧ Alt.Strict S b := by
  obtain ⟨b₁, hb₁, -⟩ := h₁.geom hA hβ.le hf
  obtain ⟨b₂, hb₂, hp⟩ := (h₁.add k₁).geom hA hβ.le hg
  have u := hb₂.mul (k₀.smul hβ.le)
  have v := hb₁.mul (hb₂.mul ((h₀.smul hβ.le).mul (k₁.smul hβ.le)))
  exact ⟨_, u.add v, (Alt.Strict.prod hb₂ (k₀.smul hβ.le) hp (s₀.smul hβ)).add v⟩

end Snompy

namespace Snompy.Props

open Snompy Finset

/-! ## The point dipole model -/

theorem pdm_effPolN_ne (env : Env) (s : Stack (FP ℝ) (FP ℂ)) (β : ℂ)
    (hβ : s.reflCoefQs = .ok (FP.num β)) (z r : ℝ) (α : ℂ) (h : 0 < r + z) (A : ℝ) (hA : 0 ≤ A)
    (hd : ∀ x, z ≤ x → x ≤ z + 2 * A → α * β ≠ 16 * Real.pi * (r + x) ^ 3) (n : ℝ) (N : ℕ) (hN : N ≠ 0) :
    Pdm.effPolN env s (FP.num A) (FP.num n) (some (FP.num z)) (some N) (tip r α) =
      .ok (FP.num (α * demodSum (fun x => (1 - α * β / (16 * Real.pi * (r + x) ^ 3))⁻¹) (z + A) A n N)) := by
  have hval : ∀ x, z ≤ x → x ≤ z + 2 * A → Pdm.effPol env s (some (FP.num x)) (tip r α) =
      .ok (FP.num (α * (1 - α * β / (16 * Real.pi * (r + x) ^ 3))⁻¹)) := fun x hx hx' => by
    have hp : (16 * Real.pi * (r + x) ^ 3 : ℂ) ≠ 0 := by
      have h1 : (16 * Real.pi * (r + x) ^ 3 : ℝ) ≠ 0 :=
        mul_ne_zero (by have := Real.pi_pos; positivity) (pow_ne_zero 3 (by linarith))
      exact_mod_cast h1
    have e : Pdm.geom x r α * β = α * β / (16 * Real.pi * (r + x) ^ 3) := by
      unfold Pdm.geom
      ring
    rw [Pdm.effPol_val env s _ x r α β (pdm_tip env r α) hβ (by linarith), e, div_eq_mul_inv α]
    rw [e]
    refine sub_ne_zero.2 fun h1 => hd x hx hx' ?_
    rw [eq_div_iff hp, one_mul] at h1
    exact h1.symm
  unfold Pdm.effPolN
  simp only [Option.getD_some, FP.num_add]
  have e : α * demodSum (fun x => (1 - α * β / (16 * Real.pi * (r + x) ^ 3))⁻¹) (z + A) A n N =
      demodSum (fun x => α * (1 - α * β / (16 * Real.pi * (r + x) ^ 3))⁻¹) (z + A) A n N := by
    have := demodSum_affine 0 α (fun x : ℝ => (1 - α * β / (16 * Real.pi * (r + x) ^ 3))⁻¹) (z + A) A n N
    simpa using this.symm
  rw [e]
  exact demod_eval env _ (fun x => α * (1 - α * β / (16 * Real.pi * (r + x) ^ 3))⁻¹) _ _ _ (some N) hN
    ⟨_, hval _ (by linarith) (by linarith)⟩ fun θ =>
    hval _ (by nlinarith [Real.neg_one_le_cos θ]) (by nlinarith [Real.cos_le_one θ])

/-- Point dipole model: a tip is as good as another one on another sample.  The signal divided by `alpha_tip` depends only
on `alpha_tip * beta`, for all complex values away from the resonance. -/
theorem C115_exchange (env : Env) (s₁ s₂ : Stack (FP ℝ) (FP ℂ)) (b₁ b₂ α₁ α₂ : ℂ)
    (h₁ : s₁.reflCoefQs = .ok (FP.num b₁)) (h₂ : s₂.reflCoefQs = .ok (FP.num b₂)) (hα : α₁ * b₁ = α₂ * b₂)
    (z r A : ℝ) (hr : 0 < r + z) (hA : 0 ≤ A)
    (hd : ∀ x, z ≤ x → x ≤ z + 2 * A → α₁ * b₁ ≠ 16 * Real.pi * (r + x) ^ 3) (n : ℝ) (N : ℕ) (hN : N ≠ 0) :
    ∃ w : ℂ,
      Pdm.effPolN env s₁ (FP.num A) (FP.num n) (some (FP.num z)) (some N) (tip r α₁) = .ok (FP.num (α₁ * w)) ∧
      Pdm.effPolN env s₂ (FP.num A) (FP.num n) (some (FP.num z)) (some N) (tip r α₂) = .ok (FP.num (α₂ * w)) := by
  refine ⟨_, pdm_effPolN_ne env s₁ b₁ h₁ z r α₁ hr A hA hd n N hN, ?_⟩
  rw [hα] at hd ⊢
  exact pdm_effPolN_ne env s₂ b₂ h₂ z r α₂ hr A hA hd n N hN

/-- Point dipole model: every harmonic, relative to the polarizability of the tip (and so in absolute size too), grows with
the polarizability of the tip. -/
theorem C115_pdm (env : Env) (s : Stack (FP ℝ) (FP ℂ)) (b : ℝ) (h : s.reflCoefQs = .ok (FP.num (b : ℂ)))
    (r α₁ α₂ z A : ℝ) (hA : 0 < A) (n : ℤ) (N : ℕ) (hN : N ≠ 0) (hα : 0 < α₁) (hlt : α₁ < α₂) (hr : 0 < r + z)
    (hb : 0 < b) (hres : α₂ * b < 16 * Real.pi * (r + z) ^ 3) :
    ∃ w₁ w₂ : ℝ,
      Pdm.effPolN env s (FP.num A) (FP.num n) (some (FP.num z)) (some N) (tip r α₁) =
        .ok (FP.num (((-1 : ℝ) ^ n * (α₁ * w₁) : ℝ) : ℂ)) ∧
      Pdm.effPolN env s (FP.num A) (FP.num n) (some (FP.num z)) (some N) (tip r α₂) =
        .ok (FP.num (((-1 : ℝ) ^ n * (α₂ * w₂) : ℝ) : ℂ)) ∧
      (if (N : ℤ) ∣ n then 1 else 0) < w₁ ∧ w₁ < w₂ := by
  have hpi := Real.pi_pos
  obtain ⟨a, ha, hs⟩ := cube_alt hA.le (r := r) (S := {z + 2 * A})
    (fun T hT => by rw [hT]; linarith) (κ := 1 / (16 * Real.pi)) (by positivity)
  have hlow : ∀ x, z ≤ x → α₂ * b * (1 / (16 * Real.pi) / (r + x) ^ 3) < 1 := fun x hx => by
    have hle : (r + z) ^ 3 ≤ (r + x) ^ 3 := pow_le_pow_left₀ hr.le (by linarith) 3
    have hp : 0 < (r + z) ^ 3 := pow_pos hr 3
    rw [div_div, mul_div_assoc', mul_one, div_lt_one (mul_pos (by positivity) (lt_of_lt_of_le hp hle))]
    nlinarith
  obtain ⟨D, hD⟩ := Alt.signal ha hs ha hA hN (b := α₂ * b) (fun T hT => by
    rw [hT]
    exact hlow _ (by linarith))
  have h12 : α₁ * b < α₂ * b := mul_lt_mul_of_pos_right hlt hb
  have hα₂ := hα.trans hlt
  obtain ⟨p1, p2, -, -⟩ := hD (α₁ * b) z (mul_pos hα hb) h12.le rfl
  obtain ⟨q1, -, q3, -⟩ := hD (α₂ * b) z (mul_pos hα₂ hb) le_rfl rfl
  have key : ∀ α : ℝ, 0 < α → α * b ≤ α₂ * b →
      demodSum (fun x => (((1 - α * b * (1 / (16 * Real.pi) / (r + x) ^ 3))⁻¹ *
        (α * b * (1 / (16 * Real.pi) / (r + x) ^ 3)) : ℝ) : ℂ)) (z + A) A n N = (-1 : ℂ) ^ n * (D (α * b) z n : ℂ) →
      Pdm.effPolN env s (FP.num A) (FP.num n) (some (FP.num z)) (some N) (tip r α) =
        .ok (FP.num (((-1 : ℝ) ^ n * (α * ((if (N : ℤ) ∣ n then 1 else 0) + D (α * b) z n)) : ℝ) : ℂ)) := by
    intro α hα hle hDn
    have hne : ∀ x, z ≤ x → 1 - α * b * (1 / (16 * Real.pi) / (r + x) ^ 3) ≠ 0 := fun x hx => by
      have h1 := hlow x hx
      have h2 : 0 < 1 / (16 * Real.pi) / (r + x) ^ 3 := div_pos (by positivity) (pow_pos (by linarith) 3)
      nlinarith
    rw [pdm_effPolN_ne env s b h z r α hr A hA.le (fun x hx _ h0 => by
      have h0 : α * b = 16 * Real.pi * (r + x) ^ 3 := by exact_mod_cast h0
      refine hne x hx ?_
      have : 0 < (r + x) ^ 3 := pow_pos (by linarith) 3
      rw [h0, div_div, mul_one_div, div_self (mul_pos (by positivity) this).ne', sub_self]) n N hN]
    rw [demodSum_congr hA.le _ N (g' := fun x => (1 : ℂ) + 1 *
      (((1 - α * b * (1 / (16 * Real.pi) / (r + x) ^ 3))⁻¹ * (α * b * (1 / (16 * Real.pi) / (r + x) ^ 3)) : ℝ) : ℂ)),
      demodSum_affine, hDn, demodSum_one _ _ _ hN]
    · push_cast
      congr 2
      ring
    · intro x hx1 hx2
      have h2 := hne x (by linarith)
      rw [show (α : ℂ) * b / (16 * Real.pi * (r + x) ^ 3) = ((α * b * (1 / (16 * Real.pi) / (r + x) ^ 3) : ℝ) : ℂ) by
        push_cast
        rw [div_div, mul_one_div]]
      generalize α * b * (1 / (16 * Real.pi) / (r + x) ^ 3) = t at h2
      have h3 : (1 - t : ℂ) ≠ 0 := by exact_mod_cast h2
      push_cast
      field_simp
      ring
  exact ⟨_, _, key α₁ hα h12.le (p1 n), key α₂ hα₂ le_rfl (q1 n), by linarith [p2 n],
    by linarith [q3 n (α₁ * b) z (mul_pos hα hb) h12.le rfl le_rfl (.inl h12)]⟩

/-- Point dipole model: the signal of a sphere grows with its permittivity, and stays below that of the conducting sphere,
which is used without `eps_tip` and `alpha_tip`. -/
theorem C115_sphere (env : Env) (s : Stack (FP ℝ) (FP ℂ)) (b : ℝ) (h : s.reflCoefQs = .ok (FP.num (b : ℂ)))
    (rT : Option ℝ) (ε₁ ε₂ z A r : ℝ) (hrT : r = rT.getD env.defaults.rTip) (hA : 0 < A) (n : ℤ) (N : ℕ) (hN : N ≠ 0)
    (h1 : 1 < ε₁) (h2 : ε₁ < ε₂) (hr : 0 < r) (hb : 0 < b) (hz : 0 < r + z) (hres : r ^ 3 * b < 4 * (r + z) ^ 3) :
    ∃ v₁ v₂ v : ℝ,
      Pdm.effPolN env s (FP.num A) (FP.num n) (some (FP.num z)) (some N) ⟨rT.map FP.num, some (FP.num (ε₁ : ℂ)), none⟩ =
        .ok (FP.num (((-1 : ℝ) ^ n * v₁ : ℝ) : ℂ)) ∧
      Pdm.effPolN env s (FP.num A) (FP.num n) (some (FP.num z)) (some N) ⟨rT.map FP.num, some (FP.num (ε₂ : ℂ)), none⟩ =
        .ok (FP.num (((-1 : ℝ) ^ n * v₂ : ℝ) : ℂ)) ∧
      Pdm.effPolN env s (FP.num A) (FP.num n) (some (FP.num z)) (some N) ⟨rT.map FP.num, none, none⟩ =
        .ok (FP.num (((-1 : ℝ) ^ n * v : ℝ) : ℂ)) ∧
      0 < v₁ ∧ v₁ < v₂ ∧ v₂ < v := by
  have hpi := Real.pi_pos
  have hp3 : 0 < 4 * Real.pi * r ^ 3 := by positivity
  set α : ℝ → ℝ := fun ε => 4 * Real.pi * r ^ 3 * (ε - 1) / (ε + 2) with hα
  have pos : ∀ ε, 1 < ε → 0 < α ε := fun ε h => div_pos (mul_pos hp3 (by linarith)) (by linarith)
  have a12 : α ε₁ < α ε₂ := by
    simp only [hα, mul_div_assoc]
    refine mul_lt_mul_of_pos_left ?_ hp3
    rw [div_lt_div_iff₀ (by linarith) (by linarith)]
    nlinarith
  have a2 : α ε₂ < 4 * Real.pi * r ^ 3 := by
    simp only [hα, mul_div_assoc]
    refine mul_lt_of_lt_one_right hp3 ?_
    rw [div_lt_one (by linarith)]
    linarith
  have hc : 4 * Real.pi * r ^ 3 * b < 16 * Real.pi * (r + z) ^ 3 := by nlinarith
  have tipd : ∀ ε : ℝ, 1 < ε → Pdm.effPolN env s (FP.num A) (FP.num n) (some (FP.num z)) (some N)
      ⟨rT.map FP.num, some (FP.num (ε : ℂ)), none⟩ =
      Pdm.effPolN env s (FP.num A) (FP.num n) (some (FP.num z)) (some N) (tip r (α ε)) := fun ε hε => by
    have := (C40_dielectric env s rT (some (FP.num z)) (FP.num A) (FP.num n) (some N) none (FP.num 0) ε (by
      intro h0
      have := congrArg Complex.re h0
      simp at this
      linarith)).2.1
    rw [this, ← hrT]
    congr 2
    simp only [hα]
    push_cast
    rfl
  have tipc := (C40_conductor env s rT (some (FP.num z)) (FP.num A) (FP.num n) (some N) none (FP.num 0)).2.1
  rw [← hrT, show (4 * Real.pi * (r : ℂ) ^ 3) = ((4 * Real.pi * r ^ 3 : ℝ) : ℂ) by push_cast; rfl] at tipc
  obtain ⟨w₁, w₂, e1, e2, l0, l1⟩ := C115_pdm env s b h r (α ε₁) (α ε₂) z A hA n N hN (pos _ h1) a12 hz hb
    (lt_trans (mul_lt_mul_of_pos_right a2 hb) hc)
  obtain ⟨w₃, w₄, e3, e4, -, l4⟩ := C115_pdm env s b h r (α ε₂) (4 * Real.pi * r ^ 3) z A hA n N hN
    (pos _ (h1.trans h2)) a2 hz hb hc
  have p1 : 0 < w₁ := lt_of_le_of_lt (by split_ifs <;> norm_num) l0
  have hw : w₂ = w₃ := by
    have := FP.num.inj (Except.ok.inj (e2.symm.trans e3))
    have := Complex.ofReal_injective this
    have h0 : ((-1 : ℝ) ^ n) ≠ 0 := zpow_ne_zero _ (by norm_num)
    exact mul_left_cancel₀ (pos _ (h1.trans h2)).ne' (mul_left_cancel₀ h0 this)
  subst hw
  exact ⟨_, _, _, (tipd _ h1).trans e1, (tipd _ (h1.trans h2)).trans e2, tipc.trans e4, mul_pos (pos _ h1) p1,
    mul_lt_mul a12 l1.le p1 (pos _ (h1.trans h2)).le, mul_lt_mul a2 l4.le (p1.trans l1) hp3.le⟩

/-- Point dipole model: a known sample calibrates the tip. -/
theorem C115_calibrate (env : Env) (s : Stack (FP ℝ) (FP ℂ)) (b α : ℂ) (h : s.reflCoefQs = .ok (FP.num b)) (z r : ℝ)
    (hr : r + z ≠ 0) (hα : α ≠ 0) (v : ℂ)
    (hv : Pdm.effPol env s (some (FP.num z)) (tip r α) = .ok (FP.num v)) :
    α⁻¹ = v⁻¹ + b / (16 * Real.pi * (r + z) ^ 3) := by
  rw [Pdm.effPol_num env s _ z r α b (pdm_tip env r α) h hr] at hv
  by_cases h0 : 1 - Pdm.geom z r α * b = 0
  · rw [h0] at hv
    have := FP.num_div_zero α
    rw [this] at hv
    cases hv
  · rw [FP.num_div _ h0] at hv
    rw [← FP.num.inj (Except.ok.inj hv)]
    unfold Pdm.geom at *
    field_simp
    ring

/-! ## The finite dipole model -/

private theorem grow_eq {b f0 f1 e0 e1 : ℝ} (h1 : 1 - b * f1 ≠ 0) (h2 : 1 - b * (f1 + e1) ≠ 0) :
    (1 - b * (f1 + e1))⁻¹ * (b * (f0 + e0)) = (1 - b * f1)⁻¹ * (b * f0) + ((1 - b * (f1 + e1))⁻¹ * (b * e0) +
      (1 - b * f1)⁻¹ * ((1 - b * (f1 + e1))⁻¹ * (b * f0 * (b * e1)))) := by
  have e : b * e1 = (1 - b * f1) - (1 - b * (f1 + e1)) := by ring
  rw [e]
  generalize 1 - b * f1 = X at *
  generalize 1 - b * (f1 + e1) = Y at *
  field_simp
  ring

/-- A linear fractional function takes each value once. -/
private theorem fractional {b v g₁ g₂ p0 p1 k0 k1 lr : ℂ} (hb : b ≠ 0) (hlr : lr ≠ 0) (hk : k0 ≠ 0)
    (hd : lr ≠ b * ((p0 - p1) * k1))
    (h : ∀ g, g = g₁ ∨ g = g₂ → 1 - b * ((g - p1) * k1 / lr) ≠ 0 ∧
      v = 1 + b * ((g - p0) * k0 / lr) / (2 * (1 - b * ((g - p1) * k1 / lr)))) : g₁ = g₂ := by
  have m : ∀ g, g = g₁ ∨ g = g₂ → 2 * (v - 1) * (lr - b * (g - p1) * k1) = b * (g - p0) * k0 := by
    intro g hg
    obtain ⟨hn, he⟩ := h g hg
    have e1 : 2 * (v - 1) * (1 - b * ((g - p1) * k1 / lr)) = b * ((g - p0) * k0 / lr) := by
      rw [he]
      generalize 1 - b * ((g - p1) * k1 / lr) = E at *
      field_simp
      ring
    have e2 : (g - p1) * k1 / lr * lr = (g - p1) * k1 := div_mul_cancel₀ _ hlr
    have e3 : (g - p0) * k0 / lr * lr = (g - p0) * k0 := div_mul_cancel₀ _ hlr
    linear_combination lr * e1 + 2 * (v - 1) * b * e2 + b * e3
  have m1 := m g₁ (.inl rfl)
  have m2 := m g₂ (.inr rfl)
  by_contra hg
  have hg' : g₁ - g₂ ≠ 0 := sub_ne_zero.2 hg
  have m3 : k0 = -2 * (v - 1) * k1 := by
    have : (b * (g₁ - g₂)) * (k0 + 2 * (v - 1) * k1) = 0 := by linear_combination m2 - m1
    rcases mul_eq_zero.1 this with h | h
    · exact absurd h (mul_ne_zero hb hg')
    · linear_combination h
  have m4 : (v - 1) * (lr - b * ((p0 - p1) * k1)) = 0 := by
    rw [m3] at m1
    linear_combination m1 / 2
  rcases mul_eq_zero.1 m4 with h | h
  · rw [h] at m3
    exact hk (by simpa using m3)
  · exact hd (sub_eq_zero.1 h)

/-- The part of the geometry function that `g_factor` multiplies. -/
theorem log_alt {A d r l : ℝ} (hA : 0 ≤ A) (hr : 0 < r) (hd : 0 ≤ d) (hl : r < 4 * l) {S : Set ℝ}
    (hS : ∀ T ∈ S, 2 * A ≤ T ∧ r + 4 * T + 2 * d * r < 4 * l) {c : ℝ} (hc : 0 < c) :
    ∃ a, Alt (fun x => c * (Real.log (4 * l / (r + 4 * x + 2 * d * r)) / Real.log (4 * l / r))) (2 * A) S a ∧
      Alt.Strict S a := by
  have hl0 : 0 < l := by linarith
  have hdr : 0 ≤ d * r := by positivity
  have hlog : 0 < Real.log (4 * l / r) := Real.log_pos (by rw [one_lt_div hr]; exact hl)
  obtain ⟨h2, s2⟩ := Alt.log (A := 2 * A) (S := S) (c := (r + 2 * d * r) / 4) (m := Real.log l)
    (fun T hT => by have := (hS T hT).1; linarith) (by linarith) fun T hT => by
      obtain ⟨h1, h2⟩ := hS T hT
      exact Real.log_lt_log (by linarith) (by linarith)
  refine ⟨_, (h2.smul (div_pos hc hlog).le).congr fun T hT y hy => ?_, s2.smul (div_pos hc hlog)⟩
  have h4 : 0 ≤ T + y := by linarith [(hS T hT).1, neg_le_of_abs_le hy]
  have hden : 0 < T + y + (r + 2 * d * r) / 4 := by linarith
  have e2 : Real.log (4 * l / (r + 4 * (T + y) + 2 * d * r)) = Real.log l - Real.log (T + y + (r + 2 * d * r) / 4) := by
    rw [← Real.log_div hl0.ne' hden.ne']
    congr 1
    field_simp
    ring
  rw [e2]
  ring

/-- Finite dipole model: every harmonic grows with `g_factor`. -/
theorem C115_fdm (env : Env) (s : Stack (FP ℝ) (FP ℂ)) (hm : s.multilayer = false) (b : ℝ)
    (h : s.reflCoefQs = .ok (FP.num (b : ℂ))) (r l g₁ g₂ d0 d1 dA z A : ℝ) (hA : 0 < A) (nLag : Option ℕ) (n : ℤ) (N : ℕ)
    (hN : N ≠ 0) (r0 : InReach (z + 2 * A) d0 r l g₁) (r1 : InReach (z + 2 * A) d1 r l g₁) (hz : 0 ≤ z) (hg : g₁ < g₂)
    (hg2 : g₂ ≤ 1) (hb0 : 0 < b) (hb1 : b ≤ 1) :
    ∃ v₁ v₂ : ℝ,
      Fdm.effPolN env s (FP.num A) (FP.num n) (some (FP.num z)) (some N) (fdmTip r l g₁ d0 d1 dA) nLag (some "bulk") =
        .ok (FP.num (((-1 : ℝ) ^ n * v₁ : ℝ) : ℂ)) ∧
      Fdm.effPolN env s (FP.num A) (FP.num n) (some (FP.num z)) (some N) (fdmTip r l g₂ d0 d1 dA) nLag (some "bulk") =
        .ok (FP.num (((-1 : ℝ) ^ n * v₂ : ℝ) : ℂ)) ∧
      (if (N : ℤ) ∣ n then 1 else 0) < v₁ ∧ v₁ < v₂ := by
  have hl : 0 < l := by linarith [r0.r_pos, r0.long]
  have up : ∀ d, InReach (z + 2 * A) d r l g₁ → InReach (z + 2 * A) d r l g₂ := fun d h =>
    ⟨h.r_pos, h.long, h.d_nonneg, h.z_nonneg, hg2, h.below.trans (by nlinarith), h.short⟩
  obtain ⟨a0, h0, s0⟩ := rgeom_alt hA.le (S := {z + 2 * A}) (d := d0) (r := r) (l := l) (g := g₁)
    fun T hT => by rw [hT]; exact ⟨by linarith, r0⟩
  obtain ⟨a1, h1, -⟩ := rgeom_alt hA.le (S := {z + 2 * A}) (d := d1) (r := r) (l := l) (g := g₁)
    fun T hT => by rw [hT]; exact ⟨by linarith, r1⟩
  obtain ⟨c0, k0, t0⟩ := log_alt hA.le r0.r_pos r0.d_nonneg r0.long (S := {z + 2 * A})
    (fun T hT => by rw [hT]; exact ⟨by linarith, r0.short⟩) (sub_pos.2 hg)
  obtain ⟨c1, k1, -⟩ := log_alt hA.le r1.r_pos r1.d_nonneg r1.long (S := {z + 2 * A})
    (fun T hT => by rw [hT]; exact ⟨by linarith, r1.short⟩) (sub_pos.2 hg)
  have split : ∀ x d, rgeom x d r l g₁ + (g₂ - g₁) * (Real.log (4 * l / (r + 4 * x + 2 * d * r)) / Real.log (4 * l / r)) =
      rgeom x d r l g₂ := fun x d => by
    unfold rgeom
    ring
  have lt1 : ∀ g, InReach (z + 2 * A) d1 r l g → ∀ x, z ≤ x → x ≤ z + 2 * A → b * rgeom x d1 r l g < 1 :=
    fun g hi x hx hx' => by
      have hi' := hi.closer (z₂ := x) (by linarith) hx'
      have := rgeom_lt_one hi'
      have := rgeom_pos hi'
      nlinarith
  obtain ⟨e, he, hes⟩ := Alt.resonance h0 s0 h1 (by linarith : 0 < 2 * A) hb0 fun T hT => by
    rw [hT]
    exact lt1 g₁ r1 _ (by linarith) (by linarith)
  obtain ⟨e', he', hes'⟩ := Alt.grow h0 h1 k0 t0 k1 (by linarith : 0 < 2 * A) hb0
    (fun T hT => by rw [hT]; exact lt1 g₁ r1 _ (by linarith) (by linarith))
    (fun T hT => by rw [hT, split]; exact lt1 g₂ (up _ r1) _ (by linarith) (by linarith))
  obtain ⟨D, hD⟩ := he.harmonics hes hA hN
  obtain ⟨E, hE⟩ := he'.harmonics hes' hA hN
  obtain ⟨p1, p2, -, -⟩ := hD z rfl
  obtain ⟨q1, q2, -, -⟩ := hE z rfl
  have val : ∀ g, InReach (z + 2 * A) d0 r l g → InReach (z + 2 * A) d1 r l g →
      Fdm.effPolN env s (FP.num A) (FP.num n) (some (FP.num z)) (some N) (fdmTip r l g d0 d1 dA) nLag (some "bulk") =
        .ok (FP.num (demodSum (fun x => 1 + 1 / 2 * (((1 - b * rgeom x d1 r l g)⁻¹ * (b * rgeom x d0 r l g) : ℝ) : ℂ))
          (z + A) A n N)) := fun g i0 i1 => by
    rw [effPolN_num env s hm b h z r l g d0 d1 dA (i0.closer hz (by linarith)).ok (i1.closer hz (by linarith)).ok A hA.le _
      nLag n N hN]
    · congr 3
      funext x
      rw [geom_rgeom, geom_rgeom]
      push_cast
      rw [div_eq_mul_inv, mul_inv]
      ring
    · intro x hx1 hx2 heq
      rw [geom_rgeom] at heq
      have : b * rgeom x d1 r l g = 1 := by exact_mod_cast heq
      linarith [lt1 g i1 x hx1 hx2]
  have e1 : demodSum (fun x => (((1 - b * rgeom x d1 r l g₂)⁻¹ * (b * rgeom x d0 r l g₂) : ℝ) : ℂ)) (z + A) A n N =
      (-1 : ℂ) ^ n * ((D z n + E z n : ℝ) : ℂ) := by
    rw [Complex.ofReal_add, mul_add, ← p1 n, ← q1 n]
    rw [demodSum_congr hA.le _ N (g' := fun x => (((1 - b * rgeom x d1 r l g₁)⁻¹ * (b * rgeom x d0 r l g₁) : ℝ) : ℂ) +
      (((1 - b * (rgeom x d1 r l g₁ + (g₂ - g₁) * (Real.log (4 * l / (r + 4 * x + 2 * d1 * r)) / Real.log (4 * l / r))))⁻¹ *
        (b * ((g₂ - g₁) * (Real.log (4 * l / (r + 4 * x + 2 * d0 * r)) / Real.log (4 * l / r)))) +
      (1 - b * rgeom x d1 r l g₁)⁻¹ * ((1 - b * (rgeom x d1 r l g₁ + (g₂ - g₁) *
        (Real.log (4 * l / (r + 4 * x + 2 * d1 * r)) / Real.log (4 * l / r))))⁻¹ * (b * rgeom x d0 r l g₁ *
        (b * ((g₂ - g₁) * (Real.log (4 * l / (r + 4 * x + 2 * d1 * r)) / Real.log (4 * l / r)))))) : ℝ) : ℂ))]
    · exact demodSum_add _ _ _ _ _ _
    · intro x hx1 hx2
      have u1 := lt1 g₁ r1 x (by linarith) (by linarith)
      have u2 := lt1 g₂ (up _ r1) x (by linarith) (by linarith)
      rw [← Complex.ofReal_add, ← split x d0]
      congr 1
      rw [← split x d1] at u2
      rw [← split x d1]
      exact grow_eq (by linarith) (by linarith)
  refine ⟨(if (N : ℤ) ∣ n then 1 else 0) + D z n / 2, (if (N : ℤ) ∣ n then 1 else 0) + (D z n + E z n) / 2, ?_, ?_, ?_, ?_⟩
  · rw [val g₁ r0 r1, demodSum_affine, p1 n, demodSum_one _ _ _ hN]
    push_cast
    congr 2
    ring
  · rw [val g₂ (up _ r0) (up _ r1), demodSum_affine, e1, demodSum_one _ _ _ hN]
    push_cast
    congr 2
    ring
  · linarith [p2 n]
  · linarith [q2 n]

theorem rgeom_long {z d r l₁ l₂ g : ℝ} (h : InReach z d r l₁ g) (hl : l₁ < l₂) :
    rgeom z d r l₁ g < rgeom z d r l₂ g ∧ InReach z d r l₂ g := by
  have hr := h.r_pos
  have hl1 : 0 < l₁ := by linarith [h.long]
  have hl2 : 0 < l₂ := hl1.trans hl
  have hdr : 0 ≤ d * r := mul_nonneg h.d_nonneg hr.le
  have hz := h.z_nonneg
  have hg : 0 < g := by
    by_contra h0
    have := h.below
    nlinarith
  refine ⟨?_, ⟨hr, by linarith [h.long], h.d_nonneg, hz, h.g_le, h.below.trans (by nlinarith), by linarith [h.short]⟩⟩
  have hy : r ≤ r + 4 * z + 2 * d * r := by linarith
  have hy0 : 0 < r + 4 * z + 2 * d * r := by linarith
  have hs := h.short
  have hlong := h.long
  have hbelow := h.below
  unfold rgeom
  rw [Real.log_div (by positivity) hy0.ne', Real.log_div (by positivity) hy0.ne', Real.log_div (by positivity) hr.ne',
    Real.log_div (by positivity) hr.ne', mul_div_assoc, mul_div_assoc]
  have k1 := Real.log_lt_log hy0 hs
  have k2 := Real.log_lt_log (by linarith : 0 < 4 * l₁) (by linarith : 4 * l₁ < 4 * l₂)
  have k3 := Real.log_le_log hr hy
  generalize Real.log (r + 4 * z + 2 * d * r) = Y at *
  generalize Real.log r = X at *
  generalize Real.log (4 * l₁) = P at *
  generalize Real.log (4 * l₂) = Q at *
  refine mul_lt_mul ?_ ?_ (div_pos (by linarith) (by linarith)) ?_
  · refine sub_lt_sub_left (div_lt_div_of_pos_left (by linarith) (by linarith) (by linarith)) _
  · rw [div_le_div_iff₀ (by linarith) (by linarith)]
    nlinarith
  · rw [sub_nonneg, div_le_iff₀ (by linarith)]
    nlinarith

/-- Finite dipole model: a longer tip is more polarizable. -/
theorem C115_length (env : Env) (s : Stack (FP ℝ) (FP ℂ)) (hm : s.multilayer = false) (b : ℝ)
    (h : s.reflCoefQs = .ok (FP.num (b : ℂ))) (r l₁ l₂ g d0 d1 dA z : ℝ) (nLag : Option ℕ)
    (r0 : InReach z d0 r l₁ g) (r1 : InReach z d1 r l₁ g) (hl : l₁ < l₂) (hb0 : 0 < b) (hb1 : b ≤ 1) :
    ∃ v₁ v₂ : ℝ,
      Fdm.effPol env s (some (FP.num z)) (fdmTip r l₁ g d0 d1 dA) nLag (some "bulk") = .ok (FP.num (v₁ : ℂ)) ∧
      Fdm.effPol env s (some (FP.num z)) (fdmTip r l₂ g d0 d1 dA) nLag (some "bulk") = .ok (FP.num (v₂ : ℂ)) ∧
      1 < v₁ ∧ v₁ < v₂ := by
  obtain ⟨i0, r0'⟩ := rgeom_long r0 hl
  obtain ⟨i1, r1'⟩ := rgeom_long r1 hl
  have p0 := rgeom_pos r0
  have p1 := rgeom_pos r1
  have q1 := rgeom_lt_one r1'
  have val : ∀ l, InReach z d0 r l g → InReach z d1 r l g → 1 - b * rgeom z d1 r l g ≠ 0 →
      Fdm.effPol env s (some (FP.num z)) (fdmTip r l g d0 d1 dA) nLag (some "bulk") =
        .ok (FP.num ((1 + b * rgeom z d0 r l g / (2 * (1 - b * rgeom z d1 r l g)) : ℝ) : ℂ)) := fun l j0 j1 hne => by
    rw [effPol_val env s hm b h z r l g d0 d1 dA j0.ok j1.ok _ nLag]
    · rw [geom_rgeom, geom_rgeom]
      push_cast
      rfl
    · rw [geom_rgeom]
      exact_mod_cast hne
  have n2 : 0 < 1 - b * rgeom z d1 r l₂ g := by nlinarith
  have n12 : 1 - b * rgeom z d1 r l₂ g < 1 - b * rgeom z d1 r l₁ g := by nlinarith
  refine ⟨_, _, val l₁ r0 r1 (by linarith), val l₂ r0' r1' n2.ne', ?_, ?_⟩
  · have : 0 < b * rgeom z d0 r l₁ g / (2 * (1 - b * rgeom z d1 r l₁ g)) := div_pos (mul_pos hb0 p0) (by linarith)
    linarith
  · refine add_lt_add_right (div_lt_div₀ (mul_lt_mul_of_pos_left i0 hb0) (by linarith) (mul_nonneg hb0.le (p0.trans i0).le)
      (by linarith)) _

/-- Finite dipole model: a known sample calibrates `g_factor`. -/
theorem C115_calibrate_g (env : Env) (s : Stack (FP ℝ) (FP ℂ)) (hm : s.multilayer = false) (b : ℂ)
    (h : s.reflCoefQs = .ok (FP.num b)) (r l d0 d1 dA z : ℝ) (g₁ g₂ : ℂ) (nLag : Option ℕ) (h0 : Fdm.GeomOk z d0 r l)
    (h1 : Fdm.GeomOk z d1 r l) (hb : b ≠ 0) (hl0 : r + 4 * z + 2 * d0 * r ≠ 4 * l)
    (hd : (2 * l : ℂ) * Real.log (4 * l / r) ≠ b * ((d0 - d1) * r * Real.log (4 * l / (r + 4 * z + 2 * d1 * r)))) (v : ℂ)
    (hv₁ : Fdm.effPol env s (some (FP.num z)) (fdmTip r l g₁ d0 d1 dA) nLag (some "bulk") = .ok (FP.num v))
    (hv₂ : Fdm.effPol env s (some (FP.num z)) (fdmTip r l g₂ d0 d1 dA) nLag (some "bulk") = .ok (FP.num v)) : g₁ = g₂ := by
  have fin : ∀ g, Fdm.effPol env s (some (FP.num z)) (fdmTip r l g d0 d1 dA) nLag (some "bulk") = .ok (FP.num v) →
      1 - b * Fdm.geom z d1 r l g ≠ 0 ∧ v = 1 + b * Fdm.geom z d0 r l g / (2 * (1 - b * Fdm.geom z d1 r l g)) := by
    intro g hv
    have hne : 1 - b * Fdm.geom z d1 r l g ≠ 0 := by
      intro h00
      rw [Fdm.effPol_bulk env s hm, h, PyM.ok_bind, fdm_fdmTip] at hv
      simp only [Option.getD_some] at hv
      rw [Fdm.geomFunc_num h0, Fdm.geomFunc_num h1] at hv
      unfold Fdm.effPolFormula at hv
      simp [sclit, h00, FP.num_div_zero] at hv
    rw [effPol_val env s hm b h z r l g d0 d1 dA h0 h1 hne nLag] at hv
    exact ⟨hne, (FP.num.inj (Except.ok.inj hv)).symm⟩
  have hl : (l : ℂ) ≠ 0 := by exact_mod_cast h0.l_pos.ne'
  refine fractional (v := v) (p0 := ((r + 2 * z + d0 * r) / (2 * l) : ℝ)) (p1 := ((r + 2 * z + d1 * r) / (2 * l) : ℝ))
    (k0 := Real.log (4 * l / (r + 4 * z + 2 * d0 * r))) (k1 := Real.log (4 * l / (r + 4 * z + 2 * d1 * r)))
    (lr := Real.log (4 * l / r)) hb (by exact_mod_cast Fdm.log_ne h0.r_pos h0.l_pos h0.ne)
    (by exact_mod_cast Fdm.log_ne h0.den h0.l_pos hl0) (fun h2 => hd ?_) ?_
  · rw [h2]
    push_cast
    field_simp
    ring
  · rintro g (rfl | rfl)
    · exact fin _ hv₁
    · exact fin _ hv₂

/-! ## Examples -/

example (env : Env) (n : ℝ) := C115_exchange env (bulk 1 3) (bulk 1 2) (1 / 2) (1 / 3) 2 3
  (by rw [C09_refl] <;> norm_num) (by rw [C09_refl] <;> norm_num) (by norm_num) 0 1 1 (by norm_num) (by norm_num)
  (fun x hx _ h => by
    have h : (2 * (1 / 2) : ℝ) = 16 * Real.pi * (1 + x) ^ 3 := by
      apply Complex.ofReal_injective
      push_cast
      simpa using h
    have := Real.two_le_pi
    have : 1 ≤ (1 + x) ^ 3 := one_le_pow₀ (by linarith)
    nlinarith) n 7 (by norm_num)

example (env : Env) (n : ℤ) := C115_pdm env (bulk 1 3) (1 / 2) (by rw [C09_refl] <;> norm_num) 1 1 2 0 1 one_pos n 7
  (by norm_num) one_pos one_lt_two (by norm_num) (by norm_num) (by have := Real.two_le_pi; norm_num; linarith)

example (env : Env) (n : ℤ) := C115_sphere env (bulk 1 3) (1 / 2) (by rw [C09_refl] <;> norm_num) (some 1) 2 3 0 1 1 rfl
  one_pos n 7 (by norm_num) (by norm_num) (by norm_num) one_pos (by norm_num) (by norm_num) (by norm_num)

example (env : Env) := C115_calibrate env (bulk 1 3) (1 / 2) 1 (by rw [C09_refl] <;> norm_num) 0 1 (by norm_num)
  one_ne_zero _ (Pdm.effPol_val env _ _ 0 1 1 (1 / 2) (pdm_tip env 1 1) (by rw [C09_refl] <;> norm_num) (by norm_num) (by
    unfold Pdm.geom
    intro h
    have h : 1 - 1 / (16 * Real.pi * (1 + 0) ^ 3) * (1 / 2 : ℝ) = 0 := by
      apply Complex.ofReal_injective
      push_cast
      simpa using h
    have hp := Real.two_le_pi
    rw [sub_eq_zero, eq_comm, div_mul_eq_mul_div, div_eq_iff (by positivity)] at h
    norm_num at h
    linarith))

example (env : Env) (n : ℤ) := C115_fdm env (bulk 1 3) rfl (1 / 2) (by rw [C09_refl] <;> norm_num) 1 15 (6 / 10) (7 / 10)
  1 (1 / 2) 1 1 1 one_pos none n 7 (by norm_num) (by constructor <;> norm_num) (by constructor <;> norm_num) zero_le_one
  (by norm_num) (by norm_num) (by norm_num) (by norm_num)

example (env : Env) := C115_length env (bulk 1 3) rfl (1 / 2) (by rw [C09_refl] <;> norm_num) 1 15 16 (7 / 10)
  1 (1 / 2) 1 1 none (by constructor <;> norm_num) (by constructor <;> norm_num) (by norm_num) (by norm_num) (by norm_num)

/-- Two charges at the same depth: the condition `hd` holds for every sample. -/
example (env : Env) (g : ℂ) (v : ℂ)
    (hv : Fdm.effPol env (bulk 1 3) (some (FP.num 1)) (fdmTip 1 15 g 1 1 1) none (some "bulk") = .ok (FP.num v)) :=
  C115_calibrate_g env (bulk 1 3) rfl (1 / 2) (by rw [C09_refl] <;> norm_num) 1 15 1 1 1 1 g g none
    (by constructor <;> norm_num) (by constructor <;> norm_num) (by norm_num) (by norm_num) (by
      have : Real.log (4 * 15 / 1) ≠ 0 := Fdm.log_ne one_pos (by norm_num) (by norm_num)
      simpa using this) v hv hv

end Snompy.Props
