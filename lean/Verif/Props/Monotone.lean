import Verif.Props.Fdm

/-!
# C68: approach curves and contrast are monotone
-/

namespace Snompy.Props

open Snompy

/-! ## C68 Closer and more polarizable means a larger signal -/

/-- `b f / (1 - b f)`-like expressions grow with both factors. -/
private theorem frac_lt {x₁ x₂ y₁ y₂ : ℝ} (hx : x₁ < x₂) (hy : y₁ ≤ y₂) (hx2 : 0 < x₂) (h2 : y₂ < 1) :
    x₁ / (1 - y₁) < x₂ / (1 - y₂) := by
  rw [div_lt_div_iff₀ (by linarith) (by linarith)]
  nlinarith

/-- Point dipole model: a smaller distance or a larger reflection coefficient gives a larger effective polarizability,
as long as the resonance is not reached. -/
theorem C68_pdm (env : Env) (s₁ s₂ : Stack (FP ℝ) (FP ℂ)) (b₁ b₂ : ℝ) (h₁ : s₁.reflCoefQs = .ok (FP.num (b₁ : ℂ)))
    (h₂ : s₂.reflCoefQs = .ok (FP.num (b₂ : ℂ))) (r α z₁ z₂ : ℝ) (hα : 0 < α) (hz : z₂ ≤ z₁) (hr : 0 < r + z₂)
    (hb0 : 0 < b₁) (hb : b₁ ≤ b₂) (hlt : b₁ < b₂ ∨ z₂ < z₁) (hres : α * b₂ < 16 * Real.pi * (r + z₂) ^ 3) :
    ∃ v₁ v₂ : ℝ, Pdm.effPol env s₁ (some (FP.num z₁)) (tip r α) = .ok (FP.num (v₁ : ℂ)) ∧
      Pdm.effPol env s₂ (some (FP.num z₂)) (tip r α) = .ok (FP.num (v₂ : ℂ)) ∧ α < v₁ ∧ v₁ < v₂ := by
  have hpi := Real.pi_pos
  have hg : ∀ (z b : ℝ), (1 - Pdm.geom z r α * b : ℂ) = ((1 - α / (16 * Real.pi * (r + z) ^ 3) * b : ℝ) : ℂ) := by
    intro z b
    unfold Pdm.geom
    push_cast
    rfl
  have hk2 : 0 < 16 * Real.pi * (r + z₂) ^ 3 := by positivity
  have hk1 : 16 * Real.pi * (r + z₂) ^ 3 ≤ 16 * Real.pi * (r + z₁) ^ 3 := by
    have : (r + z₂) ^ 3 ≤ (r + z₁) ^ 3 := by gcongr
    gcongr
  have hk1' : z₂ < z₁ → 16 * Real.pi * (r + z₂) ^ 3 < 16 * Real.pi * (r + z₁) ^ 3 := by
    intro h
    have : (r + z₂) ^ 3 < (r + z₁) ^ 3 := by gcongr
    gcongr
  obtain ⟨k₁, hk₁⟩ : ∃ k, k = 16 * Real.pi * (r + z₁) ^ 3 := ⟨_, rfl⟩
  obtain ⟨k₂, hk₂⟩ : ∃ k, k = 16 * Real.pi * (r + z₂) ^ 3 := ⟨_, rfl⟩
  rw [← hk₂] at hk2 hk1 hk1' hres
  rw [← hk₁] at hk1 hk1'
  have hk0 : 0 < k₁ := lt_of_lt_of_le hk2 hk1
  have hlt' : α / k₁ * b₁ < α / k₂ * b₂ := by
    rw [div_mul_eq_mul_div, div_mul_eq_mul_div, div_lt_div_iff₀ hk0 hk2, mul_assoc, mul_assoc]
    apply mul_lt_mul_of_pos_left _ hα
    rcases hlt with h | h
    · calc b₁ * k₂ < b₂ * k₂ := by gcongr
        _ ≤ b₂ * k₁ := by
          have : 0 < b₂ := lt_trans hb0 h
          gcongr
    · calc b₁ * k₂ < b₁ * k₁ := by
            have := hk1' h
            gcongr
        _ ≤ b₂ * k₁ := by gcongr
  have hy : α / k₂ * b₂ < 1 := by
    rw [div_mul_eq_mul_div, div_lt_one hk2]
    exact hres
  have hpos : 0 < α / k₁ * b₁ := by positivity
  refine ⟨α / (1 - α / k₁ * b₁), α / (1 - α / k₂ * b₂), ?_, ?_, ?_, ?_⟩
  · rw [Pdm.effPol_val env s₁ _ z₁ r α b₁ (pdm_tip env r α) h₁ (by linarith), hg, ← hk₁]
    · push_cast
      rfl
    · rw [hg, ← hk₁]
      exact_mod_cast (by linarith : (0 : ℝ) < 1 - α / k₁ * b₁).ne'
  · rw [Pdm.effPol_val env s₂ _ z₂ r α b₂ (pdm_tip env r α) h₂ hr.ne', hg, ← hk₂]
    · push_cast
      rfl
    · rw [hg, ← hk₂]
      exact_mod_cast (by linarith : (0 : ℝ) < 1 - α / k₂ * b₂).ne'
  · rw [lt_div_iff₀ (by linarith)]
    nlinarith
  · apply div_lt_div_of_pos_left hα <;> linarith

example (env : Env) := C68_pdm env (bulk 1 3) (bulk 1 3) (1 / 2) (1 / 2)
  (by rw [C09_refl] <;> norm_num) (by rw [C09_refl] <;> norm_num) 1 1 1 0 one_pos
  zero_le_one (by norm_num) (by norm_num) le_rfl (Or.inr one_pos) (by have := Real.two_le_pi; norm_num; linarith)

/-- What the geometry function of the finite dipole model needs to be positive at a distance `z`, for a tip that is
longer than its radius and has a factor `g` of at most 1. -/
structure InReach (z d r l g : ℝ) : Prop where
  r_pos : 0 < r
  long : r < 4 * l
  d_nonneg : 0 ≤ d
  z_nonneg : 0 ≤ z
  g_le : g ≤ 1
  below : r + 2 * z + d * r < 2 * l * g
  short : r + 4 * z + 2 * d * r < 4 * l

/-- The geometry function as a real number. -/
noncomputable def rgeom (z d r l g : ℝ) : ℝ :=
  (g - (r + 2 * z + d * r) / (2 * l)) * Real.log (4 * l / (r + 4 * z + 2 * d * r)) / Real.log (4 * l / r)

theorem geom_rgeom (z d r l g : ℝ) : Fdm.geom z d r l g = (rgeom z d r l g : ℂ) := by
  unfold Fdm.geom rgeom
  push_cast
  rfl

theorem rgeom_anti {z₁ z₂ d r l g : ℝ} (h : InReach z₁ d r l g) (h0 : 0 ≤ z₂) (hz : z₂ < z₁) :
    rgeom z₁ d r l g < rgeom z₂ d r l g := by
  have hr := h.r_pos
  have hl : 0 < l := by linarith [h.long]
  have hd := h.d_nonneg
  have hz1 := h.z_nonneg
  have hden : 0 < r + 4 * z₂ + 2 * d * r := by positivity
  have hden1 : 0 < r + 4 * z₁ + 2 * d * r := by positivity
  have hlog : 0 < Real.log (4 * l / r) := Real.log_pos (by rw [one_lt_div hr]; exact h.long)
  have hlog1 : 0 < Real.log (4 * l / (r + 4 * z₁ + 2 * d * r)) :=
    Real.log_pos (by rw [one_lt_div hden1]; exact h.short)
  have hlog2 : Real.log (4 * l / (r + 4 * z₁ + 2 * d * r)) < Real.log (4 * l / (r + 4 * z₂ + 2 * d * r)) := by
    apply Real.log_lt_log (by positivity)
    gcongr
  have hA : 0 < g - (r + 2 * z₁ + d * r) / (2 * l) := by
    rw [sub_pos, div_lt_iff₀ (by positivity)]
    linarith [h.below]
  have hA2 : g - (r + 2 * z₁ + d * r) / (2 * l) < g - (r + 2 * z₂ + d * r) / (2 * l) := by gcongr
  unfold rgeom
  rw [div_lt_div_iff_of_pos_right hlog]
  exact mul_lt_mul'' hA2 hlog2 hA.le hlog1.le

theorem rgeom_pos {z d r l g : ℝ} (h : InReach z d r l g) : 0 < rgeom z d r l g := by
  have hr := h.r_pos
  have hl : 0 < l := by linarith [h.long]
  have hd := h.d_nonneg
  have hz1 := h.z_nonneg
  have hden1 : 0 < r + 4 * z + 2 * d * r := by positivity
  have hlog : 0 < Real.log (4 * l / r) := Real.log_pos (by rw [one_lt_div hr]; exact h.long)
  have hlog1 : 0 < Real.log (4 * l / (r + 4 * z + 2 * d * r)) :=
    Real.log_pos (by rw [one_lt_div hden1]; exact h.short)
  have hA : 0 < g - (r + 2 * z + d * r) / (2 * l) := by
    rw [sub_pos, div_lt_iff₀ (by positivity)]
    linarith [h.below]
  unfold rgeom
  positivity

theorem rgeom_lt_one {z d r l g : ℝ} (h : InReach z d r l g) : rgeom z d r l g < 1 := by
  have hr := h.r_pos
  have hl : 0 < l := by linarith [h.long]
  have hd := h.d_nonneg
  have hz1 := h.z_nonneg
  have hden1 : 0 < r + 4 * z + 2 * d * r := by positivity
  have hlog : 0 < Real.log (4 * l / r) := Real.log_pos (by rw [one_lt_div hr]; exact h.long)
  have hlog1 : Real.log (4 * l / (r + 4 * z + 2 * d * r)) ≤ Real.log (4 * l / r) := by
    apply Real.log_le_log (by positivity)
    gcongr
    nlinarith [mul_nonneg hd hr.le]
  have hA1 : g - (r + 2 * z + d * r) / (2 * l) < 1 := by
    have : 0 < (r + 2 * z + d * r) / (2 * l) := by positivity
    linarith [h.g_le]
  unfold rgeom
  rw [div_lt_one hlog]
  have hA : 0 < g - (r + 2 * z + d * r) / (2 * l) := by
    rw [sub_pos, div_lt_iff₀ (by positivity)]
    linarith [h.below]
  calc _ ≤ (g - (r + 2 * z + d * r) / (2 * l)) * Real.log (4 * l / r) := by gcongr
    _ < 1 * Real.log (4 * l / r) := by gcongr
    _ = _ := one_mul _

theorem InReach.ok {z d r l g : ℝ} (h : InReach z d r l g) : Fdm.GeomOk z d r l := by
  have hr := h.r_pos
  have hl : 0 < l := by linarith [h.long]
  have hd := h.d_nonneg
  have hz1 := h.z_nonneg
  exact ⟨hr, hl, h.long.ne, by positivity⟩

theorem InReach.closer {z₁ z₂ d r l g : ℝ} (h : InReach z₁ d r l g) (h0 : 0 ≤ z₂) (hz : z₂ ≤ z₁) :
    InReach z₂ d r l g :=
  ⟨h.r_pos, h.long, h.d_nonneg, h0, h.g_le, by linarith [h.below], by linarith [h.short]⟩

/-- Finite dipole model, for dielectric samples (`0 < β ≤ 1`) and as long as the tip is in reach: a smaller distance or
a larger reflection coefficient gives a larger effective polarizability, and all are above the value 1 of the bare
tip. -/
theorem C68_fdm (env : Env) (s₁ s₂ : Stack (FP ℝ) (FP ℂ)) (m₁ : s₁.multilayer = false) (m₂ : s₂.multilayer = false)
    (b₁ b₂ : ℝ) (h₁ : s₁.reflCoefQs = .ok (FP.num (b₁ : ℂ))) (h₂ : s₂.reflCoefQs = .ok (FP.num (b₂ : ℂ)))
    (r l g d0 d1 dA z₁ z₂ : ℝ) (nLag : Option ℕ) (r0 : InReach z₁ d0 r l g) (r1 : InReach z₁ d1 r l g)
    (hz0 : 0 ≤ z₂) (hz : z₂ ≤ z₁) (hb0 : 0 < b₁) (hb : b₁ ≤ b₂) (hb1 : b₂ ≤ 1) (hlt : b₁ < b₂ ∨ z₂ < z₁) :
    ∃ v₁ v₂ : ℝ,
      Fdm.effPol env s₁ (some (FP.num z₁)) (fdmTip r l g d0 d1 dA) nLag (some "bulk") = .ok (FP.num (v₁ : ℂ)) ∧
      Fdm.effPol env s₂ (some (FP.num z₂)) (fdmTip r l g d0 d1 dA) nLag (some "bulk") = .ok (FP.num (v₂ : ℂ)) ∧
      1 < v₁ ∧ v₁ < v₂ := by
  have r0' := r0.closer hz0 hz
  have r1' := r1.closer hz0 hz
  have hb2 : 0 < b₂ := lt_of_lt_of_le hb0 hb
  have p0 := rgeom_pos r0
  have p0' := rgeom_pos r0'
  have p1 := rgeom_pos r1
  have p1' := rgeom_pos r1'
  have q1 : b₁ * rgeom z₁ d1 r l g < 1 := by
    have := rgeom_lt_one r1
    nlinarith
  have q1' : b₂ * rgeom z₂ d1 r l g < 1 := by
    have := rgeom_lt_one r1'
    nlinarith
  have val : ∀ (s : Stack (FP ℝ) (FP ℂ)) (_ : s.multilayer = false) (b z : ℝ)
      (_ : s.reflCoefQs = .ok (FP.num (b : ℂ))) (_ : InReach z d0 r l g) (_ : InReach z d1 r l g)
      (_ : b * rgeom z d1 r l g < 1),
      Fdm.effPol env s (some (FP.num z)) (fdmTip r l g d0 d1 dA) nLag (some "bulk") =
        .ok (FP.num ((1 + b * rgeom z d0 r l g / (1 - b * rgeom z d1 r l g) / 2 : ℝ) : ℂ)) := by
    intro s hm b z hs k0 k1 hq
    have hne : (1 : ℂ) - b * Fdm.geom z d1 r l g ≠ 0 := by
      rw [geom_rgeom]
      exact_mod_cast (sub_pos.2 hq).ne'
    rw [effPol_val env s hm b hs z r l g d0 d1 dA k0.ok k1.ok hne nLag, geom_rgeom, geom_rgeom]
    push_cast
    rw [div_div, mul_comm (1 - _ : ℂ) 2]
  refine ⟨_, _, val s₁ m₁ b₁ z₁ h₁ r0 r1 q1, val s₂ m₂ b₂ z₂ h₂ r0' r1' q1', ?_, ?_⟩
  · have := div_pos (mul_pos hb0 p0) (sub_pos.2 q1)
    linarith
  · have key : ∀ d, InReach z₁ d r l g → b₁ * rgeom z₁ d r l g < b₂ * rgeom z₂ d r l g := by
      intro d k
      have kp := rgeom_pos k
      have kp' := rgeom_pos (k.closer hz0 hz)
      rcases hz.eq_or_lt with e | e
      · subst e
        rcases hlt with h | h
        · gcongr
        · exact absurd h (lt_irrefl _)
      · have := rgeom_anti k hz0 e
        calc b₁ * rgeom z₁ d r l g < b₁ * rgeom z₂ d r l g := by gcongr
          _ ≤ _ := by gcongr
    have := frac_lt (key d0 r0) (key d1 r1).le (mul_pos hb2 p0') q1'
    linarith

/-- In terms of permittivities: dielectrics brighter than the environment are ordered by their permittivity. -/
theorem C68_contrast (env : Env) (e ε₁ ε₂ : ℝ) (he : 0 < e) (h1 : e < ε₁) (h2 : ε₁ < ε₂) (r l g d0 d1 dA z : ℝ)
    (nLag : Option ℕ) (r0 : InReach z d0 r l g) (r1 : InReach z d1 r l g) :
    ∃ v₁ v₂ : ℝ,
      Fdm.effPol env (bulk e ε₁) (some (FP.num z)) (fdmTip r l g d0 d1 dA) nLag (some "bulk") =
        .ok (FP.num (v₁ : ℂ)) ∧
      Fdm.effPol env (bulk e ε₂) (some (FP.num z)) (fdmTip r l g d0 d1 dA) nLag (some "bulk") =
        .ok (FP.num (v₂ : ℂ)) ∧ 1 < v₁ ∧ v₁ < v₂ := by
  have val : ∀ ε : ℝ, e < ε → (bulk e ε).reflCoefQs = .ok (FP.num (((ε - e) / (ε + e) : ℝ) : ℂ)) := by
    intro ε h
    rw [C09_refl]
    · push_cast
      rfl
    · exact_mod_cast (he.trans h).ne'
    · exact_mod_cast (by linarith : 0 < ε + e).ne'
  apply C68_fdm env _ _ rfl rfl _ _ (val ε₁ h1) (val ε₂ (h1.trans h2)) r l g d0 d1 dA z z nLag r0 r1 r0.z_nonneg le_rfl
  · apply div_pos <;> linarith
  · rw [div_le_div_iff₀ (by linarith) (by linarith)]
    nlinarith
  · rw [div_le_one (by linarith)]
    linarith
  · left
    rw [div_lt_div_iff₀ (by linarith) (by linarith)]
    nlinarith

example (env : Env) := C68_contrast env 1 3 5 one_pos (by norm_num) (by norm_num) 20 300 0.7 1 0.5 1.4 100 none
  ⟨by norm_num, by norm_num, by norm_num, by norm_num, by norm_num, by norm_num, by norm_num⟩
  ⟨by norm_num, by norm_num, by norm_num, by norm_num, by norm_num, by norm_num, by norm_num⟩

end Snompy.Props
