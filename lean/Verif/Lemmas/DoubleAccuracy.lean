import Verif.Lemmas.DoubleLayer
import Verif.Lemmas.Qs

/-!
# Accuracy of the quasistatic coefficients in double precision
-/

namespace Snompy

variable {L : Libm}

attribute [local irreducible] maxDouble uro eta

theorem genNorm_growth (q : ℝ) (env : ℂ) (layers : List (ℂ × ℝ)) (sub : ℂ) :
    Arith.genNorm env (layers.map fun l => (l.1, clipped (q * l.2))) sub = growth q env layers sub := by
  induction layers generalizing env with
  | nil => rfl
  | cons l ls ih => simp only [List.map_cons, Arith.genNorm, growth, ih]

theorem Moderate.ne_zero {e : ℂ} (h : Moderate e) : e ≠ 0 := by
  rintro rfl
  have := h.1
  rw [norm_zero] at this
  exact absurd this (not_le.2 (by positivity))

/-- The exact coefficients determine the relevant entries of the matrix. -/
theorem coefs_of_ok {env : ℂ} {layers : List (ℂ × ℝ)} {sub : ℂ} {nu : Option ℝ} {q : ℝ} {r τ : ℂ}
    (hL : ∀ l ∈ layers, l.1 ≠ 0) (hs : sub ≠ 0)
    (hr : (layered env layers sub nu).reflCoefQs (FP.num q) = .ok (FP.num r))
    (ht : (layered env layers sub nu).transCoefQs (FP.num q) = .ok (FP.num τ)) :
    qsMat q env layers sub 0 0 ≠ 0 ∧ r = qsMat q env layers sub 1 0 / qsMat q env layers sub 0 0 ∧
      τ = 1 / qsMat q env layers sub 0 0 := by
  have h0 : qsMat q env layers sub 0 0 ≠ 0 := by
    intro h0
    rw [reflCoefQs_eq _ _ _ _ _ hL hs, h0, num_div_zero] at hr
    cases hr
  rw [reflCoefQs_num _ _ _ _ _ hL hs h0] at hr
  rw [transCoefQs_num _ _ _ _ _ hL hs h0] at ht
  injection hr with hr
  injection hr with hr
  injection ht with ht
  injection ht with ht
  exact ⟨h0, hr.symm, ht.symm⟩

namespace Arith

variable {C : Type} [CplxOps (F64 L) ℤ C] (A : Arith L C)

theorem accuracy (emb : ℂ → C) (env : ℂ) (layers : List (ℂ × ℝ)) (sub : ℂ) (q : ℝ) (r τ : ℂ)
    (hv : ∀ e ∈ env :: (layers.map Prod.fst ++ [sub]), A.Val (emb e) e ∧ Moderate e)
    (hr : (layered env layers sub).reflCoefQs (FP.num q) = .ok (FP.num r))
    (ht : (layered env layers sub).transCoefQs (FP.num q) = .ok (FP.num τ))
    (hmax : growth q env layers sub * (1 + roundoff (2 * A.kdiv + 50) q layers) * A.room ≤ maxDouble)
    (hκ : 4 * (growth q env layers sub * ‖τ‖ * roundoff (2 * A.kdiv + 50) q layers) ≤ 1) :
    (∃ c z, (layeredWith (L := L) emb env layers sub).reflCoefQs (.fin q) = .ok c ∧ A.Val c z ∧
      ‖z - r‖ ≤ 3 * (growth q env layers sub * ‖τ‖) * roundoff (2 * A.kdiv + 50) q layers * (1 + ‖r‖)) ∧
    (∃ c z, (layeredWith (L := L) emb env layers sub).transCoefQs (.fin q) = .ok c ∧ A.Val c z ∧
      ‖z - τ‖ ≤ 3 * (growth q env layers sub * ‖τ‖) * roundoff (2 * A.kdiv + 50) q layers * ‖τ‖ + uro ^ 3) := by
  have hL : ∀ l ∈ layers, l.1 ≠ 0 := fun l hl =>
    (hv l.1 (List.mem_cons_of_mem _ (List.mem_append_left _ (List.mem_map_of_mem hl)))).2.ne_zero
  have hs : sub ≠ 0 := (hv sub (by simp)).2.ne_zero
  obtain ⟨h0, rfl, rfl⟩ := coefs_of_ok hL hs hr ht
  have hpos : 0 < ‖qsMat q env layers sub 0 0‖ := norm_pos_iff.2 h0
  have hρ := A.rho_le q layers
  have hg := A.genRho_ge (layers.map fun l => |clip64 (q * l.2) - clipped (q * l.2)|) (by
    intro d hd
    obtain ⟨a, -, rfl⟩ := List.mem_map.1 hd
    exact abs_nonneg _)
  have hu := uro_pos
  have hT := A.rhoT_ge
  have hN := genNorm_ge env (layers.map fun l => (l.1, clipped (q * l.2))) sub
  rw [genNorm_growth] at hN
  have hTρ : A.rhoT ≤ 1 + roundoff (2 * A.kdiv + 50) q layers := by
    refine le_trans ?_ hρ
    rw [mul_assoc]
    exact le_mul_of_one_le_right (by linarith) (one_le_mul_of_one_le_of_one_le (by linarith) hg)
  have hroom : growth q env layers sub * (1 + roundoff (2 * A.kdiv + 50) q layers) ≤ maxDouble := by
    refine le_trans ?_ hmax
    exact le_mul_of_one_le_right (mul_nonneg (by linarith) (by linarith)) A.room_ge
  obtain ⟨X, hX, hnear⟩ := A.near_transfer emb env layers sub q (fun l => clipped (q * l.2)) hv (by
    rw [genNorm_growth]
    exact (mul_le_mul_of_nonneg_left hρ (by linarith)).trans hroom)
  rw [genNorm_growth] at hnear
  have hnear' := A.near_mono hnear hρ
  have hτ : ‖1 / qsMat q env layers sub 0 0‖ = 1 / ‖qsMat q env layers sub 0 0‖ := by rw [norm_div, norm_one]
  have hdiv : growth q env layers sub * ‖1 / qsMat q env layers sub 0 0‖ =
      growth q env layers sub / ‖qsMat q env layers sub 0 0‖ := by rw [hτ, mul_one_div]
  rw [hdiv] at hκ ⊢
  obtain ⟨⟨z, hz, ez⟩, ⟨w, hw, ew⟩⟩ := A.near_coefs hnear' hTρ (by
    rw [add_sub_cancel_left]
    rw [div_mul_eq_mul_div, ← mul_div_assoc, div_le_one hpos] at hκ
    exact hκ) hmax
  rw [add_sub_cancel_left] at ez ew
  refine ⟨⟨_, z, ?_, hz, ez⟩, ⟨_, w, ?_, hw, ew⟩⟩
  · unfold Stack.reflCoefQs
    rw [hX]
    rfl
  · unfold Stack.transCoefQs
    rw [hX]
    rfl

end Arith

theorem layeredF64_with (env : ℝ) (layers : List (ℝ × ℝ)) (sub : ℝ) :
    layeredF64 L env layers sub =
      Arith.layeredWith (fun z => .fin z.re) env (layers.map fun l => ((l.1 : ℂ), l.2)) sub := by
  simp [layeredF64, Arith.layeredWith, Function.comp_def]

theorem layeredC128_with (env : ℂ) (layers : List (ℂ × ℝ)) (sub : ℂ) :
    layeredC128 L env layers sub = Arith.layeredWith (C128.mk' L) env layers sub := rfl

/-- Both arithmetics at once, for real permittivities in complex arrays. -/
theorem layeredC128_real (env : ℝ) (layers : List (ℝ × ℝ)) (sub : ℝ) :
    layeredC128 L env (layers.map fun l => ((l.1 : ℂ), l.2)) sub =
      Arith.layeredWith (C128.mk' L) env (layers.map fun l => ((l.1 : ℂ), l.2)) sub := rfl

end Snompy
