import Verif.Lemmas.DoubleExp
import Verif.Lemmas.GenMat

/-!
# Rounding errors in products of 2×2 matrices

The analysis is done once for any arithmetic with small relative errors (`Arith`) and applies to real and complex doubles.
-/

namespace Snompy

open Matrix

/-- An arithmetic in double precision: `Val a v` says that `a` is finite with value `v`; the operations commit
relative errors of a few units and underflow gradually. -/
structure Arith (L : Libm) (C : Type) [CplxOps (F64 L) ℤ C] where
  Val : C → ℂ → Prop
  /-- error of a division, in units of the roundoff -/
  kdiv : ℝ
  /-- head room needed by a division -/
  room : ℝ
  kdiv_ge : 1 ≤ kdiv
  kdiv_le : kdiv ≤ 128
  room_ge : 1 ≤ room
  room_le : room ≤ 4
  one : Val (clit 1) 1
  neg_one : Val (clit (-1)) (-1)
  real : ∀ x : ℝ, Val (CplxOps.ofR (F64.fin x)) x
  add : ∀ a b v w, Val a v → Val b w → (‖v‖ + ‖w‖) * (1 + 2 * uro) + 2 * eta ≤ maxDouble →
    ∃ z, Val (a + b) z ∧ ‖z - (v + w)‖ ≤ 2 * uro * (‖v‖ + ‖w‖) + 2 * eta
  mul : ∀ a b v w, Val a v → Val b w → ‖v‖ * ‖w‖ * (1 + 4 * uro) + 8 * eta ≤ maxDouble →
    ∃ z, Val (a * b) z ∧ ‖z - v * w‖ ≤ 4 * uro * (‖v‖ * ‖w‖) + 8 * eta
  half : ∀ a v, Val a v → ‖v‖ * (1 + 4 * uro) + 8 * eta ≤ maxDouble →
    ∃ z, Val (a / clit 2) z ∧ ‖z - v / 2‖ ≤ 4 * uro * ‖v / 2‖ + 8 * eta
  div : ∀ a b v w, Val a v → Val b w → (1 / 2) ^ 900 ≤ ‖w‖ → ‖v‖ * room ≤ maxDouble → ‖w‖ * room ≤ maxDouble →
    ‖v‖ / ‖w‖ * (1 + kdiv * uro) + uro ^ 3 ≤ maxDouble →
    ∃ z, Val (a / b) z ∧ ‖z - v / w‖ ≤ kdiv * uro * (‖v‖ / ‖w‖) + uro ^ 3
  prop : ∀ p : ℝ, Rep p → |p| ≤ expLimit → ∃ x y,
    Val (Stack.propagation 1 (-1) (ofR (F64.fin p) : C)).m00 x ∧ ‖x - Real.exp p‖ ≤ 8 * uro * Real.exp p + 8 * eta ∧
    Val (Stack.propagation 1 (-1) (ofR (F64.fin p) : C)).m01 0 ∧
    Val (Stack.propagation 1 (-1) (ofR (F64.fin p) : C)).m10 0 ∧
    Val (Stack.propagation 1 (-1) (ofR (F64.fin p) : C)).m11 y ∧ ‖y - Real.exp (-p)‖ ≤ 8 * uro * Real.exp (-p) + 8 * eta

theorem uro_lt : uro < 1 / 10 ^ 15 := by unfold uro; norm_num

theorem eta_lt : eta < uro / 10 ^ 6 := by
  have h := eta_le
  refine h.trans_lt ?_
  have h2 : (10 : ℝ) ^ 6 < 2 ^ 1000 :=
    lt_of_lt_of_le (show (10 : ℝ) ^ 6 < 2 ^ 20 by norm_num) (pow_le_pow_right₀ (by norm_num) (by norm_num))
  exact div_lt_div_of_pos_left uro_pos (by norm_num) h2

namespace Arith

variable {L : Libm} {C : Type} [CplxOps (F64 L) ℤ C] (A : Arith L C)

theorem dot {a₁ b₁ a₂ b₂ : C} {v₁ w₁ v₂ w₂ : ℂ} (h₁ : A.Val a₁ v₁) (k₁ : A.Val b₁ w₁) (h₂ : A.Val a₂ v₂)
    (k₂ : A.Val b₂ w₂)
    (hS : (‖v₁‖ * ‖w₁‖ + ‖v₂‖ * ‖w₂‖) * (1 + 7 * uro) + 24 * eta ≤ maxDouble) :
    ∃ z, A.Val (a₁ * b₁ + a₂ * b₂) z ∧
      ‖z - (v₁ * w₁ + v₂ * w₂)‖ ≤ 7 * uro * (‖v₁‖ * ‖w₁‖ + ‖v₂‖ * ‖w₂‖) + 20 * eta := by
  have hu := uro_pos
  have hu' := uro_lt
  have he := eta_pos
  set P₁ := ‖v₁‖ * ‖w₁‖ with hP₁
  set P₂ := ‖v₂‖ * ‖w₂‖ with hP₂
  have p₁ : 0 ≤ P₁ := by positivity
  have p₂ : 0 ≤ P₂ := by positivity
  obtain ⟨z₁, hz₁, e₁⟩ := A.mul _ _ _ _ h₁ k₁ (by rw [← hP₁]; nlinarith)
  obtain ⟨z₂, hz₂, e₂⟩ := A.mul _ _ _ _ h₂ k₂ (by rw [← hP₂]; nlinarith)
  rw [← hP₁] at e₁
  rw [← hP₂] at e₂
  have n₁ : ‖z₁‖ ≤ P₁ * (1 + 4 * uro) + 8 * eta := by
    have := norm_sub_norm_le z₁ (v₁ * w₁)
    rw [norm_mul, ← hP₁] at this
    linarith
  have n₂ : ‖z₂‖ ≤ P₂ * (1 + 4 * uro) + 8 * eta := by
    have := norm_sub_norm_le z₂ (v₂ * w₂)
    rw [norm_mul, ← hP₂] at this
    linarith
  have hn : ‖z₁‖ + ‖z₂‖ ≤ (P₁ + P₂) * (1 + 4 * uro) + 16 * eta := by linarith
  have hP : 0 ≤ P₁ + P₂ := by linarith
  obtain ⟨z, hz, e⟩ := A.add _ _ _ _ hz₁ hz₂ (by nlinarith [mul_nonneg hP hu.le, mul_pos hu he])
  refine ⟨z, hz, ?_⟩
  have : z - (v₁ * w₁ + v₂ * w₂) = (z - (z₁ + z₂)) + ((z₁ - v₁ * w₁) + (z₂ - v₂ * w₂)) := by ring
  rw [this]
  refine (norm_add_le _ _).trans ((add_le_add e (norm_add_le _ _)).trans ?_)
  have h3 : 2 * uro * (‖z₁‖ + ‖z₂‖) ≤ 2 * uro * ((P₁ + P₂) * (1 + 4 * uro) + 16 * eta) :=
    mul_le_mul_of_nonneg_left hn (by positivity)
  nlinarith [mul_nonneg hP hu.le, mul_pos hu he]

/-- `X` computed, `M` exact: rows of `M` have absolute sum at most `N`, the rows of the error at most `(ρ - 1) N`. -/
def Near (X : Mat2 C) (M : CMat) (N ρ : ℝ) : Prop :=
  ∃ V : CMat, (A.Val X.m00 (V 0 0) ∧ A.Val X.m01 (V 0 1) ∧ A.Val X.m10 (V 1 0) ∧ A.Val X.m11 (V 1 1)) ∧
    (∀ i, ‖M i 0‖ + ‖M i 1‖ ≤ N) ∧ (∀ i, ‖V i 0 - M i 0‖ + ‖V i 1 - M i 1‖ ≤ (ρ - 1) * N) ∧ 1 ≤ N ∧ 1 ≤ ρ

theorem row_mul {M M' : CMat} {N N' : ℝ} (i : Fin 2) (h : ‖M i 0‖ + ‖M i 1‖ ≤ N)
    (h' : ∀ i, ‖M' i 0‖ + ‖M' i 1‖ ≤ N') :
    ‖M i 0‖ * ‖M' 0 0‖ + ‖M i 1‖ * ‖M' 1 0‖ + (‖M i 0‖ * ‖M' 0 1‖ + ‖M i 1‖ * ‖M' 1 1‖) ≤ N * N' := by
  have h0 := h' 0
  have h1 := h' 1
  have hN : 0 ≤ N' := le_trans (by positivity) h0
  have a := norm_nonneg (M i 0)
  have b := norm_nonneg (M i 1)
  calc _ = ‖M i 0‖ * (‖M' 0 0‖ + ‖M' 0 1‖) + ‖M i 1‖ * (‖M' 1 0‖ + ‖M' 1 1‖) := by ring
    _ ≤ ‖M i 0‖ * N' + ‖M i 1‖ * N' :=
      add_le_add (mul_le_mul_of_nonneg_left h0 a) (mul_le_mul_of_nonneg_left h1 b)
    _ = (‖M i 0‖ + ‖M i 1‖) * N' := by ring
    _ ≤ N * N' := mul_le_mul_of_nonneg_right h hN

theorem row_mul' {M M' : CMat} {N N' : ℝ} (i : Fin 2) (h : ‖M i 0‖ + ‖M i 1‖ ≤ N)
    (h' : ∀ i, ‖M' i 0‖ + ‖M' i 1‖ ≤ N') : ‖(M * M') i 0‖ + ‖(M * M') i 1‖ ≤ N * N' := by
  refine le_trans ?_ (row_mul i h h')
  simp only [Matrix.mul_apply, Fin.sum_univ_two]
  refine add_le_add ?_ ?_ <;>
  · refine (norm_add_le _ _).trans ?_
    rw [norm_mul, norm_mul]

theorem near_mul {X Y : Mat2 C} {M M' : CMat} {N N' ρ ρ' : ℝ} (h : A.Near X M N ρ) (h' : A.Near Y M' N' ρ')
    (hmax : N * ρ * (N' * ρ') * (1 + 8 * uro) ≤ maxDouble) :
    A.Near (X.matmul Y) (M * M') (N * N') (ρ * ρ' * (1 + 8 * uro)) := by
  obtain ⟨V, ⟨x00, x01, x10, x11⟩, hM, hV, hN, hρ⟩ := h
  obtain ⟨V', ⟨y00, y01, y10, y11⟩, hM', hV', hN', hρ'⟩ := h'
  have hu := uro_pos
  have he := eta_pos
  have heu := eta_lt
  have rV : ∀ i, ‖V i 0‖ + ‖V i 1‖ ≤ N * ρ := fun i => by
    have a := norm_sub_norm_le (V i 0) (M i 0)
    have b := norm_sub_norm_le (V i 1) (M i 1)
    linarith [hM i, hV i]
  have rV' : ∀ i, ‖V' i 0‖ + ‖V' i 1‖ ≤ N' * ρ' := fun i => by
    have a := norm_sub_norm_le (V' i 0) (M' i 0)
    have b := norm_sub_norm_le (V' i 1) (M' i 1)
    linarith [hM' i, hV' i]
  have h1 : 1 ≤ N * ρ := one_le_mul_of_one_le_of_one_le hN hρ
  have h2 : 1 ≤ N' * ρ' := one_le_mul_of_one_le_of_one_le hN' hρ'
  have h12 : 1 ≤ N * ρ * (N' * ρ') := one_le_mul_of_one_le_of_one_le h1 h2
  have hS := fun i => row_mul i (rV i) rV'
  set B := N * ρ * (N' * ρ') with hB
  have hent : ∀ S, 0 ≤ S → S ≤ B → S * (1 + 7 * uro) + 24 * eta ≤ maxDouble := fun S h0 hS => by
    nlinarith
  obtain ⟨z00, w00, e00⟩ := A.dot x00 y00 x01 y10 (hent _ (by positivity) (by
    have := hS 0
    have : 0 ≤ ‖V 0 0‖ * ‖V' 0 1‖ + ‖V 0 1‖ * ‖V' 1 1‖ := by positivity
    linarith))
  obtain ⟨z01, w01, e01⟩ := A.dot x00 y01 x01 y11 (hent _ (by positivity) (by
    have := hS 0
    have : 0 ≤ ‖V 0 0‖ * ‖V' 0 0‖ + ‖V 0 1‖ * ‖V' 1 0‖ := by positivity
    linarith))
  obtain ⟨z10, w10, e10⟩ := A.dot x10 y00 x11 y10 (hent _ (by positivity) (by
    have := hS 1
    have : 0 ≤ ‖V 1 0‖ * ‖V' 0 1‖ + ‖V 1 1‖ * ‖V' 1 1‖ := by positivity
    linarith))
  obtain ⟨z11, w11, e11⟩ := A.dot x10 y01 x11 y11 (hent _ (by positivity) (by
    have := hS 1
    have : 0 ≤ ‖V 1 0‖ * ‖V' 0 0‖ + ‖V 1 1‖ * ‖V' 1 0‖ := by positivity
    linarith))
  refine ⟨!![z00, z01; z10, z11], ⟨w00, w01, w10, w11⟩, fun i => row_mul' i (hM i) hM', ?_,
    one_le_mul_of_one_le_of_one_le hN hN',
    one_le_mul_of_one_le_of_one_le (one_le_mul_of_one_le_of_one_le hρ hρ') (by linarith)⟩
  -- exact product of the computed matrices against the exact product
  have key : ∀ i, ‖(V * V') i 0 - (M * M') i 0‖ + ‖(V * V') i 1 - (M * M') i 1‖ ≤ B - N * N' := fun i => by
    have d1 := row_mul' (M := V - M) (M' := M') i (N := (ρ - 1) * N) (by simpa using hV i) hM'
    have d2 := row_mul' (M := V) (M' := V' - M') i (N := N * ρ) (N' := (ρ' - 1) * N') (rV i)
      (fun i => by simpa using hV' i)
    have e : V * V' - M * M' = (V - M) * M' + V * (V' - M') := by
      rw [Matrix.sub_mul, Matrix.mul_sub]; abel
    have f0 : (V * V') i 0 - (M * M') i 0 = ((V - M) * M') i 0 + (V * (V' - M')) i 0 := by
      rw [← Matrix.sub_apply, e, Matrix.add_apply]
    have f1 : (V * V') i 1 - (M * M') i 1 = ((V - M) * M') i 1 + (V * (V' - M')) i 1 := by
      rw [← Matrix.sub_apply, e, Matrix.add_apply]
    rw [f0, f1]
    have g0 := norm_add_le (((V - M) * M') i 0) ((V * (V' - M')) i 0)
    have g1 := norm_add_le (((V - M) * M') i 1) ((V * (V' - M')) i 1)
    rw [hB]
    linarith
  have fin : ∀ i, ∀ a b : ℂ, ‖a - (V * V') i 0‖ + ‖b - (V * V') i 1‖ ≤ 7 * uro * B + 40 * eta →
      ‖a - (M * M') i 0‖ + ‖b - (M * M') i 1‖ ≤ (ρ * ρ' * (1 + 8 * uro) - 1) * (N * N') := fun i a b hab => by
    have k := key i
    have g0 := norm_sub_le_norm_sub_add_norm_sub a ((V * V') i 0) ((M * M') i 0)
    have g1 := norm_sub_le_norm_sub_add_norm_sub b ((V * V') i 1) ((M * M') i 1)
    have : (ρ * ρ' * (1 + 8 * uro) - 1) * (N * N') = B * (1 + 8 * uro) - N * N' := by rw [hB]; ring
    rw [this]
    nlinarith
  have e0 : ∀ i j, (V * V') i j = V i 0 * V' 0 j + V i 1 * V' 1 j := fun i j => by
    simp [Matrix.mul_apply, Fin.sum_univ_two]
  have s0 := hS 0
  have s1 := hS 1
  intro i
  fin_cases i
  · refine fin 0 z00 z01 ?_
    rw [e0, e0]
    nlinarith
  · refine fin 1 z10 z11 ?_
    rw [e0, e0]
    nlinarith

end Arith

end Snompy
