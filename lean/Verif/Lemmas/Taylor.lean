import Verif.Lemmas.Pdm
import Verif.Lemmas.Fdm
import Mathlib.Algebra.Polynomial.Eval.Degree
import Mathlib.Algebra.Field.GeomSum

/-!
# Taylor series of the demodulated models
-/

namespace Snompy

open Finset Filter Topology

/-! ## Algebra of `demodSum` -/

theorem demodSum_congr {g g' : ℝ → ℂ} {x0 amp : ℝ} (hA : 0 ≤ amp) (n : ℝ) (N : ℕ)
    (h : ∀ x, x0 - amp ≤ x → x ≤ x0 + amp → g x = g' x) :
    demodSum g x0 amp n N = demodSum g' x0 amp n N := by
  have hw : ∀ θ, wave g x0 amp n θ = wave g' x0 amp n θ := fun θ => by
    unfold wave
    rw [h _ (by nlinarith [Real.neg_one_le_cos θ]) (by nlinarith [Real.cos_le_one θ])]
  unfold demodSum
  simp only [hw]

theorem demodSum_add (g g' : ℝ → ℂ) (x0 amp n : ℝ) (N : ℕ) :
    demodSum (fun x => g x + g' x) x0 amp n N = demodSum g x0 amp n N + demodSum g' x0 amp n N := by
  unfold demodSum wave
  rw [← add_div, ← sum_add_distrib]
  congr 1
  refine sum_congr rfl fun k _ => ?_
  ring

theorem demodSum_mul (c : ℂ) (g : ℝ → ℂ) (x0 amp n : ℝ) (N : ℕ) :
    demodSum (fun x => c * g x) x0 amp n N = c * demodSum g x0 amp n N := by
  unfold demodSum wave
  rw [← mul_div_assoc, mul_sum]
  congr 1
  refine sum_congr rfl fun k _ => ?_
  ring

theorem demodSum_sum (J : ℕ) (g : ℕ → ℝ → ℂ) (x0 amp n : ℝ) (N : ℕ) :
    demodSum (fun x => ∑ j ∈ range J, g j x) x0 amp n N = ∑ j ∈ range J, demodSum (g j) x0 amp n N := by
  induction J with
  | zero =>
    simp only [sum_range_zero]
    have := demodSum_mul 0 (fun _ => 0) x0 amp n N
    simpa using this
  | succ J ih =>
    simp only [sum_range_succ]
    rw [demodSum_add, ih]

open Classical in
theorem demodSum_const (c : ℂ) (x0 amp : ℝ) (n : ℤ) {N : ℕ} (hN : N ≠ 0) (hn : n = 0 ∨ ¬ (N : ℤ) ∣ n) :
    demodSum (fun _ => c) x0 amp n N = if n = 0 then c else 0 := by
  rw [demodSum_mean _ _ _ n hN]
  have hc : (mode (-n) * fun _ => c : ℝ → ℂ) = c • mode (-n) := by
    funext θ
    simp [mul_comm]
  rw [hc, meanN_smul]
  split_ifs with h
  · rw [h, neg_zero, meanN_one hN, mul_one]
  · rw [meanN_mode hN (by rw [dvd_neg]; exact hn.resolve_left h), mul_zero]

/-- A constant seen at a multiple of the number of samples. -/
theorem demodSum_const_alias (x0 amp : ℝ) (n : ℤ) {N : ℕ} (hN : N ≠ 0) (hn : (N : ℤ) ∣ n) :
    demodSum (fun _ => 1) x0 amp n N = (-1) ^ n := by
  rw [demodSum_mean _ _ _ n hN]
  have hc : (mode (-n) * fun _ => 1 : ℝ → ℂ) = mode (-n) := by
    funext θ
    simp
  have hNc : (N : ℂ) ≠ 0 := by exact_mod_cast hN
  rw [hc]
  unfold meanN
  have h1 : ∀ k, mode (-n) (phase N k) = (-1) ^ n := by
    intro k
    rw [mode_phase _ hN]
    obtain ⟨j, rfl⟩ := hn
    have h2 : Complex.exp (2 * Real.pi * Complex.I * (((-((N : ℤ) * j) : ℤ) : ℂ) / N)) = 1 := by
      rw [Complex.exp_eq_one_iff]
      refine ⟨-j, ?_⟩
      push_cast
      field_simp
    rw [h2, one_pow, mul_one, ← Complex.exp_pi_mul_I, ← Complex.exp_int_mul]
    congr 1
    push_cast
    ring
  simp only [h1, sum_const, card_range, nsmul_eq_mul]
  field_simp

/-- Pointwise convergence on the tapping range is enough: there are finitely many samples. -/
theorem demodSum_tendsto {g : ℕ → ℝ → ℂ} {g' : ℝ → ℂ} {x0 amp : ℝ} (hA : 0 ≤ amp) (n : ℝ) (N : ℕ)
    (h : ∀ x, x0 - amp ≤ x → x ≤ x0 + amp → Tendsto (fun J => g J x) atTop (𝓝 (g' x))) :
    Tendsto (fun J => demodSum (g J) x0 amp n N) atTop (𝓝 (demodSum g' x0 amp n N)) := by
  have hw : ∀ θ, Tendsto (fun J => wave (g J) x0 amp n θ) atTop (𝓝 (wave g' x0 amp n θ)) := fun θ => by
    unfold wave
    exact (h _ (by nlinarith [Real.neg_one_le_cos θ]) (by nlinarith [Real.cos_le_one θ])).mul_const _
  unfold demodSum
  exact (tendsto_finsetSum _ fun k _ => ((hw _).add (hw _)).div_const 2).div_const _

/-! ## Powers -/

theorem sjpow_nat (x : ℂ) (j : ℕ) : (CplxOps.jpow (FP.num x) (j : ℤ) : FP ℂ) = FP.num (x ^ j) := by
  show (if x = 0 ∧ (j : ℤ) < 0 then FP.nan else FP.num (x ^ (j : ℤ)) : FP ℂ) = _
  rw [if_neg (fun h => absurd h.2 (by omega)), zpow_natCast]

theorem sjpow_pred (x : ℂ) {j : ℕ} (hj : j ≠ 0) :
    (CplxOps.jpow (FP.num x) (CplxOps.jpred (R := FP ℝ) (FP ℂ) (j : ℤ)) : FP ℂ) =
      FP.num (x ^ (j - 1)) := by
  have h : (CplxOps.jpred (R := FP ℝ) (FP ℂ) (j : ℤ)) = ((j - 1 : ℕ) : ℤ) := by
    show (j : ℤ) - 1 = _
    omega
  rw [h, sjpow_nat]

theorem series0_num (J : ℕ) (lk : List (FP ℝ ⊕ FP ℂ)) (body : ℤ → PyM (FP ℂ)) (f : ℕ → ℂ)
    (h : ∀ j < J, body j = .ok (FP.num (f j))) :
    CplxOps.series0 J lk body = .ok (FP.num (∑ j ∈ range J, f j)) := by
  show ((List.range J).mapM fun j : ℕ => body (j : ℤ)) >>= (fun vals => pure (FP.sum vals)) = _
  rw [mapM_ok _ _ (fun j => FP.num (f j)) fun j hj => h j (List.mem_range.1 hj), PyM.ok_bind, FP.sum_num,
    list_range_sum]
  rfl

/-! ## Polynomials by their coefficients -/

theorem polynomial_degree_lt (J : ℕ) (c : ℕ → ℂ) :
    (∑ j ∈ range J, Polynomial.monomial j (c j)).degree < J := by
  refine (Polynomial.degree_sum_le _ _).trans_lt ?_
  refine (Finset.sup_lt_iff (WithBot.bot_lt_coe J)).2 fun j hj => ?_
  exact (Polynomial.degree_monomial_le j _).trans_lt (WithBot.coe_lt_coe.2 (mem_range.1 hj))

theorem polynomial_coeff {J : ℕ} (c : ℕ → ℂ) {j : ℕ} (hj : j < J) :
    (∑ i ∈ range J, Polynomial.monomial i (c i)).coeff j = c j := by
  rw [Polynomial.finsetSum_coeff]
  simp only [Polynomial.coeff_monomial]
  rw [Finset.sum_ite_eq' (range J) j c, if_pos (mem_range.2 hj)]

/-! ## FDM -/

namespace Fdm

theorem GeomOk.mono {z d r l : ℝ} (h : GeomOk z d r l) {x : ℝ} (hx : z ≤ x) : GeomOk x d r l :=
  ⟨h.r_pos, h.l_pos, h.ne, by have := h.den; linarith⟩

open Classical in
/-- `taylor_coef` at finite arguments. -/
noncomputable def coef (z : ℝ) (j : ℕ) (A n r l : ℝ) (g : ℂ) (d0 d1 : ℝ) (N : ℕ) : ℂ :=
  if j = 0 then (if n = 0 then 1 else 0)
  else demodSum (fun x => geom x d0 r l g * geom x d1 r l g ^ (j - 1)) (z + A) A n N / 2

open Classical in
theorem taylorCoef_num (env : Env) {z r l : ℝ} {d0 d1 : ℝ} (h0 : GeomOk z d0 r l) (h1 : GeomOk z d1 r l)
    (g : ℂ) (j : ℕ) {A : ℝ} (hA : 0 ≤ A) (n : ℝ) {N : ℕ} (hN : N ≠ 0) :
    taylorCoef env (FP.num z) (j : ℤ) (FP.num A) (FP.num n) (FP.num r) (FP.num l) (FP.num g) (FP.num d0)
      (FP.num d1) (some N) = .ok (FP.num (coef z j A n r l g d0 d1 N) : FP ℂ) := by
  unfold taylorCoef coef
  obtain ⟨v, hv⟩ := demod_ok env (fun x => pure (geomFuncTaylor x (j : ℤ) (FP.num r) (FP.num l)
    (FP.num g) (FP.num d0) (FP.num d1) : FP ℂ)) (FP.num z + FP.num A) (FP.num A) (FP.num n) (some N)
    fun x => ⟨_, rfl⟩
  by_cases hj : j = 0
  · subst hj
    simp only [hv, PyM.ok_bind]
    rw [if_pos trivial]
    show Except.ok (if ((0 : ℕ) : ℤ) = 0 then (if FP.num n = FP.num 0 then FP.num 1 else FP.num 0) else _)
      = _
    rw [if_pos Nat.cast_zero]
    congr 1
    by_cases hn : n = 0
    · simp [hn]
    · simp [hn]
  · have hd : demod env (fun x => pure (geomFuncTaylor x (j : ℤ) (FP.num r) (FP.num l)
        (FP.num g) (FP.num d0) (FP.num d1) : FP ℂ)) (FP.num z + FP.num A) (FP.num A) (FP.num n) (some N) =
        .ok (FP.num (demodSum (fun x => geom x d0 r l g * geom x d1 r l g ^ (j - 1)) (z + A) A n N)) := by
      rw [FP.num_add]
      refine demod_eval env _ _ _ _ _ (some N) hN ⟨_, rfl⟩ fun θ => ?_
      have hx : z ≤ z + A + Real.cos θ * A := by nlinarith [Real.neg_one_le_cos θ]
      unfold geomFuncTaylor
      simp only [geomFunc_num (h0.mono hx), geomFunc_num (h1.mono hx), sjpow_pred _ hj, FP.num_mul]
      rfl
    simp only [hd, PyM.ok_bind]
    rw [if_neg hj]
    show Except.ok (if (j : ℤ) = 0 then _ else _) = _
    rw [if_neg (by exact_mod_cast hj), sclit, FP.num_div _ two_ne_zero]

theorem geomSum (β f0 f1 : ℂ) (h : 1 - β * f1 ≠ 0) (J : ℕ) :
    β * f0 / (2 * (1 - β * f1)) = (∑ j ∈ range J, β ^ (j + 1) * (f0 * f1 ^ j / 2)) +
      β ^ (J + 1) * f0 * f1 ^ J / (2 * (1 - β * f1)) := by
  induction J with
  | zero => simp
  | succ J ih =>
    rw [sum_range_succ, ih, add_assoc]
    congr 1
    generalize hD : 1 - β * f1 = D at *
    field_simp
    rw [← hD]
    ring

end Fdm

namespace Pdm

/-- `taylor_coef` at finite arguments. -/
noncomputable def coef (z : ℝ) (j : ℕ) (A n r : ℝ) (α : ℂ) (N : ℕ) : ℂ :=
  demodSum (fun x => geom x r α ^ j) (z + A) A n N

theorem taylorCoef_num (env : Env) {z r : ℝ} (h : 0 < r + z) (α : ℂ) (j : ℕ) {A : ℝ} (hA : 0 ≤ A)
    (n : ℝ) {N : ℕ} (hN : N ≠ 0) :
    taylorCoef env (FP.num z) (j : ℤ) (FP.num A) (FP.num n) (FP.num r) (FP.num α) (some N) =
      .ok (FP.num (coef z j A n r α N) : FP ℂ) := by
  unfold taylorCoef coef
  simp only [FP.num_add]
  refine demod_eval env _ _ _ _ _ (some N) hN ⟨_, rfl⟩ fun θ => ?_
  have hx : r + (z + A + Real.cos θ * A) ≠ 0 := by nlinarith [Real.neg_one_le_cos θ]
  simp only [geomFunc_num hx, sjpow_nat]
  rfl

end Pdm

end Snompy
