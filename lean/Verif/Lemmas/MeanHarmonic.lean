import Mathlib.LinearAlgebra.Lagrange
import Mathlib.Analysis.Calculus.LocalExtr.Rolle
import Mathlib.Analysis.SpecialFunctions.Trigonometric.Chebyshev.RootsExtrema
import Mathlib.Analysis.Calculus.Darboux
import Verif.Lemmas.Taylor

/-!
# Harmonics and derivatives

The harmonic `n` of a signal is the derivative of order `n` somewhere in the range of the oscillation.
-/

namespace Snompy

open Finset Polynomial

/-- `D k` is the derivative of order `k` of `D 0` between `a` and `b`, for `k ≤ n`. -/
def Tower (n : ℕ) (D : ℕ → ℝ → ℝ) (a b : ℝ) : Prop := ∀ k < n, ∀ x ∈ Set.Icc a b, HasDerivAt (D k) (D (k + 1) x) x

/-- Rolle's theorem for derivatives of higher order. -/
theorem rolle_tower {a b : ℝ} : ∀ (n : ℕ) (D : ℕ → ℝ → ℝ), Tower n D a b → ∀ x : Fin (n + 1) → ℝ, StrictMono x →
    (∀ i, x i ∈ Set.Icc a b) → (∀ i, D 0 (x i) = 0) → ∃ ξ ∈ Set.Icc a b, D n ξ = 0
  | 0, D, _, x, _, hx, h0 => ⟨x 0, hx 0, h0 0⟩
  | n + 1, D, hD, x, hm, hx, h0 => by
    have h : ∀ i : Fin (n + 1), ∃ y ∈ Set.Ioo (x i.castSucc) (x i.succ), D 1 y = 0 := fun i => by
      have sub : Set.Icc (x i.castSucc) (x i.succ) ⊆ Set.Icc a b := Set.Icc_subset_Icc (hx _).1 (hx _).2
      exact exists_hasDerivAt_eq_zero (f := D 0) (f' := D 1) (hm (Fin.castSucc_lt_succ))
        (fun y hy => (hD 0 (by omega) y (sub hy)).continuousAt.continuousWithinAt) (by rw [h0, h0])
        fun y hy => hD 0 (by omega) y (sub (Set.Ioo_subset_Icc_self hy))
    choose y hy hy0 using h
    refine rolle_tower n (fun k => D (k + 1)) (fun k hk => hD (k + 1) (by omega)) y (fun i j hij => ?_)
      (fun i => ⟨(hx _).1.trans (hy i).1.le, (hy i).2.le.trans (hx _).2⟩) hy0
    have : x i.succ ≤ x j.castSucc := hm.monotone (by
      rw [Fin.le_def]
      simp only [Fin.val_succ, Fin.val_castSucc]
      exact hij)
    exact (hy i).2.trans_le (this.trans (hy j).1.le)

/-- The error of interpolation. -/
theorem interpolation_error {n : ℕ} {D : ℕ → ℝ → ℝ} {a b : ℝ} (hD : Tower n D a b) {s : Finset ℝ} (hs : #s = n)
    (hsub : ∀ t ∈ s, t ∈ Set.Icc a b) {x : ℝ} (hx : x ∈ Set.Icc a b) :
    ∃ ξ ∈ Set.Icc a b, D 0 x - (Lagrange.interpolate s id (D 0)).eval x = (∏ t ∈ s, (x - t)) * (D n ξ / n.factorial) := by
  classical
  set q := Lagrange.interpolate s id (D 0) with hq
  have hqt : ∀ t ∈ s, q.eval t = D 0 t := fun t ht => Lagrange.eval_interpolate_at_node (v := id) (D 0) Function.injective_id.injOn ht
  by_cases hxs : x ∈ s
  · exact ⟨x, hx, by rw [hqt x hxs, sub_self, Finset.prod_eq_zero hxs (sub_self x), zero_mul]⟩
  · set P : ℝ[X] := ∏ t ∈ s, (X - C t) with hP
    have hPx : P.eval x ≠ 0 := by
      rw [hP, eval_prod, Finset.prod_ne_zero_iff]
      intro t ht
      rw [eval_sub, eval_X, eval_C, sub_ne_zero]
      exact fun h => hxs (h ▸ ht)
    have hPt : ∀ t ∈ s, P.eval t = 0 := fun t ht => by
      rw [hP, eval_prod]
      exact Finset.prod_eq_zero ht (by simp)
    set c := (D 0 x - q.eval x) / P.eval x with hc
    set E : ℕ → ℝ → ℝ := fun k y => D k y - (derivative^[k] (q + C c * P)).eval y with hE
    have hET : Tower n E a b := fun k hk y hy => by
      have h2 := (derivative^[k] (q + C c * P)).hasDerivAt y
      rw [← Function.iterate_succ_apply' derivative k] at h2
      exact (hD k hk y hy).sub h2
    have hE0 : ∀ t ∈ insert x s, E 0 t = 0 := fun t ht => by
      simp only [hE, Function.iterate_zero, id_eq, eval_add, eval_mul, eval_C]
      rcases Finset.mem_insert.1 ht with rfl | ht
      · rw [hc, div_mul_cancel₀ _ hPx]
        ring
      · rw [hqt t ht, hPt t ht]
        ring
    have hcard : #(insert x s) = n + 1 := by rw [Finset.card_insert_of_notMem hxs, hs]
    obtain ⟨ξ, hξ, h0⟩ := rolle_tower n E hET ((insert x s).orderEmbOfFin hcard) (OrderEmbedding.strictMono _)
      (fun i => by
        rcases Finset.mem_insert.1 (Finset.orderEmbOfFin_mem (insert x s) hcard i) with h | h
        · rw [h]; exact hx
        · exact hsub _ h)
      (fun i => hE0 _ (Finset.orderEmbOfFin_mem _ _ _))
    refine ⟨ξ, hξ, ?_⟩
    have hq0 : derivative^[n] q = 0 := iterate_derivative_eq_zero_of_degree_lt (by
      rw [← hs]
      exact Lagrange.degree_interpolate_lt _ Function.injective_id.injOn)
    have hP0 : derivative^[n] P = (n.factorial : ℝ[X]) := by
      rw [hP, iterate_derivative_prod_X_sub_C hs.ge, hs, Nat.sub_self, Finset.powersetCard_zero]
      simp
    simp only [hE, iterate_map_add, iterate_derivative_C_mul, hq0, hP0, zero_add, eval_mul, eval_C, eval_natCast] at h0
    have hf : (n.factorial : ℝ) ≠ 0 := by exact_mod_cast n.factorial_ne_zero
    have hDn : D n ξ / n.factorial = c := by
      rw [div_eq_iff hf]
      linarith
    have hPe : ∏ t ∈ s, (x - t) = P.eval x := by simp [hP, eval_prod]
    rw [hDn, hPe, hc, mul_div_cancel₀ _ hPx]

/-- The nodes of Chebyshev. -/
theorem exists_nodes (n : ℕ) : ∃ s : Finset ℝ, #s = n ∧ (∀ t ∈ s, t ∈ Set.Icc (-1 : ℝ) 1) ∧
    ∀ θ : ℝ, ∏ t ∈ s, (Real.cos θ - t) = Real.cos (n * θ) / 2 ^ (n - 1) := by
  classical
  set s := (Finset.range n).image (fun k : ℕ => Real.cos ((2 * k + 1) * Real.pi / (2 * n))) with hs
  have hroots : (Chebyshev.T ℝ n).roots = s.val := Chebyshev.roots_T_real n
  have hcard : #s = n := by
    rw [hs, Finset.card_image_of_injOn, Finset.card_range]
    exact (Finset.range n).nodup_map_iff_injOn.1 (Chebyshev.roots_T_real_nodup n)
  refine ⟨s, hcard, fun t ht => ?_, fun θ => ?_⟩
  · obtain ⟨k, -, rfl⟩ := Finset.mem_image.1 ht
    exact Real.cos_mem_Icc _
  · have h := C_leadingCoeff_mul_prod_multiset_X_sub_C (p := Chebyshev.T ℝ n) (by
      rw [hroots, Chebyshev.natDegree_T]
      exact hcard)
    rw [hroots, Chebyshev.leadingCoeff_T] at h
    have h' := congrArg (eval (Real.cos θ)) h
    rw [Chebyshev.T_real_cos] at h'
    change eval _ (C _ * ∏ t ∈ s, (X - C t)) = _ at h'
    rw [eval_mul, eval_C, eval_prod] at h'
    simp only [eval_sub, eval_X, eval_C, Int.natAbs_natCast, Int.cast_natCast] at h'
    rw [eq_div_iff (by positivity), mul_comm]
    exact h'

/-- Samples of `demod` with the real wave. -/
theorem demodSum_cos (g : ℝ → ℂ) (x0 amp : ℝ) (n : ℕ) {N : ℕ} (hN : N ≠ 0) :
    demodSum g x0 amp n N =
      (∑ k ∈ range N, g (x0 + Real.cos (phase N k) * amp) * (Real.cos (n * phase N k) : ℝ)) / N := by
  have h1 := demodSum_int g x0 amp n hN
  have h2 := demodSum_int g x0 amp (-n) hN
  have h3 := demodSum_neg g x0 amp n hN
  push_cast at h1 h2
  rw [h2] at h3
  have h4 : demodSum g x0 amp n N = (demodSum g x0 amp n N + demodSum g x0 amp n N) / 2 := by ring
  rw [h4]
  nth_rw 2 [← h3]
  rw [h1, ← add_div, ← sum_add_distrib, div_div, mul_comm (N : ℂ) 2, ← div_div, sum_div]
  congr 1
  refine sum_congr rfl fun k _ => ?_
  simp only [wave]
  push_cast
  rw [Complex.cos]
  ring_nf

theorem demodSum_poly_zero (q : ℝ[X]) {n N : ℕ} (h0 : n ≠ 0) (hq : q.degree < n) (hN : 2 * n ≤ N) (x0 amp : ℝ) :
    demodSum (fun x => (q.eval x : ℝ)) x0 amp n N = 0 := by
  have hN0 : N ≠ 0 := by omega
  have hd : q.natDegree < n := by
    rcases eq_or_ne q 0 with rfl | hq0
    · simpa using Nat.pos_of_ne_zero h0
    · exact (natDegree_lt_iff_degree_lt hq0).2 hq
  have e : (fun x : ℝ => ((q.eval x : ℝ) : ℂ)) = fun x : ℝ => (q.map (algebraMap ℝ ℂ)).eval (x : ℂ) := by
    funext x
    rw [Polynomial.eval_map]
    exact (Polynomial.eval₂_at_apply (algebraMap ℝ ℂ) x).symm
  have hd' : (q.map (algebraMap ℝ ℂ)).natDegree < n := by rwa [natDegree_map]
  have h := demodSum_mean (fun x : ℝ => (q.map (algebraMap ℝ ℂ)).eval (x : ℂ)) x0 amp n hN0
  push_cast at h
  have hm := mode_mul_mem (eval_mem (q.map (algebraMap ℝ ℂ)) x0 amp) (-n)
  rw [Int.natAbs_neg, Int.natAbs_natCast] at hm
  rw [e, h]
  have h2 := (mean_trigPoly hm (N := N) (by omega)).2
  have h3 := mean_mode_mul (eval_mem (q.map (algebraMap ℝ ℂ)) x0 amp) (n := -n) (by rwa [Int.natAbs_neg, Int.natAbs_natCast])
  rw [h3] at h2
  refine Eq.trans (congrArg _ ?_) h2
  funext θ
  simp [height]

theorem sum_cos_sq {n N : ℕ} (hn : n ≠ 0) (hN : 2 * n < N) :
    ∑ k ∈ range N, Real.cos (n * phase N k) ^ 2 = N / 2 := by
  have hN0 : N ≠ 0 := by omega
  have h := meanN_mode (m := 2 * n) hN0 (fun h => by
    have := Int.le_of_dvd (by omega) h
    omega)
  unfold meanN at h
  rw [div_eq_zero_iff, or_iff_left (by exact_mod_cast hN0)] at h
  have h' := congrArg Complex.re h
  rw [Complex.re_sum] at h'
  have : ∀ k, (mode (2 * n) (phase N k)).re = 2 * Real.cos (n * phase N k) ^ 2 - 1 := fun k => by
    rw [← Real.cos_two_mul, mode]
    have : Complex.I * ((2 * n : ℤ) : ℂ) * (phase N k : ℝ) = ((2 * (n * phase N k) : ℝ) : ℂ) * Complex.I := by
      push_cast
      ring
    rw [this, Complex.exp_ofReal_mul_I_re]
  simp only [this, Complex.zero_re, sum_sub_distrib, sum_const, card_range, nsmul_eq_mul, mul_one, ← mul_sum] at h'
  linarith

/-- The mean value theorem for harmonics, at amplitude 1. -/
theorem harmonic_unit {n N : ℕ} (hn : n ≠ 0) (hN : 2 * n < N) {D : ℕ → ℝ → ℝ} (hD : Tower n D (-1) 1) :
    ∃ ξ ∈ Set.Icc (-1 : ℝ) 1, demodSum (fun x => (D 0 x : ℝ)) 0 1 n N = ((D n ξ / (2 ^ n * n.factorial) : ℝ) : ℂ) := by
  classical
  have hN0 : N ≠ 0 := by omega
  obtain ⟨s, hs, hsub, hprod⟩ := exists_nodes n
  have herr := fun k : ℕ => interpolation_error hD hs hsub (Real.cos_mem_Icc (phase N k))
  choose ξ hξ he using herr
  set q := Lagrange.interpolate s id (D 0) with hq
  have hdeg : q.degree < n := by
    rw [← hs]
    exact Lagrange.degree_interpolate_lt _ Function.injective_id.injOn
  have hq0 := demodSum_poly_zero q hn hdeg hN.le 0 1
  rw [demodSum_cos _ _ _ _ hN0, div_eq_zero_iff, or_iff_left (by exact_mod_cast hN0)] at hq0
  -- the mean of the derivatives
  set w : ℕ → ℝ := fun k => Real.cos (n * phase N k) ^ 2 * (2 / N) with hw
  have hNr : (N : ℝ) ≠ 0 := by exact_mod_cast hN0
  have hmem : ∑ k ∈ range N, w k • D n (ξ k) ∈ D n '' Set.Icc (-1) 1 := by
    have hconv : Convex ℝ (D n '' Set.Icc (-1) 1) := by
      refine Set.OrdConnected.convex ?_
      obtain ⟨m, rfl⟩ := Nat.exists_eq_succ_of_ne_zero hn
      exact Set.ordConnected_Icc.image_hasDerivWithinAt fun x hx => (hD m (by omega) x hx).hasDerivWithinAt
    refine hconv.sum_mem (fun k _ => by positivity) ?_ fun k _ => ⟨ξ k, hξ k, rfl⟩
    simp only [hw]
    rw [← sum_mul, sum_cos_sq hn hN]
    field_simp
  obtain ⟨η, hη, hDη⟩ := hmem
  refine ⟨η, hη, ?_⟩
  rw [demodSum_cos _ _ _ _ hN0, hDη]
  have hterm : ∀ k ∈ range N, ((D 0 (0 + Real.cos (phase N k) * 1) : ℝ) : ℂ) * (Real.cos (n * phase N k) : ℝ) =
      ((q.eval (0 + Real.cos (phase N k) * 1) : ℝ) : ℂ) * (Real.cos (n * phase N k) : ℝ) +
        ((w k • D n (ξ k) * (N / (2 ^ n * n.factorial)) : ℝ) : ℂ) := fun k _ => by
    rw [zero_add, mul_one, ← Complex.ofReal_mul, ← Complex.ofReal_mul, ← Complex.ofReal_add]
    congr 1
    have h := he k
    rw [hprod] at h
    have h2 : D 0 (Real.cos (phase N k)) = q.eval (Real.cos (phase N k)) +
        Real.cos (n * phase N k) / 2 ^ (n - 1) * (D n (ξ k) / n.factorial) := by linarith
    rw [h2, add_mul]
    congr 1
    have h3 : (2 : ℝ) ^ n = 2 * 2 ^ (n - 1) := by
      rw [← pow_succ']
      congr 1
      omega
    have hf : (n.factorial : ℝ) ≠ 0 := by exact_mod_cast n.factorial_ne_zero
    simp only [hw, smul_eq_mul]
    rw [h3]
    field_simp
  rw [sum_congr rfl hterm, sum_add_distrib, hq0, zero_add, ← Complex.ofReal_sum, ← sum_mul]
  push_cast
  have hNc : (N : ℂ) ≠ 0 := by exact_mod_cast hN0
  field_simp

/-- The mean value theorem for harmonics. -/
theorem harmonic_mean_value {n N : ℕ} (hn : n ≠ 0) (hN : 2 * n < N) {D : ℕ → ℝ → ℝ} {x0 A : ℝ} (hA : 0 ≤ A)
    (hD : Tower n D (x0 - A) (x0 + A)) :
    ∃ ξ ∈ Set.Icc (x0 - A) (x0 + A),
      demodSum (fun x => (D 0 x : ℝ)) x0 A n N = ((A ^ n / (2 ^ n * n.factorial) * D n ξ : ℝ) : ℂ) := by
  have hmap : ∀ u ∈ Set.Icc (-1 : ℝ) 1, x0 + u * A ∈ Set.Icc (x0 - A) (x0 + A) := fun u hu =>
    ⟨by nlinarith [hu.1], by nlinarith [hu.2]⟩
  have hT : Tower n (fun k u => A ^ k * D k (x0 + u * A)) (-1) 1 := fun k hk u hu => by
    have h1 : HasDerivAt (fun u : ℝ => x0 + u * A) A u := by
      simpa using ((hasDerivAt_id u).mul_const A).const_add x0
    have h2 := ((hD k hk _ (hmap u hu)).comp u h1).const_mul (A ^ k)
    refine h2.congr_deriv ?_
    dsimp only
    rw [pow_succ]
    ring
  obtain ⟨ξ, hξ, h⟩ := harmonic_unit hn hN hT
  refine ⟨x0 + ξ * A, hmap ξ hξ, ?_⟩
  have e : demodSum (fun x => (D 0 x : ℝ)) x0 A n N =
      demodSum (fun u => ((A ^ 0 * D 0 (x0 + u * A) : ℝ) : ℂ)) 0 1 n N := by
    simp [demodSum, wave]
  rw [e, h]
  congr 1
  ring

/-- A complex signal is close to the derivative. -/
theorem harmonic_near {n N : ℕ} (hn : n ≠ 0) (hN : 2 * n < N) {D : ℕ → ℝ → ℂ} {x0 A M : ℝ} {L : ℂ} (hA : 0 ≤ A)
    (hD : ∀ k < n, ∀ x ∈ Set.Icc (x0 - A) (x0 + A), HasDerivAt (D k) (D (k + 1) x) x)
    (hM : ∀ x ∈ Set.Icc (x0 - A) (x0 + A), ‖D n x - L‖ ≤ M) :
    ‖demodSum (D 0) x0 A n N - A ^ n / (2 ^ n * n.factorial) * L‖ ≤ A ^ n / (2 ^ n * n.factorial) * M := by
  set κ : ℝ := A ^ n / (2 ^ n * n.factorial) with hκ
  have hκ0 : 0 ≤ κ := by positivity
  have hκc : (A ^ n / (2 ^ n * n.factorial) : ℂ) = (κ : ℝ) := by
    rw [hκ]
    push_cast
    rfl
  rw [hκc]
  set S := demodSum (D 0) x0 A n N with hS
  set Z := S - κ * L with hZ
  have hM0 : 0 ≤ M := (norm_nonneg _).trans (hM x0 ⟨by linarith, by linarith⟩)
  rcases eq_or_ne Z 0 with h0 | h0
  · rw [h0, norm_zero]
    exact mul_nonneg hκ0 hM0
  have hN0 : N ≠ 0 := by omega
  set u : ℂ := (starRingEnd ℂ) Z with hu
  have hT : Tower n (fun k x => (u * D k x).re) (x0 - A) (x0 + A) := fun k hk x hx =>
    (Complex.reCLM.hasFDerivAt.comp_hasDerivAt x ((hD k hk x hx).const_mul u))
  obtain ⟨ξ, hξ, h⟩ := harmonic_mean_value hn hN hA hT
  have hre : demodSum (fun x => ((u * D 0 x).re : ℝ)) x0 A n N = ((u * S).re : ℝ) := by
    rw [hS, demodSum_cos _ _ _ _ hN0, demodSum_cos _ _ _ _ hN0]
    have e1 : u * ((∑ k ∈ range N, D 0 (x0 + Real.cos (phase N k) * A) * (Real.cos (n * phase N k) : ℝ)) / N) =
        (∑ k ∈ range N, ((Real.cos (n * phase N k) : ℝ) : ℂ) * (u * D 0 (x0 + Real.cos (phase N k) * A))) / (N : ℝ) := by
      rw [← mul_div_assoc, mul_sum]
      congr 1
      exact sum_congr rfl fun k _ => by ring
    rw [e1, Complex.div_ofReal_re, Complex.re_sum]
    simp only [Complex.re_ofReal_mul]
    push_cast
    congr 1
    exact sum_congr rfl fun k _ => by ring
  rw [hre] at h
  have h1 : (u * S).re = κ * (u * D n ξ).re := Complex.ofReal_injective h
  have h2 : (u * Z).re = ‖Z‖ ^ 2 := by
    rw [hu, mul_comm, Complex.mul_conj, Complex.normSq_eq_norm_sq, Complex.ofReal_re]
  have h3 : (u * Z).re = κ * (u * (D n ξ - L)).re := by
    have h6 : (u * (κ * L)).re = κ * (u * L).re := by
      rw [← Complex.re_ofReal_mul]
      congr 1
      ring
    rw [hZ, mul_sub, mul_sub, Complex.sub_re, Complex.sub_re, h1, h6]
    ring
  have h4 : (u * (D n ξ - L)).re ≤ ‖Z‖ * M := by
    refine (Complex.re_le_norm _).trans ?_
    rw [norm_mul, hu, Complex.norm_conj]
    exact mul_le_mul_of_nonneg_left (hM ξ hξ) (norm_nonneg _)
  have hpos : 0 < ‖Z‖ := norm_pos_iff.2 h0
  have h5 : ‖Z‖ * ‖Z‖ ≤ ‖Z‖ * (κ * M) := by
    have := mul_le_mul_of_nonneg_left h4 hκ0
    nlinarith
  exact le_of_mul_le_mul_left h5 hpos

end Snompy
