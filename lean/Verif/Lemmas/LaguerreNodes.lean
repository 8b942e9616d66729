import Verif.Lemmas.LaguerreConv
import Mathlib.Algebra.Group.ForwardDiff
import Mathlib.RingTheory.Polynomial.Pochhammer

/-!
# The nodes of a correct rule are the zeros of the Laguerre polynomial
-/

namespace Snompy.Laguerre

open Polynomial

/-- The Laguerre polynomial `L_n`. -/
noncomputable def lag (n : ℕ) : ℝ[X] := ∑ k ∈ Finset.range (n + 1), C ((-1) ^ k * (n.choose k : ℝ) / k.factorial) * X ^ k

theorem lag_eval (n : ℕ) (x : ℝ) :
    (lag n).eval x = ∑ k ∈ Finset.range (n + 1), (-1) ^ k * (n.choose k : ℝ) / k.factorial * x ^ k := by
  simp only [lag, eval_finsetSum, eval_mul, eval_C, eval_pow, eval_X]

theorem alternating (n j : ℕ) (h : j < n) :
    ∑ k ∈ Finset.range (n + 1), (-1) ^ k * (n.choose k : ℝ) / k.factorial * ((k + j).factorial : ℝ) = 0 := by
  have h1 := congrFun (Polynomial.fwdDiff_iter_eq_zero_of_degree_lt (P := ascPochhammer ℝ j) (n := n)
    (by rw [ascPochhammer_natDegree]; exact h)) 1
  rw [fwdDiff_iter_eq_sum_shift, Pi.zero_apply] at h1
  have h2 : ∀ k ∈ Finset.range (n + 1), (-1) ^ k * (n.choose k : ℝ) / k.factorial * ((k + j).factorial : ℝ) =
      (-1) ^ n * (((-1 : ℤ) ^ (n - k) * n.choose k) • (ascPochhammer ℝ j).eval (1 + k • (1 : ℝ))) := fun k hk => by
    have hkn : k ≤ n := Nat.lt_succ_iff.1 (Finset.mem_range.1 hk)
    have e1 : (1 : ℝ) + k • (1 : ℝ) = ((k + 1 : ℕ) : ℝ) := by
      simp only [nsmul_eq_mul, mul_one]
      push_cast
      ring
    have e2 : ((k + j).factorial : ℝ) = k.factorial * (ascPochhammer ℝ j).eval ((k + 1 : ℕ) : ℝ) := by
      rw [← ascPochhammer_eval_cast, ascPochhammer_nat_eq_ascFactorial, ← Nat.factorial_mul_ascFactorial]
      push_cast
      rfl
    have e3 : ((-1 : ℝ)) ^ n * (-1) ^ (n - k) = (-1) ^ k := by
      obtain ⟨m, rfl⟩ := Nat.exists_eq_add_of_le hkn
      rw [Nat.add_sub_cancel_left, pow_add, mul_assoc, ← mul_pow]
      simp
    have e4 : (k.factorial : ℝ) ≠ 0 := by positivity
    rw [e1, e2, zsmul_eq_mul]
    push_cast
    rw [← mul_assoc, ← mul_assoc, ← mul_assoc, e3, div_mul_cancel₀ _ e4]
  rw [Finset.sum_congr rfl h2, ← Finset.mul_sum, h1, mul_zero]

theorem quad_lag_pow {n : ℕ} {rule : List (ℝ × ℝ)} (hr : GaussLaguerre n rule) {j : ℕ} (h : j < n) :
    quad rule (fun x => (lag n).eval x * x ^ j) = 0 := by
  have e : (fun x : ℝ => (lag n).eval x * x ^ j) = fun x => ∑ k ∈ Finset.range (n + 1),
      (-1) ^ k * (n.choose k : ℝ) / k.factorial * x ^ (k + j) := by
    funext x
    rw [lag_eval, Finset.sum_mul]
    exact Finset.sum_congr rfl fun k _ => by rw [pow_add, mul_assoc]
  rw [e, quad_sum, ← alternating n j h]
  refine Finset.sum_congr rfl fun k hk => ?_
  rw [quad_mul, quad_pow hr (by have := Finset.mem_range.1 hk; omega)]

theorem quad_lag {n : ℕ} {rule : List (ℝ × ℝ)} (hr : GaussLaguerre n rule) {p : ℝ[X]} (h : p.natDegree < n) :
    quad rule (fun x => (lag n).eval x * p.eval x) = 0 := by
  have e : (fun x : ℝ => (lag n).eval x * p.eval x) = fun x => ∑ j ∈ Finset.range (p.natDegree + 1),
      p.coeff j * ((lag n).eval x * x ^ j) := by
    funext x
    rw [eval_eq_sum_range (p := p), Finset.mul_sum]
    exact Finset.sum_congr rfl fun k _ => by ring
  rw [e, quad_sum]
  refine Finset.sum_eq_zero fun j hj => ?_
  rw [quad_mul, quad_lag_pow hr (by have := Finset.mem_range.1 hj; omega), mul_zero]

/-- The nodes, without repetition. -/
noncomputable def nodes (rule : List (ℝ × ℝ)) : Finset ℝ := (rule.map Prod.fst).toFinset

theorem mem_nodes {rule : List (ℝ × ℝ)} {x : ℝ} : x ∈ nodes rule ↔ ∃ xw ∈ rule, xw.1 = x := by
  simp [nodes]

theorem nodes_card_le (rule : List (ℝ × ℝ)) : (nodes rule).card ≤ rule.length := by
  unfold nodes
  exact (List.toFinset_card_le _).trans (by rw [List.length_map])

/-- The polynomial that vanishes at all nodes but one. -/
noncomputable def others (rule : List (ℝ × ℝ)) (x : ℝ) : ℝ[X] := ∏ y ∈ (nodes rule).erase x, (X - C y)

theorem others_natDegree (rule : List (ℝ × ℝ)) (x : ℝ) : (others rule x).natDegree = ((nodes rule).erase x).card := by
  rw [others, natDegree_prod_of_monic _ _ fun y _ => monic_X_sub_C y]
  simp

theorem others_eval_ne (rule : List (ℝ × ℝ)) (x : ℝ) : (others rule x).eval x ≠ 0 := by
  rw [others, eval_prod, Finset.prod_ne_zero_iff]
  intro y hy
  rw [eval_sub, eval_X, eval_C, sub_ne_zero]
  exact (Finset.ne_of_mem_erase hy).symm

theorem others_eval_eq {rule : List (ℝ × ℝ)} {x y : ℝ} (hy : y ∈ nodes rule) (h : y ≠ x) : (others rule x).eval y = 0 := by
  rw [others, eval_prod]
  exact Finset.prod_eq_zero (Finset.mem_erase.2 ⟨h, hy⟩) (by rw [eval_sub, eval_X, eval_C, sub_self])

theorem others_degree_lt {n : ℕ} {rule : List (ℝ × ℝ)} (hr : GaussLaguerre n rule) {x : ℝ} (hx : x ∈ nodes rule) :
    (others rule x).natDegree < n := by
  rw [others_natDegree, Finset.card_erase_of_mem hx]
  have h1 := nodes_card_le rule
  rw [hr.length] at h1
  have h2 := Finset.card_pos.2 ⟨x, hx⟩
  omega

/-- A sum of terms of one sign that vanishes. -/
theorem quad_eq_zero {n : ℕ} {rule : List (ℝ × ℝ)} (hr : GaussLaguerre n rule) {f : ℝ → ℝ} (h : ∀ x ∈ nodes rule, 0 ≤ f x)
    (h0 : quad rule f = 0) : ∀ x ∈ nodes rule, f x = 0 := by
  intro x hx
  obtain ⟨xw, hxw, rfl⟩ := mem_nodes.1 hx
  have hn : ∀ y ∈ rule.map fun xw => xw.2 * f xw.1, 0 ≤ y := fun y hy => by
    obtain ⟨a, ha, rfl⟩ := List.mem_map.1 hy
    exact mul_nonneg (hr.weight_pos a ha).le (h _ (mem_nodes.2 ⟨a, ha, rfl⟩))
  have h1 : xw.2 * f xw.1 = 0 := le_antisymm
    ((List.single_le_sum hn _ (List.mem_map_of_mem (f := fun xw : ℝ × ℝ => xw.2 * f xw.1) hxw)).trans h0.le)
    (hn _ (List.mem_map_of_mem (f := fun xw : ℝ × ℝ => xw.2 * f xw.1) hxw))
  exact (mul_eq_zero.1 h1).resolve_left (hr.weight_pos xw hxw).ne'

/-- Every node is a zero of the Laguerre polynomial. -/
theorem node_root {n : ℕ} {rule : List (ℝ × ℝ)} (hr : GaussLaguerre n rule) {x : ℝ} (hx : x ∈ nodes rule) :
    (lag n).eval x = 0 := by
  set c := (lag n).eval x * (others rule x).eval x with hc
  have h0 : quad rule (fun y => c * ((lag n).eval y * (others rule x).eval y)) = 0 := by
    rw [quad_mul, quad_lag hr (others_degree_lt hr hx), mul_zero]
  have h1 := quad_eq_zero hr (fun y hy => ?_) h0 x hx
  · rw [← hc, mul_self_eq_zero, hc] at h1
    exact (mul_eq_zero.1 h1).resolve_right (others_eval_ne rule x)
  · by_cases h : y = x
    · rw [h, ← hc]
      exact mul_self_nonneg c
    · rw [others_eval_eq hy h]
      simp

theorem lag_coeff (n k : ℕ) : (lag n).coeff k = (-1) ^ k * (n.choose k : ℝ) / k.factorial := by
  simp only [lag, finsetSum_coeff, coeff_C_mul, coeff_X_pow, mul_ite, mul_one, mul_zero]
  rw [Finset.sum_ite_eq (Finset.range (n + 1)) k]
  split
  · rfl
  · next h =>
    rw [Nat.choose_eq_zero_of_lt (by rw [Finset.mem_range] at h; omega)]
    simp

/-- The three-term recurrence. -/
theorem lag_rec (n : ℕ) : C ((n : ℝ) + 2) * lag (n + 2) = C (2 * (n : ℝ) + 3) * lag (n + 1) - X * lag (n + 1) - C ((n : ℝ) + 1) * lag n := by
  ext k
  cases k with
  | zero =>
    simp only [coeff_sub, coeff_C_mul, coeff_X_mul_zero, lag_coeff]
    norm_num
    ring
  | succ k =>
    simp only [coeff_sub, coeff_C_mul, coeff_X_mul, lag_coeff]
    have hk : ((k + 1).factorial : ℝ) = (k + 1) * k.factorial := by rw [Nat.factorial_succ]; push_cast; ring
    have h0 : (k.factorial : ℝ) ≠ 0 := by positivity
    have h1 : (k : ℝ) + 1 ≠ 0 := by positivity
    have p1 : ((n + 2).choose (k + 1) : ℝ) = (n + 1).choose k + (n + 1).choose (k + 1) := by
      rw [Nat.choose_succ_succ (n + 1) k]; push_cast; ring
    have p2 : ((n + 1).choose (k + 1) : ℝ) = n.choose k + n.choose (k + 1) := by
      rw [Nat.choose_succ_succ n k]; push_cast; ring
    have p3 : (n.choose k : ℝ) * (n + 1) = (n + 1).choose k * (n + 1 - k) := by
      rcases le_or_gt k (n + 1) with h | h
      · have := Nat.choose_mul_succ_eq n k
        have h' := congrArg (Nat.cast (R := ℝ)) this
        push_cast [Nat.cast_sub h] at h'
        exact h'
      · rw [Nat.choose_eq_zero_of_lt h, Nat.choose_eq_zero_of_lt (by omega)]
        simp
    rw [hk, p1, p2, pow_succ]
    field_simp
    linear_combination ((-1 : ℝ)) * (-1) * p3

theorem lag_rec_eval (n : ℕ) (x : ℝ) :
    ((n : ℝ) + 2) * (lag (n + 2)).eval x = (2 * n + 3 - x) * (lag (n + 1)).eval x - (n + 1) * (lag n).eval x := by
  have := congrArg (eval x) (lag_rec n)
  simp only [eval_mul, eval_sub, eval_C, eval_X] at this
  rw [this]
  ring

/-- Beyond the zeros the polynomials grow with the degree. -/
theorem lag_grow (n : ℕ) {x : ℝ} (hx : 4 * (n : ℝ) + 2 ≤ x) : 1 ≤ |(lag n).eval x| ∧ |(lag n).eval x| ≤ |(lag (n + 1)).eval x| := by
  induction n with
  | zero =>
    have h0 : (lag 0).eval x = 1 := by simp [lag]
    have h1 : (lag 1).eval x = 1 - x := by simp [lag_eval, Finset.sum_range_succ]; ring
    rw [h0, zero_add, h1]
    norm_num at hx
    rw [abs_one, abs_of_nonpos (by linarith)]
    exact ⟨le_rfl, by linarith⟩
  | succ n ih =>
    push_cast at hx
    obtain ⟨h1, h2⟩ := ih (by linarith)
    refine ⟨h1.trans h2, ?_⟩
    have e := lag_rec_eval n x
    have hn : (0 : ℝ) ≤ n := Nat.cast_nonneg n
    have t : (x - (2 * n + 3)) * |(lag (n + 1)).eval x| ≤ (n + 2) * |(lag (n + 2)).eval x| + (n + 1) * |(lag n).eval x| := by
      have e' : (x - (2 * n + 3)) * (lag (n + 1)).eval x = -((n + 2) * (lag (n + 2)).eval x + (n + 1) * (lag n).eval x) := by linarith
      have := congrArg abs e'
      rw [abs_neg, abs_mul, abs_of_nonneg (by linarith : 0 ≤ x - (2 * n + 3))] at this
      rw [this]
      refine (abs_add_le _ _).trans_eq ?_
      rw [abs_mul, abs_mul, abs_of_nonneg (by linarith : (0 : ℝ) ≤ n + 2), abs_of_nonneg (by linarith : (0 : ℝ) ≤ n + 1)]
    have h3 : (n + 1) * |(lag n).eval x| ≤ (n + 1) * |(lag (n + 1)).eval x| := mul_le_mul_of_nonneg_left h2 (by linarith)
    have h4 : ((n : ℝ) + 2) * |(lag (n + 1)).eval x| ≤ (x - (2 * n + 3) - (n + 1)) * |(lag (n + 1)).eval x| :=
      mul_le_mul_of_nonneg_right (by linarith) (abs_nonneg _)
    have : ((n : ℝ) + 2) * |(lag (n + 1)).eval x| ≤ (n + 2) * |(lag (n + 2)).eval x| := by linarith
    exact le_of_mul_le_mul_left this (by linarith)

/-- The zeros are not large. -/
theorem root_lt {n : ℕ} (hn : 0 < n) {x : ℝ} (h : (lag n).eval x = 0) : x < 4 * n - 2 := by
  by_contra hx
  push Not at hx
  obtain ⟨m, rfl⟩ := Nat.exists_eq_succ_of_ne_zero hn.ne'
  have := lag_grow m (x := x) (by push_cast at hx; linarith)
  rw [Nat.succ_eq_add_one] at h
  rw [h, abs_zero] at this
  linarith

theorem lag_step (k : ℕ) (x : ℝ) :
    ((k : ℝ) + 1) * ((lag (k + 1)).eval x - (lag k).eval x) = -x * ∑ j ∈ Finset.range (k + 1), (lag j).eval x := by
  induction k with
  | zero =>
    simp [lag_eval, Finset.sum_range_succ]
  | succ k ih =>
    rw [Finset.sum_range_succ, mul_add, ← ih]
    have := lag_rec_eval k x
    push_cast
    linarith

/-- Before the zeros. -/
theorem lag_between {n : ℕ} {x : ℝ} (hx : 0 ≤ x) (h : n * x < 1) : ∀ k ≤ n, 1 - k * x ≤ (lag k).eval x ∧ (lag k).eval x ≤ 1 := by
  intro k
  induction k using Nat.strong_induction_on with
  | _ k ih =>
    intro hk
    cases k with
    | zero => simp [lag]
    | succ k =>
      have hpos : ∀ j ∈ Finset.range (k + 1), 0 ≤ (lag j).eval x ∧ (lag j).eval x ≤ 1 := fun j hj => by
        have hj' := Finset.mem_range.1 hj
        obtain ⟨h1, h2⟩ := ih j hj' (by omega)
        have : (j : ℝ) * x ≤ n * x := mul_le_mul_of_nonneg_right (by exact_mod_cast (by omega : j ≤ n)) hx
        exact ⟨by linarith, h2⟩
      have hs0 := Finset.sum_nonneg fun j hj => (hpos j hj).1
      have hs1 := Finset.sum_le_sum fun j hj => (hpos j hj).2
      simp only [Finset.sum_const, Finset.card_range, nsmul_eq_mul, mul_one] at hs1
      have e := lag_step k x
      obtain ⟨h1, h2⟩ := ih k (by omega) (by omega)
      have hk0 : (0 : ℝ) < k + 1 := by positivity
      push_cast at hs1 ⊢
      have b1 := mul_le_mul_of_nonneg_left hs1 hx
      have b2 := mul_nonneg hx hs0
      have c1 : ((k : ℝ) + 1) * ((lag (k + 1)).eval x - (lag k).eval x) ≤ (k + 1) * 0 := by rw [e]; linarith
      have c2 : ((k : ℝ) + 1) * (-x) ≤ (k + 1) * ((lag (k + 1)).eval x - (lag k).eval x) := by rw [e]; linarith
      have c1' := le_of_mul_le_mul_left c1 hk0
      have c2' := le_of_mul_le_mul_left c2 hk0
      exact ⟨by linarith, by linarith⟩

/-- The zeros are not small. -/
theorem root_ge {n : ℕ} (hn : 0 < n) {x : ℝ} (hx : 0 ≤ x) (h : (lag n).eval x = 0) : 1 / n ≤ x := by
  by_contra hlt
  push Not at hlt
  have hn' : (0 : ℝ) < n := Nat.cast_pos.2 hn
  have hnx : n * x < 1 := by
    rw [lt_div_iff₀ hn'] at hlt
    linarith
  have := (lag_between hx hnx n le_rfl).1
  linarith
/-! ### There is one rule -/

theorem quad_poly {n : ℕ} {rule : List (ℝ × ℝ)} (hr : GaussLaguerre n rule) {p : ℝ[X]} (h : p.natDegree < 2 * n) :
    quad rule (fun x => p.eval x) = Lam p := by
  have e : (fun x : ℝ => p.eval x) = fun x => ∑ j ∈ Finset.range (p.natDegree + 1), p.coeff j * x ^ j := by
    funext x
    rw [eval_eq_sum_range]
  have e2 : ∀ s : Finset ℕ, Lam (∑ j ∈ s, p.coeff j • X ^ j) = ∑ j ∈ s, p.coeff j * j.factorial := fun s => by
    induction s using Finset.induction_on with
    | empty => simp [Lam]
    | insert a s ha ih => rw [Finset.sum_insert ha, Finset.sum_insert ha, Lam_add, ih, Lam_smul, Lam_pow]
  have e3 : p = ∑ j ∈ Finset.range (p.natDegree + 1), p.coeff j • X ^ j := by
    conv_lhs => rw [p.as_sum_range_C_mul_X_pow]
    simp only [smul_eq_C_mul]
  rw [e, quad_sum]
  conv_rhs => rw [e3, e2]
  refine Finset.sum_congr rfl fun j hj => ?_
  rw [quad_mul, quad_pow hr (by have := Finset.mem_range.1 hj; omega)]

theorem nodes_card {n : ℕ} {rule : List (ℝ × ℝ)} (hr : GaussLaguerre n rule) : (nodes rule).card = n := by
  refine le_antisymm (hr.length ▸ nodes_card_le rule) ?_
  by_contra hlt
  push Not at hlt
  set p : ℝ[X] := ∏ y ∈ nodes rule, (X - C y) with hp
  have hm : p.Monic := monic_prod_of_monic _ _ fun y _ => monic_X_sub_C y
  have hd : p.natDegree = (nodes rule).card := by
    rw [hp, natDegree_prod_of_monic _ _ fun y _ => monic_X_sub_C y]
    simp
  have h1 : quad rule (fun x => (p * p).eval x) = Lam (p * p) := quad_poly hr (by
    rw [hm.natDegree_mul hm]
    omega)
  have h2 : quad rule (fun x => (p * p).eval x) = 0 := by
    refine List.sum_eq_zero fun y hy => ?_
    obtain ⟨xw, hxw, rfl⟩ := List.mem_map.1 hy
    have : p.eval xw.1 = 0 := by
      rw [hp, eval_prod]
      exact Finset.prod_eq_zero (mem_nodes.2 ⟨xw, hxw, rfl⟩) (by rw [eval_sub, eval_X, eval_C, sub_self])
    simp only [eval_mul, this, mul_zero]
  have h3 : 0 < Lam (p * p) := Lam_pos (fun x _ => by rw [eval_mul]; exact mul_self_nonneg _) (mul_ne_zero hm.ne_zero hm.ne_zero)
  linarith

theorem nodes_nodup {n : ℕ} {rule : List (ℝ × ℝ)} (hr : GaussLaguerre n rule) : (rule.map Prod.fst).Nodup := by
  have h := nodes_card hr
  rw [nodes, List.card_toFinset] at h
  rw [← List.dedup_eq_self]
  refine List.Sublist.eq_of_length (List.dedup_sublist _) ?_
  rw [h, List.length_map, hr.length]

theorem lag_ne_zero (n : ℕ) : lag n ≠ 0 := fun h => by
  have h1 := lag_eval n 0
  rw [h, eval_zero, Finset.sum_range_succ'] at h1
  simp at h1

theorem lag_natDegree_le (n : ℕ) : (lag n).natDegree ≤ n := by
  refine natDegree_sum_le_of_forall_le _ _ fun k hk => (natDegree_C_mul_X_pow_le _ _).trans ?_
  have := Finset.mem_range.1 hk
  omega

/-- The nodes are all the zeros. -/
theorem mem_nodes_iff {n : ℕ} {rule : List (ℝ × ℝ)} (hr : GaussLaguerre n rule) (x : ℝ) :
    x ∈ nodes rule ↔ (lag n).eval x = 0 := by
  have hsub : nodes rule ⊆ (lag n).roots.toFinset := fun y hy => by
    rw [Multiset.mem_toFinset, mem_roots (lag_ne_zero n)]
    exact node_root hr hy
  have hcard : (lag n).roots.toFinset.card ≤ (nodes rule).card := by
    rw [nodes_card hr]
    exact (Multiset.toFinset_card_le _).trans ((card_roots' _).trans (lag_natDegree_le n))
  rw [Finset.eq_of_subset_of_card_le hsub hcard, Multiset.mem_toFinset, mem_roots (lag_ne_zero n)]
  rfl

theorem quad_others {n : ℕ} {rule : List (ℝ × ℝ)} (hr : GaussLaguerre n rule) {x w : ℝ} (h : (x, w) ∈ rule) :
    quad rule (fun y => (others rule x).eval y) = w * (others rule x).eval x := by
  obtain ⟨a, b, hab⟩ := List.append_of_mem h
  have hd := nodes_nodup hr
  have hz : ∀ xw ∈ rule, xw.1 ≠ x → xw.2 * (others rule x).eval xw.1 = 0 := fun xw hxw hne => by
    rw [others_eval_eq (mem_nodes.2 ⟨xw, hxw, rfl⟩) hne, mul_zero]
  have hmem : ∀ xw, xw ∈ a ∨ xw ∈ b → xw.1 ≠ x := fun xw hxw hne => by
    rw [hab, List.map_append, List.map_cons, List.nodup_middle, List.nodup_cons, ← List.map_append] at hd
    exact hd.1 (List.mem_map.2 ⟨xw, List.mem_append.2 hxw, hne⟩)
  have ha : (a.map fun xw => xw.2 * (others rule x).eval xw.1).sum = 0 := List.sum_eq_zero fun y hy => by
    obtain ⟨xw, hxw, rfl⟩ := List.mem_map.1 hy
    exact hz xw (hab ▸ List.mem_append_left _ hxw) (hmem xw (Or.inl hxw))
  have hb : (b.map fun xw => xw.2 * (others rule x).eval xw.1).sum = 0 := List.sum_eq_zero fun y hy => by
    obtain ⟨xw, hxw, rfl⟩ := List.mem_map.1 hy
    exact hz xw (hab ▸ List.mem_append_right _ (List.mem_cons_of_mem _ hxw)) (hmem xw (Or.inr hxw))
  generalize others rule x = p at *
  unfold quad
  rw [hab, List.map_append, List.sum_append, List.map_cons, List.sum_cons, ha, hb]
  ring

theorem rule_mem {n : ℕ} {r₁ r₂ : List (ℝ × ℝ)} (h₁ : GaussLaguerre n r₁) (h₂ : GaussLaguerre n r₂) {xw : ℝ × ℝ} (h : xw ∈ r₁) :
    xw ∈ r₂ := by
  obtain ⟨x, w⟩ := xw
  have hx1 : x ∈ nodes r₁ := mem_nodes.2 ⟨_, h, rfl⟩
  have hn : nodes r₁ = nodes r₂ := Finset.ext fun y => by rw [mem_nodes_iff h₁, mem_nodes_iff h₂]
  obtain ⟨⟨x', v⟩, hv, rfl⟩ := mem_nodes.1 (hn ▸ hx1)
  have ho : others r₁ x' = others r₂ x' := by unfold others; rw [hn]
  have hd : (others r₁ x').natDegree < n := others_degree_lt h₁ hx1
  have e1 := (quad_others (x := x') h₁ h).symm.trans (quad_poly h₁ (by omega))
  have e2 := (quad_others (x := x') h₂ hv).symm.trans (quad_poly h₂ (by rw [← ho]; omega))
  rw [← ho, ← e1] at e2
  rw [← mul_right_cancel₀ (others_eval_ne r₁ x') e2]
  exact hv

/-- Two correct rules differ at most by the order of the nodes. -/
theorem rule_perm {n : ℕ} {r₁ r₂ : List (ℝ × ℝ)} (h₁ : GaussLaguerre n r₁) (h₂ : GaussLaguerre n r₂) : r₁.Perm r₂ :=
  (List.perm_ext_iff_of_nodup (nodes_nodup h₁).of_map (nodes_nodup h₂).of_map).2 fun _ => ⟨rule_mem h₁ h₂, rule_mem h₂ h₁⟩

end Snompy.Laguerre
