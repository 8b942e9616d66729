import Verif.Spec.Inversion
import Mathlib.Analysis.Complex.Polynomial.Basic
import Mathlib.Data.List.DropRight

/-!
# `Polynomial(c).roots()`
-/

namespace Snompy

open Polynomial

theorem polyOf_coeff (c : List ℂ) (j : ℕ) : (polyOf c).coeff j = c.getD j 0 := by
  unfold polyOf
  rw [finsetSum_coeff]
  simp only [coeff_monomial]
  rw [Finset.sum_ite_eq' (Finset.range c.length) j]
  split_ifs with h
  · rfl
  · rw [List.getD_eq_getElem?_getD, List.getElem?_eq_none (by simpa using h)]
    rfl

theorem polyOf_append_zeros (c : List ℂ) (k : ℕ) : polyOf (c ++ List.replicate k 0) = polyOf c := by
  ext j
  rw [polyOf_coeff, polyOf_coeff]
  simp only [List.getD_eq_getElem?_getD]
  rcases lt_or_ge j c.length with h | h
  · rw [List.getElem?_append_left h]
  · rw [List.getElem?_append_right h, List.getElem?_eq_none (l := c) h, List.getElem?_replicate]
    split_ifs <;> rfl

theorem polyOf_natDegree (c : List ℂ) {last : ℂ} (h : last ≠ 0) :
    (polyOf (c ++ [last])).natDegree = c.length := by
  apply natDegree_eq_of_le_of_coeff_ne_zero
  · rw [natDegree_le_iff_coeff_eq_zero]
    intro N hN
    rw [polyOf_coeff, List.getD_eq_getElem?_getD, List.getElem?_eq_none (by simp; omega)]
    rfl
  · rw [polyOf_coeff]
    simpa [List.getD_eq_getElem?_getD] using h

theorem polyOf_ne_zero (c : List ℂ) {last : ℂ} (h : last ≠ 0) : polyOf (c ++ [last]) ≠ 0 := by
  intro h0
  have := polyOf_coeff (c ++ [last]) c.length
  rw [h0] at this
  simp [List.getD_eq_getElem?_getD] at this
  exact h this.symm

@[simp] theorem polyOf_nil : polyOf [] = 0 := by simp [polyOf]

theorem polyOf_singleton (a : ℂ) : polyOf [a] = C a := by
  simp [polyOf]

theorem polyOf_pair (a b : ℂ) : polyOf [a, b] = C b * X + C a := by
  simp only [polyOf, List.length_cons, List.length_nil, Finset.sum_range_succ, Finset.sum_range_zero,
    zero_add]
  simp only [List.getD_cons_zero, List.getD_cons_succ, monomial_zero_left]
  rw [add_comm, C_mul_X_eq_monomial]

theorem card_roots_complex (p : ℂ[X]) : p.roots.card = p.natDegree :=
  (splits_iff_card_roots.1 (IsAlgClosed.splits p))

theorem allFinite_map (l : List ℂ) : allFinite (l.map FP.num) = some l := by
  induction l with
  | nil => rfl
  | cons a l ih => simp [allFinite, ih]

theorem allFinite_eq_some {l : List (FP ℂ)} {r : List ℂ} (h : allFinite l = some r) :
    l = r.map FP.num := by
  induction l generalizing r with
  | nil => simp only [allFinite, Option.some.injEq] at h; subst h; rfl
  | cons a l ih =>
    cases a with
    | nan => simp [allFinite] at h
    | num a =>
      simp only [allFinite, Option.map_eq_some_iff] at h
      obtain ⟨r', hr, rfl⟩ := h
      rw [ih hr]; rfl

open Classical in
/-- Trimming removes trailing zeros. -/
theorem trim_decomp (c : List (FP ℂ)) :
    ∃ k, c = c.rdropWhile (fun x => decide (x = FP.num 0)) ++ List.replicate k (FP.num 0) := by
  refine ⟨(c.rtakeWhile fun x => decide (x = FP.num 0)).length, ?_⟩
  have h1 : c.rdropWhile (fun x => decide (x = FP.num 0)) ++
      c.rtakeWhile (fun x => decide (x = FP.num 0)) = c := by
    rw [List.rdropWhile, List.rtakeWhile, ← List.reverse_append, List.takeWhile_append_dropWhile,
      List.reverse_reverse]
  have h2 : c.rtakeWhile (fun x => decide (x = FP.num 0)) =
      List.replicate (c.rtakeWhile fun x => decide (x = FP.num 0)).length (FP.num 0) := by
    rw [List.eq_replicate_iff]
    exact ⟨rfl, fun b hb => by simpa using List.mem_rtakeWhile_imp hb⟩
  rw [← h2, h1]

open Classical in
theorem trimseq_cases (c : List (FP ℂ)) (hc : c ≠ []) :
    ((∃ k, c = List.replicate (k + 1) (FP.num 0)) ∧ trimseq c = [FP.num 0]) ∨
    ∃ (l : List (FP ℂ)) (last : FP ℂ) (k : ℕ), last ≠ FP.num 0 ∧ trimseq c = l ++ [last] ∧
      c = l ++ [last] ++ List.replicate k (FP.num 0) := by
  obtain ⟨k, hk⟩ := trim_decomp c
  rcases List.eq_nil_or_concat (c.rdropWhile fun x => decide (x = FP.num 0)) with h | ⟨l, last, h⟩
  · left
    rw [h, List.nil_append] at hk
    cases k with
    | zero => exact absurd hk hc
    | succ k =>
      refine ⟨⟨k, hk⟩, ?_⟩
      have : (c.reverse.dropWhile fun x => decide (x = FP.num 0)).reverse = [] := h
      unfold trimseq
      rw [this]
      simp [hk, List.replicate_succ]
  · right
    rw [List.concat_eq_append] at h
    refine ⟨l, last, k, ?_, ?_, by rw [← h]; exact hk⟩
    · have hl : c.rdropWhile (fun x => decide (x = FP.num 0)) ≠ [] := by rw [h]; simp
      have := List.rdropWhile_last_not (fun x => decide (x = FP.num 0)) c hl
      simpa [h] using this
    · have : (c.reverse.dropWhile fun x => decide (x = FP.num 0)).reverse = l ++ [last] := h
      unfold trimseq
      rw [this]
      cases l <;> rfl

theorem map_num_append_eq {l : List (FP ℂ)} {last : FP ℂ} {k : ℕ} {r : List ℂ}
    (h : r.map FP.num = l ++ [last] ++ List.replicate k (FP.num 0)) :
    ∃ l' last', l = l'.map FP.num ∧ last = FP.num last' ∧ r = l' ++ [last'] ++ List.replicate k 0 := by
  rw [List.map_eq_append_iff] at h
  obtain ⟨r1, r2, rfl, h1, h2⟩ := h
  rw [List.map_eq_append_iff] at h1
  obtain ⟨r3, r4, rfl, h3, h4⟩ := h1
  rw [List.map_eq_singleton_iff] at h4
  obtain ⟨x, rfl, h5⟩ := h4
  refine ⟨r3, x, h3.symm, h5.symm, ?_⟩
  congr 1
  rw [List.eq_replicate_iff]
  refine ⟨by simpa using congrArg List.length h2, fun b hb => ?_⟩
  have : FP.num b ∈ List.replicate k (FP.num (0 : ℂ)) := by
    rw [← h2]; exact List.mem_map_of_mem hb
  simpa using List.eq_of_mem_replicate this

/-- The roots of a polynomial with finite coefficients. -/
theorem polyRoots_finite {sv : Solver} (hs : sv.Correct) (c : List ℂ) (hc : c ≠ []) :
    ∃ r : List ℂ, polyRoots sv (c.map FP.num) = .ok (r.map FP.num) ∧ (r : Multiset ℂ) = (polyOf c).roots := by
  have hc' : c.map (FP.num (α := ℂ)) ≠ [] := by simpa using hc
  unfold polyRoots
  rw [if_neg hc']
  rcases trimseq_cases _ hc' with ⟨⟨k, hk⟩, ht⟩ | ⟨l, last, k, hl, ht, hk⟩
  · rw [ht]
    refine ⟨[], rfl, ?_⟩
    have : c = List.replicate (k + 1) 0 := by
      rw [List.eq_replicate_iff]
      refine ⟨by simpa using congrArg List.length hk, fun b hb => ?_⟩
      have : FP.num b ∈ List.replicate (k + 1) (FP.num (0 : ℂ)) := by
        rw [← hk]; exact List.mem_map_of_mem hb
      simpa using List.eq_of_mem_replicate this
    have h0 : polyOf c = 0 := by
      rw [this, ← List.nil_append (List.replicate _ _), polyOf_append_zeros, polyOf_nil]
    rw [h0]
    simp
  · rw [ht]
    obtain ⟨l', x, rfl, rfl, rfl⟩ := map_num_append_eq hk
    have hx : x ≠ 0 := fun h => hl (by rw [h])
    rw [polyOf_append_zeros]
    match l' with
    | [] =>
      refine ⟨[], rfl, ?_⟩
      rw [List.nil_append, polyOf_singleton]
      simp
    | [a] =>
      refine ⟨[-a / x], ?_, ?_⟩
      · simp [FP.num_div _ hx]
      · simp only [List.cons_append, List.nil_append]
        rw [polyOf_pair, roots_C_mul_X_add_C _ hx]
        simp [neg_div]
        field_simp
    | a :: b :: l' =>
      have hfin : allFinite ((a :: b :: l').map FP.num ++ [FP.num x]) = some ((a :: b :: l') ++ [x]) := by
        rw [← allFinite_map]; simp
      refine ⟨sv.eigvals ((a :: b :: l') ++ [x]), ?_, hs.roots _ _ (by simp) hx⟩
      cases l' with
      | nil =>
        simp only [List.map_cons, List.map_nil, List.cons_append, List.nil_append] at hfin ⊢
        rw [hfin]
      | cons d l' =>
        simp only [List.map_cons, List.cons_append] at hfin ⊢
        rw [hfin]

/-- Any finite value returned is a root of a polynomial with finite coefficients. -/
theorem polyRoots_sound {sv : Solver} (hs : sv.Correct) {c : List (FP ℂ)} {r : List (FP ℂ)}
    (h : polyRoots sv c = .ok r) {β : ℂ} (hβ : FP.num β ∈ r) :
    ∃ c' : List ℂ, c = c'.map FP.num ∧ polyOf c' ≠ 0 ∧ (polyOf c').eval β = 0 := by
  have hne : c ≠ [] := by
    rintro rfl
    simp [polyRoots] at h
  have key : ∀ c' : List ℂ, c = c'.map FP.num → polyOf c' ≠ 0 ∧ (polyOf c').eval β = 0 := by
    rintro c' rfl
    obtain ⟨r', hr, hroots⟩ := polyRoots_finite hs c' (by simpa using hne)
    rw [hr] at h
    cases h
    have hm : β ∈ (polyOf c').roots := by
      rw [← hroots]
      simpa using hβ
    rw [mem_roots'] at hm
    exact hm
  suffices ∃ c' : List ℂ, c = c'.map FP.num by
    obtain ⟨c', rfl⟩ := this
    exact ⟨c', rfl, key c' rfl⟩
  unfold polyRoots at h
  rw [if_neg hne] at h
  rcases trimseq_cases _ hne with ⟨⟨k, hk⟩, ht⟩ | ⟨l, last, k, hl, ht, hk⟩
  · exact ⟨List.replicate (k + 1) 0, by rw [hk]; simp⟩
  · rw [ht] at h
    have fin : ∀ t : List ℂ, l ++ [last] = t.map FP.num → ∃ c' : List ℂ, c = c'.map FP.num := by
      intro t ht'
      exact ⟨t ++ List.replicate k 0, by rw [hk, ht']; simp⟩
    match l, h with
    | [], h =>
      simp only [List.nil_append, Except.ok.injEq] at h
      subst h; simp at hβ
    | [a], h =>
      simp only [List.cons_append, List.nil_append, Except.ok.injEq] at h
      subst h
      simp only [List.mem_singleton] at hβ
      cases a with
      | nan => simp at hβ
      | num a =>
        cases last with
        | nan => simp at hβ
        | num b => exact fin [a, b] rfl
    | a :: b :: [], h =>
      simp only [List.cons_append, List.nil_append] at h
      cases hf : allFinite [a, b, last] with
      | none => rw [hf] at h; cases h
      | some t => exact fin t (allFinite_eq_some hf)
    | a :: b :: d :: l', h =>
      simp only [List.cons_append] at h
      cases hf : allFinite (a :: b :: d :: (l' ++ [last])) with
      | none => rw [hf] at h; cases h
      | some t => exact fin t (allFinite_eq_some hf)

end Snompy
