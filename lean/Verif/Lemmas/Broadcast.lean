import Verif.Spec.Broadcast
import Verif.Lemmas.Shape

/-!
# The fold of binary broadcasting is numpy's rule
-/

namespace Snompy

theorem bdim_eq_some {a b c : ℕ} : bdim a b = some c ↔
    (a = 1 ∨ a = c) ∧ (b = 1 ∨ b = c) ∧ (c = 1 ∨ a = c ∨ b = c) := by
  unfold bdim; split_ifs <;> simp only [Option.some.injEq, false_iff] <;> omega

theorem bdim_eq_none {a b : ℕ} : bdim a b = none ↔ a ≠ 1 ∧ b ≠ 1 ∧ a ≠ b := by
  unfold bdim; split_ifs <;> simp only [false_iff, true_iff] <;> omega

theorem bshape_eq_none {s t : List ℕ} :
    bshape s t = none ↔ ∃ k, dimAt s k ≠ 1 ∧ dimAt t k ≠ 1 ∧ dimAt s k ≠ dimAt t k := by
  induction s generalizing t with
  | nil => simp [dimAt_nil]
  | cons a s ih =>
    cases t with
    | nil => simp [dimAt_nil]
    | cons b t =>
      rw [bshape_cons]
      constructor
      · intro h
        cases hab : bdim a b with
        | none =>
          refine ⟨0, ?_⟩
          simpa only [dimAt_cons_zero] using bdim_eq_none.1 hab
        | some c =>
          cases hst : bshape s t with
          | none =>
            obtain ⟨k, hk⟩ := ih.1 hst
            exact ⟨k + 1, by simpa only [dimAt_cons_succ] using hk⟩
          | some v => simp [hab, hst] at h
      · rintro ⟨k, hk⟩
        cases k with
        | zero =>
          rw [bdim_eq_none.2 (by simpa only [dimAt_cons_zero] using hk)]; rfl
        | succ k =>
          rw [ih.2 ⟨k, by simpa only [dimAt_cons_succ] using hk⟩]
          cases bdim a b <;> rfl

theorem dimAt_ext {s t : List ℕ} (hl : s.length = t.length) (h : ∀ k, dimAt s k = dimAt t k) :
    s = t := by
  refine List.ext_getElem hl fun k h1 h2 => ?_
  have := h k
  simpa [dimAt, List.getD_eq_getElem?_getD, h1, h2] using this

theorem isBroadcast_of_joinAll {ss : List (List ℕ)} {u : List ℕ}
    (h : joinAll (ss.map some) = some u) : IsBroadcast ss u := by
  induction ss generalizing u with
  | nil =>
    simp only [List.map_nil, joinAll, Option.some.injEq] at h
    subst h
    exact ⟨rfl, fun k => ⟨by simp, Or.inl (dimAt_nil k)⟩⟩
  | cons s ss ih =>
    simp only [List.map_cons, joinAll] at h
    cases hj : joinAll (ss.map some) with
    | none => rw [hj] at h; simp at h
    | some v =>
      rw [hj, Shape.some_join_some] at h
      obtain ⟨hl, hv⟩ := ih hj
      refine ⟨by rw [bshape_length h, hl]; rfl, fun k => ?_⟩
      obtain ⟨h1, h2, h3⟩ := bdim_eq_some.1 (bshape_dimAt h k)
      obtain ⟨hv1, hv2⟩ := hv k
      constructor
      · intro t ht
        rcases List.mem_cons.1 ht with rfl | ht
        · exact h1
        · have := hv1 t ht
          clear hv2
          omega
      · by_cases hu : dimAt u k = 1
        · exact Or.inl hu
        · refine Or.inr ?_
          rcases h3 with h3 | h3 | h3
          · exact absurd h3 hu
          · exact ⟨s, by simp, h3⟩
          · rcases hv2 with hv2 | ⟨t, ht, hv2⟩
            · omega
            · exact ⟨t, by simp [ht], by omega⟩

theorem clash_of_joinAll {ss : List (List ℕ)} (h : joinAll (ss.map some) = none) : Clash ss := by
  induction ss with
  | nil => simp [joinAll] at h
  | cons s ss ih =>
    simp only [List.map_cons, joinAll] at h
    cases hj : joinAll (ss.map some) with
    | none =>
      obtain ⟨a, ha, b, hb, k, hk⟩ := ih hj
      exact ⟨a, by simp [ha], b, by simp [hb], k, hk⟩
    | some v =>
      rw [hj, Shape.some_join_some] at h
      obtain ⟨k, h1, h2, h3⟩ := bshape_eq_none.1 h
      obtain ⟨_, hv⟩ := isBroadcast_of_joinAll hj
      rcases (hv k).2 with hv2 | ⟨t, ht, hv2⟩
      · exact absurd hv2 h2
      · exact ⟨s, by simp, t, by simp [ht], k, h1, by omega, by omega⟩

theorem not_clash_of_isBroadcast {ss : List (List ℕ)} {u : List ℕ} (h : IsBroadcast ss u) :
    ¬ Clash ss := by
  rintro ⟨s, hs, t, ht, k, h1, h2, h3⟩
  have a := (h.2 k).1 s hs
  have b := (h.2 k).1 t ht
  omega

theorem isBroadcast_unique {ss : List (List ℕ)} {u v : List ℕ} (hu : IsBroadcast ss u)
    (hv : IsBroadcast ss v) : u = v := by
  refine dimAt_ext (hu.1.trans hv.1.symm) fun k => ?_
  obtain ⟨a1, a2⟩ := hu.2 k
  obtain ⟨b1, b2⟩ := hv.2 k
  rcases a2 with a2 | ⟨s, hs, a2⟩
  · rcases b2 with b2 | ⟨t, ht, b2⟩
    · omega
    · have := a1 t ht; omega
  · rcases b2 with b2 | ⟨t, ht, b2⟩
    · have := b1 s hs; omega
    · have := a1 t ht; have := b1 s hs; omega

theorem joinAll_eq_some_iff (ss : List (List ℕ)) (u : List ℕ) :
    joinAll (ss.map some) = some u ↔ IsBroadcast ss u := by
  refine ⟨isBroadcast_of_joinAll, fun h => ?_⟩
  cases hj : joinAll (ss.map some) with
  | none => exact absurd (clash_of_joinAll hj) (not_clash_of_isBroadcast h)
  | some v => rw [isBroadcast_unique (isBroadcast_of_joinAll hj) h]

theorem joinAll_eq_none_iff (ss : List (List ℕ)) :
    joinAll (ss.map some) = none ↔ Clash ss := by
  refine ⟨clash_of_joinAll, fun h => ?_⟩
  cases hj : joinAll (ss.map some) with
  | none => rfl
  | some v => exact absurd h (not_clash_of_isBroadcast (isBroadcast_of_joinAll hj))

theorem joinAll_perm {l l' : List Shape} (h : l.Perm l') : joinAll l = joinAll l' := by
  induction h with
  | nil => rfl
  | cons x _ ih => simp only [joinAll, ih]
  | swap x y l => simp only [joinAll]; exact Shape.join_left_comm _ _ _
  | trans _ _ h1 h2 => exact h1.trans h2

theorem joinAll_append (l l' : List Shape) : joinAll (l ++ l') = joinAll l ⊔ᵇ joinAll l' := by
  induction l with
  | nil => simp [joinAll]
  | cons a l ih => simp only [List.cons_append, joinAll, ih, Shape.join_assoc]

end Snompy
