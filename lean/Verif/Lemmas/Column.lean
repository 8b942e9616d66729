import Verif.Lemmas.DenReduce
import Verif.Spec.Inversion

/-!
# Columns of arrays under sorting and row selection
-/

namespace Snompy

theorem canon_snoc (s : List ℕ) {m k : ℕ} (hk : k < m) (i : ℕ → ℕ) :
    canon (s ++ [m]) (Function.update i s.length k) = Function.update (canon s i) s.length k := by
  funext a
  rcases lt_trichotomy a s.length with h | rfl | h
  · have hd : dimAt (s ++ [m]) a = dimAt s a := by
      simp [dimAt, List.getD_eq_getElem?_getD, List.getElem?_append_left h]
    simp [canon, hd, Function.update_of_ne h.ne]
  · simp only [canon, dimAt_append_length, Function.update_self]
    split_ifs with h
    · omega
    · rfl
  · rw [Function.update_of_ne h.ne', canon, canon, dimAt_of_length_le (s := s ++ [m]) (by simp; omega),
      dimAt_of_length_le (s := s) h.le]
    simp

theorem update_canon_snoc (s : List ℕ) (i : ℕ → ℕ) (k : ℕ) :
    canon s (Function.update (canon s i) s.length k) = canon s i := by
  rw [canon_update (le_refl _), canon_canon]

namespace NDArray

variable {α β : Type}

theorem column_eq {A : NDArray α} {s : List ℕ} {m : ℕ} (h : A.rshape = s ++ [m]) (i : ℕ → ℕ) :
    A.column i = (List.range m).map fun k => A.get (Function.update i s.length k) := by
  have hn : A.ndim - 1 = s.length := by simp [ndim, h]
  unfold column
  rw [hn, h, dimAt_append_length]

theorem column_length {A : NDArray α} {s : List ℕ} {m : ℕ} (h : A.rshape = s ++ [m]) (i : ℕ → ℕ) :
    (A.column i).length = m := by simp [column_eq h]

theorem column_getElem? {A : NDArray α} {s : List ℕ} {m : ℕ} (h : A.rshape = s ++ [m]) (i : ℕ → ℕ)
    {k : ℕ} (hk : k < m) : (A.column i)[k]? = some (A.get (Function.update i s.length k)) := by
  simp [column_eq h, hk]

theorem get_congr {A : NDArray α} {i j : ℕ → ℕ} (h : canon A.rshape i = canon A.rshape j) :
    A.get i = A.get j := by rw [get, get, h]

theorem canon_snoc_congr {s : List ℕ} {m : ℕ} {i j : ℕ → ℕ} (h : canon s i = canon s j) (k : ℕ) :
    canon (s ++ [m]) (Function.update i s.length k) = canon (s ++ [m]) (Function.update j s.length k) := by
  funext a
  rcases lt_trichotomy a s.length with h' | rfl | h'
  · have hd : dimAt (s ++ [m]) a = dimAt s a := by
      simp [dimAt, List.getD_eq_getElem?_getD, List.getElem?_append_left h']
    have := congrFun h a
    simpa [canon, hd, Function.update_of_ne h'.ne] using this
  · simp [canon]
  · simp only [canon, dimAt_of_length_le (s := s ++ [m]) (k := a) (by simp; omega), if_true]

theorem column_congr {A : NDArray α} {s : List ℕ} {m : ℕ} (h : A.rshape = s ++ [m]) {i j : ℕ → ℕ}
    (hij : canon s i = canon s j) : A.column i = A.column j := by
  rw [column_eq h, column_eq h]
  refine List.map_congr_left fun k _ => get_congr ?_
  rw [h]
  exact canon_snoc_congr hij k

theorem column_update {A : NDArray α} {s : List ℕ} {m : ℕ} (h : A.rshape = s ++ [m]) (i : ℕ → ℕ)
    (k : ℕ) : A.column (Function.update (canon s i) s.length k) = A.column i :=
  column_congr h (update_canon_snoc s i k)

/-- An array given by its columns. -/
theorem get_mk (s : List ℕ) (m : ℕ) (D : (ℕ → ℕ) → α) (i : ℕ → ℕ) {k : ℕ} (hk : k < m) :
    (NDArray.mk (s ++ [m]) D).get (Function.update i s.length k) =
      D (Function.update (canon s i) s.length k) := by
  show D _ = _
  rw [canon_snoc s hk]

theorem map_getElem?_range {α : Type} (l : List α) (d : α) :
    (List.range l.length).map (fun k => l.getD k d) = l := (eq_map_range l d).symm

theorem argsort0_get {A : NDArray α} {s : List ℕ} {m : ℕ} (h : A.rshape = s ++ [m])
    (f : List α → List ℕ) (i : ℕ → ℕ) {k : ℕ} (hk : k < m) :
    (A.argsort0 f).get (Function.update i s.length k) = (f (A.column i)).getD k 0 := by
  have hn : A.ndim - 1 = s.length := by simp [ndim, h]
  unfold argsort0
  rw [hn]
  simp only [h]
  rw [get_mk s m _ i hk, column_update h, Function.update_self]

theorem takeAlong0_get {A : NDArray α} {s : List ℕ} {m : ℕ} (h : A.rshape = s ++ [m])
    (idx : NDArray ℕ) (hidx : idx.rshape = s ++ [m]) (i : ℕ → ℕ) {k : ℕ} (hk : k < m) :
    (A.takeAlong0 idx).get (Function.update i s.length k) =
      A.get (Function.update i s.length (idx.get (Function.update i s.length k))) := by
  have hn : A.ndim - 1 = s.length := by simp [ndim, h]
  unfold takeAlong0
  rw [hn]
  have e : (NDArray.mk A.rshape fun i => A.get (Function.update i s.length (idx.get i))).get
      (Function.update i s.length k) =
      (NDArray.mk (s ++ [m]) fun i => A.get (Function.update i s.length (idx.get i))).get
      (Function.update i s.length k) := by rw [h]
  rw [e, get_mk s m _ i hk, Function.update_idem]
  have e2 : idx.get (Function.update (canon s i) s.length k) = idx.get (Function.update i s.length k) :=
    get_congr (by rw [hidx]; exact canon_snoc_congr (canon_canon s i) k)
  rw [e2]
  exact get_congr (by rw [h]; exact canon_snoc_congr (canon_canon s i) _)

/-- Sorting columns: the entry at row `k` is the one at the `k`-th position of the argsort. -/
theorem sorted_get {A : NDArray α} {B : NDArray β} {s : List ℕ} {m : ℕ} (hA : A.rshape = s ++ [m])
    (hB : B.rshape = s ++ [m]) (f : List β → List ℕ) (i : ℕ → ℕ) {k : ℕ} (hk : k < m) :
    (A.takeAlong0 (B.argsort0 f)).get (Function.update i s.length k) =
      A.get (Function.update i s.length ((f (B.column i)).getD k 0)) := by
  rw [takeAlong0_get hA _ hB i hk, argsort0_get hB f i hk]

theorem selectRows_get {A : NDArray α} {s : List ℕ} {m : ℕ} (h : A.rshape = s ++ [m])
    (rows : List ℕ) (i : ℕ → ℕ) {k : ℕ} (hk : k < rows.length) :
    (A.selectRows rows).get (Function.update i s.length k) =
      A.get (Function.update i s.length (rows.getD k 0)) := by
  have hn : A.ndim - 1 = s.length := by simp [ndim, h]
  unfold selectRows
  rw [hn]
  have hd : A.rshape.dropLast = s := by simp [h]
  rw [hd, get_mk s _ _ i hk, Function.update_self, Function.update_idem]
  exact get_congr (by rw [h]; exact canon_snoc_congr (canon_canon s i) _)

theorem selectRows_shape {A : NDArray α} {s : List ℕ} {m : ℕ} (h : A.rshape = s ++ [m])
    (rows : List ℕ) : (A.selectRows rows).rshape = s ++ [rows.length] := by
  simp [selectRows, h]

theorem map_get (f : α → β) (A : NDArray α) (i : ℕ → ℕ) : (A.map f).get i = f (A.get i) := by
  show f (A.get (canon A.rshape i)) = _
  rw [get, get, canon_canon]

theorem map_column (f : α → β) (A : NDArray α) (i : ℕ → ℕ) :
    (A.map f).column i = (A.column i).map f := by
  unfold column
  simp only [map_get, List.map_map]
  rfl

end NDArray

theorem dimAt_positions {s : List ℕ} {i : ℕ → ℕ} (h : i ∈ positions s) :
    InBounds s i ∧ canon s i = i := by
  induction s generalizing i with
  | nil =>
    simp only [positions, List.mem_singleton] at h
    subst h
    exact ⟨fun k hk => absurd (dimAt_nil k) hk, by funext k; simp [canon]⟩
  | cons a s ih =>
    simp only [positions, List.mem_flatMap, List.mem_map, List.mem_range] at h
    obtain ⟨j, hj, k, hk, rfl⟩ := h
    obtain ⟨h1, h2⟩ := ih hj
    constructor
    · rintro (_ | n) hn
      · rw [dimAt_cons_zero]; exact hk
      · rw [dimAt_cons_succ] at hn ⊢; exact h1 n hn
    · funext n
      cases n with
      | zero =>
        simp only [canon, dimAt_cons_zero]
        split_ifs with h
        · omega
        · rfl
      | succ n =>
        have := congrFun h2 n
        simp only [canon, dimAt_cons_succ] at this ⊢
        exact this

theorem canon_mem_positions {s : List ℕ} {i : ℕ → ℕ} (h : InBounds s i) : canon s i ∈ positions s := by
  induction s generalizing i with
  | nil =>
    simp only [positions, List.mem_singleton]
    funext k; simp [canon, dimAt_nil]
  | cons a s ih =>
    simp only [positions, List.mem_flatMap, List.mem_map, List.mem_range]
    refine ⟨canon s fun n => i (n + 1), ih fun k hk => ?_, canon (a :: s) i 0, ?_, ?_⟩
    · have := h (k + 1) (by rwa [dimAt_cons_succ])
      rwa [dimAt_cons_succ] at this
    · have := h 0
      simp only [canon, dimAt_cons_zero] at this ⊢
      split_ifs with h1
      · omega
      · exact this h1
    · funext n
      cases n with
      | zero => rfl
      | succ n => simp [canon, dimAt_cons_succ]

theorem positions_head {s : List ℕ} {i : ℕ → ℕ} {l : List (ℕ → ℕ)} (h : positions s = i :: l) :
    i = fun _ => 0 := by
  induction s generalizing i l with
  | nil =>
    simp only [positions, List.cons.injEq] at h
    exact h.1.symm
  | cons a s ih =>
    rw [positions] at h
    cases hp : positions s with
    | nil => rw [hp] at h; simp at h
    | cons j l' =>
      rw [hp, List.flatMap_cons] at h
      cases a with
      | zero =>
        simp only [List.range_zero, List.map_nil, List.nil_append] at h
        rw [List.flatMap_eq_nil_iff.2 fun _ _ => rfl] at h
        cases h
      | succ a =>
        rw [List.range_succ_eq_map, List.map_cons, List.cons_append, List.cons.injEq] at h
        rw [← h.1]
        funext n
        cases n with
        | zero => rfl
        | succ n => exact congrFun (ih hp) n

end Snompy
