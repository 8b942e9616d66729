import Verif.Model.Examples
import Verif.Spec.Examples

/-!
# Lemmas about the loop of `inversion.py`
-/

namespace Snompy.Examples

theorem inside_cons {d : ℕ} {s : List ℕ} {i : ℕ → ℕ} : Inside (d :: s) i ↔ i 0 < d ∧ Inside s fun m => i (m + 1) := by
  constructor
  · rintro ⟨h, h'⟩
    refine ⟨by simpa using h 0 (by simp), fun k hk => ?_, fun k hk => h' _ (by simpa using hk)⟩
    simpa using h (k + 1) (by simpa using hk)
  · rintro ⟨h0, h, h'⟩
    refine ⟨fun k hk => ?_, fun k hk => ?_⟩
    · cases k with
      | zero => simpa using h0
      | succ k => simpa using h k (by simpa using hk)
    · cases k with
      | zero => simp at hk
      | succ k => exact h' k (by simpa using hk)

theorem cons_index (i : ℕ → ℕ) (j : ℕ → ℕ) (k : ℕ) (h : i 0 = k) (h' : (fun m => i (m + 1)) = j) :
    (fun | 0 => k | m + 1 => j m : ℕ → ℕ) = i := by
  funext m
  cases m with
  | zero => exact h.symm
  | succ m => exact (congrFun h' m).symm

theorem mem_ndindex (s : List ℕ) (i : ℕ → ℕ) : i ∈ ndindex s ↔ Inside s i := by
  induction s generalizing i with
  | nil =>
    simp only [ndindex, List.mem_singleton, Inside, List.length_nil]
    constructor
    · rintro rfl
      exact ⟨fun k hk => absurd hk (Nat.not_lt_zero k), fun _ _ => rfl⟩
    · exact fun h => funext fun k => h.2 k (Nat.zero_le k)
  | cons d s ih =>
    rw [inside_cons, ← ih]
    simp only [ndindex, List.mem_flatMap, List.mem_map, List.mem_range]
    constructor
    · rintro ⟨j, hj, k, hk, rfl⟩
      exact ⟨hk, hj⟩
    · rintro ⟨h0, h⟩
      exact ⟨_, h, _, h0, cons_index i _ _ rfl rfl⟩

theorem flatMap_range (d n : ℕ) : (List.range n).flatMap (fun m => (List.range d).map (m * d + ·)) = List.range (n * d) := by
  induction n with
  | zero => simp
  | succ n ih =>
    rw [List.range_succ, List.flatMap_append, ih, Nat.succ_mul, List.range_add]
    simp

theorem flat_ndindex (s : List ℕ) : (ndindex s).map (flat s) = List.range s.prod := by
  induction s with
  | nil => rfl
  | cons d s ih =>
    rw [List.prod_cons, mul_comm, ← flatMap_range, ← ih, List.flatMap_map]
    simp only [ndindex, List.map_flatMap, List.map_map]
    rfl

theorem ndindex_nodup (s : List ℕ) : (ndindex s).Nodup :=
  List.Nodup.of_map (flat s) (by rw [flat_ndindex]; exact List.nodup_range)

theorem ndindex_split {s : List ℕ} {i : ℕ → ℕ} (h : Inside s i) :
    ∃ l₁ l₂, ndindex s = l₁ ++ i :: l₂ ∧ ∀ j ∈ l₁, Inside s j ∧ flat s j < flat s i := by
  obtain ⟨l₁, l₂, e⟩ := List.append_of_mem ((mem_ndindex s i).2 h)
  refine ⟨l₁, l₂, e, fun j hj => ⟨(mem_ndindex s j).1 (by rw [e]; simp [hj]), ?_⟩⟩
  have hp : ((ndindex s).map (flat s)).Pairwise (· < ·) := by rw [flat_ndindex]; exact List.pairwise_lt_range
  rw [e, List.map_append, List.pairwise_append] at hp
  exact hp.2.2 _ (List.mem_map_of_mem hj) _ (by simp)

open Classical in
theorem setItem_data {α : Type} (A : NDArray α) (i j : ℕ → ℕ) (x : α) :
    (setItem A i x).data j = if j = i then x else A.data j := by
  unfold setItem
  simp [Function.update_apply]

/-- The loop, if no pass raises. -/
theorem fold_ok {α : Type} (f : (ℕ → ℕ) → PyM α) : ∀ (l : List (ℕ → ℕ)) (A : NDArray α), l.Nodup → (∀ i ∈ l, ∃ x, f i = .ok x) →
    ∃ E, l.foldlM (fun E i => do pure (setItem E i (← f i))) A = .ok E ∧ E.rshape = A.rshape ∧
      (∀ i ∈ l, f i = .ok (E.data i)) ∧ ∀ i ∉ l, E.data i = A.data i
  | [], A, _, _ => ⟨A, rfl, rfl, by simp, fun _ _ => rfl⟩
  | i :: l, A, hn, h => by
    obtain ⟨x, hx⟩ := h i (by simp)
    obtain ⟨E, h1, h2, h3, h4⟩ := fold_ok f l (setItem A i x) (List.nodup_cons.1 hn).2 fun j hj => h j (by simp [hj])
    refine ⟨E, ?_, h2, fun j hj => ?_, fun j hj => ?_⟩
    · rw [List.foldlM_cons, hx]
      exact h1
    · rcases List.mem_cons.1 hj with rfl | hj
      · rw [h4 j (List.nodup_cons.1 hn).1, setItem_data, if_pos rfl, hx]
      · exact h3 j hj
    · rw [h4 j fun hj' => hj (by simp [hj']), setItem_data, if_neg fun e : j = i => hj (by simp [e])]

/-- The loop, if a pass raises. -/
theorem fold_error {α : Type} (f : (ℕ → ℕ) → PyM α) (i : ℕ → ℕ) (e : PyErr) (he : f i = .error e) (l₂ : List (ℕ → ℕ)) :
    ∀ (l₁ : List (ℕ → ℕ)) (A : NDArray α), (∀ j ∈ l₁, ∃ x, f j = .ok x) →
    (l₁ ++ i :: l₂).foldlM (fun E i => do pure (setItem E i (← f i))) A = .error e
  | [], A, _ => by rw [List.nil_append, List.foldlM_cons, he]; rfl
  | j :: l₁, A, h => by
    obtain ⟨x, hx⟩ := h j (by simp)
    rw [List.cons_append, List.foldlM_cons, hx]
    exact fold_error f i e he l₂ l₁ _ fun j hj => h j (by simp [hj])

theorem item_ok {α : Type} (A : NDArray α) {i : ℕ → ℕ} (h : Inside A.rshape i) : item A A.rshape.length i = .ok (A.data i) := by
  have : ¬ ((List.range A.rshape.length).any fun k => A.rshape.getD k 0 ≤ i k) = true := by
    simp only [List.any_eq_true, List.mem_range, decide_eq_true_eq, not_exists, not_and, not_le]
    exact h.1
  unfold item
  rw [if_neg (lt_irrefl _), if_neg this, if_neg (lt_irrefl _)]

theorem get_inside {α : Type} (A : NDArray α) {i : ℕ → ℕ} (h : Inside A.rshape i) : A.get i = A.data i := by
  unfold NDArray.get
  congr 1
  funext k
  unfold canon
  split
  · rename_i hd
    by_cases hk : k < A.rshape.length
    · have := h.1 k hk
      unfold dimAt at hd
      simp only [List.getD_eq_getElem?_getD, List.getElem?_eq_getElem hk, Option.getD_some] at this hd
      omega
    · exact (h.2 k (by omega)).symm
  · rfl

end Snompy.Examples
