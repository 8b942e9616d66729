import Verif.Spec.Elementwise
import Mathlib.Tactic.Ring
import Mathlib.Tactic.Linarith
import Mathlib.Tactic.SplitIfs

/-!
# The algebra of broadcasting
-/

namespace Snompy

theorem bdim_comm (a b : ℕ) : bdim a b = bdim b a := by
  unfold bdim; split_ifs <;> simp_all

theorem bdim_self (a : ℕ) : bdim a a = some a := by simp [bdim]

theorem bdim_one (a : ℕ) : bdim 1 a = some a := by
  unfold bdim; split_ifs <;> simp_all

theorem bdim_eq_one {a b : ℕ} (h : bdim a b = some 1) : a = 1 ∧ b = 1 := by
  unfold bdim at h; split_ifs at h <;> simp_all

theorem bdim_assoc (a b c : ℕ) :
    (bdim a b).bind (fun d => bdim d c) = (bdim b c).bind (fun d => bdim a d) := by
  unfold bdim; split_ifs <;> simp_all

@[simp] theorem bshape_nil_left (t : List ℕ) : bshape [] t = some t := by
  cases t <;> rfl

@[simp] theorem bshape_nil_right (s : List ℕ) : bshape s [] = some s := by
  cases s <;> rfl

theorem bshape_cons (a b : ℕ) (s t : List ℕ) :
    bshape (a :: s) (b :: t) =
      (bdim a b).bind fun c => (bshape s t).bind fun u => some (c :: u) := by
  rw [bshape]
  cases bdim a b <;> cases bshape s t <;> rfl

theorem bshape_comm (s t : List ℕ) : bshape s t = bshape t s := by
  induction s generalizing t with
  | nil => simp
  | cons a s ih =>
    cases t with
    | nil => simp
    | cons b t => rw [bshape_cons, bshape_cons, bdim_comm, ih]

theorem bshape_self (s : List ℕ) : bshape s s = some s := by
  induction s with
  | nil => rfl
  | cons a s ih => simp [bshape_cons, bdim_self, ih]

theorem bshape_assoc (s t u : List ℕ) :
    (bshape s t).bind (fun v => bshape v u) = (bshape t u).bind (fun v => bshape s v) := by
  induction s generalizing t u with
  | nil =>
    simp only [bshape_nil_left, Option.bind_some]
    cases bshape t u <;> simp
  | cons a s ih =>
    cases t with
    | nil => simp
    | cons b t =>
      cases u with
      | nil =>
        simp only [bshape_nil_right, Option.bind_some]
        cases bshape (a :: s) (b :: t) <;> simp
      | cons c u =>
        have hl : (bshape (a :: s) (b :: t)).bind (fun v => bshape v (c :: u)) =
            ((bdim a b).bind fun d => bdim d c).bind fun e =>
              ((bshape s t).bind fun v => bshape v u).bind fun w => some (e :: w) := by
          rw [bshape_cons]
          cases bdim a b with
          | none => rfl
          | some d =>
            cases bshape s t with
            | none => simp only [Option.bind_some, Option.bind_none]; cases bdim d c <;> rfl
            | some v => simp only [Option.bind_some, bshape_cons]
        have hr : (bshape (b :: t) (c :: u)).bind (fun v => bshape (a :: s) v) =
            ((bdim b c).bind fun d => bdim a d).bind fun e =>
              ((bshape t u).bind fun v => bshape s v).bind fun w => some (e :: w) := by
          rw [bshape_cons]
          cases bdim b c with
          | none => rfl
          | some d =>
            cases bshape t u with
            | none => simp only [Option.bind_some, Option.bind_none]; cases bdim a d <;> rfl
            | some v => simp only [Option.bind_some, bshape_cons]
        rw [hl, hr, bdim_assoc, ih]

@[simp] theorem Shape.none_join (s : Shape) : none ⊔ᵇ s = none := rfl
@[simp] theorem Shape.join_none (s : Shape) : s ⊔ᵇ none = none := by cases s <;> rfl
@[simp] theorem Shape.some_join_some (s t : List ℕ) : some s ⊔ᵇ some t = bshape s t := rfl

theorem Shape.join_comm (s t : Shape) : s ⊔ᵇ t = t ⊔ᵇ s := by
  cases s <;> cases t <;> simp [bshape_comm]

theorem Shape.join_assoc (s t u : Shape) : s ⊔ᵇ t ⊔ᵇ u = s ⊔ᵇ (t ⊔ᵇ u) := by
  cases s with
  | none => rfl
  | some s =>
    cases t with
    | none => rfl
    | some t =>
      cases u with
      | none => simp
      | some u =>
        exact bshape_assoc s t u

theorem Shape.join_self (s : Shape) : s ⊔ᵇ s = s := by
  cases s <;> simp [bshape_self]

@[simp] theorem Shape.unit_join (s : Shape) : some [] ⊔ᵇ s = s := by
  cases s <;> simp

@[simp] theorem Shape.join_unit (s : Shape) : s ⊔ᵇ some [] = s := by
  cases s <;> simp

instance : Std.Commutative Shape.join := ⟨Shape.join_comm⟩
instance : Std.Associative Shape.join := ⟨Shape.join_assoc⟩
instance : Std.IdempotentOp Shape.join := ⟨Shape.join_self⟩
instance : Std.LawfulCommIdentity Shape.join (some []) where
  right_id := Shape.join_unit

theorem Shape.join_left_comm (s t u : Shape) : s ⊔ᵇ (t ⊔ᵇ u) = t ⊔ᵇ (s ⊔ᵇ u) := by
  rw [← Shape.join_assoc, Shape.join_comm s t, Shape.join_assoc]

theorem Shape.join_left_idem (s t : Shape) : s ⊔ᵇ (s ⊔ᵇ t) = s ⊔ᵇ t := by
  rw [← Shape.join_assoc, Shape.join_self]

/-- Equality of two broadcasts of the same set of shapes. -/
macro "shape_ac" : tactic =>
  `(tactic| first
    | ac_rfl
    | simp only [Shape.join_assoc, Shape.join_comm, Shape.join_left_comm, Shape.join_self,
        Shape.join_left_idem, Shape.unit_join, Shape.join_unit])

/-- `s ≤ᵇ t`: an array of shape `s` can be broadcast to shape `t`. -/
def Shape.le (s t : Shape) : Prop := s ⊔ᵇ t = t

infix:50 " ≤ᵇ " => Shape.le

theorem Shape.le_refl (s : Shape) : s ≤ᵇ s := Shape.join_self s

theorem Shape.le_join_left (s t : Shape) : s ≤ᵇ s ⊔ᵇ t := by
  unfold Shape.le; ac_rfl

theorem Shape.le_join_right (s t : Shape) : t ≤ᵇ s ⊔ᵇ t := by
  unfold Shape.le; ac_rfl

theorem Shape.le_trans {s t u : Shape} (h : s ≤ᵇ t) (h' : t ≤ᵇ u) : s ≤ᵇ u := by
  unfold Shape.le at *
  rw [← h', ← Shape.join_assoc, h]

theorem Shape.join_le {s t u : Shape} (h : s ≤ᵇ u) (h' : t ≤ᵇ u) : s ⊔ᵇ t ≤ᵇ u := by
  unfold Shape.le at *
  rw [Shape.join_assoc, h', h]

theorem Shape.le_none {s : Shape} (h : none ≤ᵇ s) : s = none := by
  simpa [Shape.le, eq_comm] using h

theorem dimAt_nil (k : ℕ) : dimAt [] k = 1 := by simp [dimAt]
theorem dimAt_cons_zero (a : ℕ) (s : List ℕ) : dimAt (a :: s) 0 = a := by simp [dimAt]
theorem dimAt_cons_succ (a : ℕ) (s : List ℕ) (k : ℕ) : dimAt (a :: s) (k + 1) = dimAt s k := by
  simp [dimAt]

theorem dimAt_of_length_le {s : List ℕ} {k : ℕ} (h : s.length ≤ k) : dimAt s k = 1 := by
  simp [dimAt, List.getD_eq_getElem?_getD, List.getElem?_eq_none h]

/-- Axis-wise description of the broadcast shape. -/
theorem bshape_dimAt {s t u : List ℕ} (h : bshape s t = some u) (k : ℕ) :
    bdim (dimAt s k) (dimAt t k) = some (dimAt u k) := by
  induction s generalizing t u k with
  | nil =>
    simp only [bshape_nil_left, Option.some.injEq] at h
    subst h
    rw [dimAt_nil, bdim_one]
  | cons a s ih =>
    cases t with
    | nil =>
      simp only [bshape_nil_right, Option.some.injEq] at h
      subst h
      rw [dimAt_nil, bdim_comm, bdim_one]
    | cons b t =>
      rw [bshape_cons] at h
      cases hab : bdim a b with
      | none => simp [hab] at h
      | some c =>
        cases hst : bshape s t with
        | none => simp [hab, hst] at h
        | some v =>
          simp only [hab, hst, Option.bind_some, Option.some.injEq] at h
          subst h
          cases k with
          | zero => simpa [dimAt_cons_zero] using hab
          | succ k => simpa [dimAt_cons_succ] using ih hst k

theorem bshape_length {s t u : List ℕ} (h : bshape s t = some u) :
    u.length = max s.length t.length := by
  induction s generalizing t u with
  | nil => simp at h; subst h; simp
  | cons a s ih =>
    cases t with
    | nil => simp at h; subst h; simp
    | cons b t =>
      rw [bshape_cons] at h
      cases hab : bdim a b with
      | none => simp [hab] at h
      | some c =>
        cases hst : bshape s t with
        | none => simp [hab, hst] at h
        | some v =>
          simp only [hab, hst, Option.bind_some, Option.some.injEq] at h
          subst h
          simp [ih hst]

/-- The pad axes broadcast with anything that has at most as many axes. -/
theorem bshape_pad (s : List ℕ) (m : ℕ) :
    bshape (List.replicate s.length 1 ++ [m]) s = some (s ++ [m]) := by
  induction s with
  | nil => simp
  | cons a s ih =>
    simp only [List.length_cons, List.replicate_succ, List.cons_append]
    rw [bshape_cons, bdim_one, ih]
    simp

/-- A shape that broadcasts to `u` has length one wherever `u` has. -/
theorem dimAt_eq_one_of_le {s u : List ℕ} (h : some s ≤ᵇ some u) {k : ℕ}
    (hk : dimAt u k = 1) : dimAt s k = 1 := by
  have h' : bshape s u = some u := h
  have := bshape_dimAt h' k
  rw [hk] at this
  exact (bdim_eq_one this).1

theorem canon_canon (s : List ℕ) (i : ℕ → ℕ) : canon s (canon s i) = canon s i := by
  funext k; simp only [canon]; split_ifs <;> rfl

theorem canon_canon_of_le {s u : List ℕ} (h : some s ≤ᵇ some u) (i : ℕ → ℕ) :
    canon s (canon u i) = canon s i := by
  funext k
  simp only [canon]
  by_cases hs : dimAt s k = 1
  · simp [hs]
  · have hu : dimAt u k ≠ 1 := fun hu => hs (dimAt_eq_one_of_le h hu)
    simp [hs, hu]

theorem canon_congr_of_le {s u : List ℕ} (h : some s ≤ᵇ some u) {i j : ℕ → ℕ}
    (hij : canon u i = canon u j) : canon s i = canon s j := by
  rw [← canon_canon_of_le h i, ← canon_canon_of_le h j, hij]

theorem canon_update {s : List ℕ} {p : ℕ} (hp : s.length ≤ p) (i : ℕ → ℕ) (v : ℕ) :
    canon s (Function.update i p v) = canon s i := by
  funext k
  simp only [canon]
  by_cases hk : k = p
  · subst hk; simp [dimAt_of_length_le hp]
  · simp [Function.update_of_ne hk]

end Snompy
