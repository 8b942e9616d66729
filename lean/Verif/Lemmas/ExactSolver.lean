import Verif.Spec.Inversion
import Mathlib.Data.List.Sort

/-!
# A correct solver exists

Used in the examples only: the theorems about the inversion quantify over all correct solvers.
-/

namespace Snompy

open Classical in
/-- Sorting the positions by insertion. -/
noncomputable def argsortBy {α : Type} (le : α → α → Prop) (d : α) (l : List α) : List ℕ :=
  (List.range l.length).insertionSort fun a b => le (l.getD a d) (l.getD b d)

theorem argsortBy_isArgsort {α : Type} (le : α → α → Prop) (d : α) (total : ∀ a b, le a b ∨ le b a)
    (trans : ∀ a b c, le a b → le b c → le a c) : IsArgsort le (argsortBy le d) := by
  classical
  intro l
  have h1 : (argsortBy le d l).Perm (List.range l.length) := List.perm_insertionSort _ _
  refine ⟨h1, ?_⟩
  have e : (argsortBy le d l).filterMap (fun k => l[k]?) = (argsortBy le d l).map fun k => l.getD k d := by
    rw [← List.filterMap_eq_map]
    refine List.filterMap_congr fun k hk => ?_
    have hk : k < l.length := by simpa using h1.mem_iff.1 hk
    simp [List.getD_eq_getElem?_getD, List.getElem?_eq_getElem hk]
  rw [e, List.pairwise_map]
  have : Std.Total (fun a b => le (l.getD a d) (l.getD b d)) := ⟨fun a b => total _ _⟩
  have : IsTrans ℕ (fun a b => le (l.getD a d) (l.getD b d)) := ⟨fun a b c => trans _ _ _⟩
  exact List.pairwise_insertionSort _ _

theorem boolLe_total (a b : Bool) : boolLe a b ∨ boolLe b a := by
  cases a <;> cases b <;> simp [boolLe]

theorem boolLe_trans (a b c : Bool) (h : boolLe a b) (h' : boolLe b c) : boolLe a c :=
  fun ha => h' (h ha)

theorem fpLe_total (a b : FP ℝ) : fpLe a b ∨ fpLe b a := by
  cases a with
  | nan => exact .inr (by cases b <;> trivial)
  | num a =>
    cases b with
    | nan => exact .inl trivial
    | num b => exact le_total a b

theorem fpLe_trans (a b c : FP ℝ) (h : fpLe a b) (h' : fpLe b c) : fpLe a c := by
  cases a <;> cases b <;> cases c <;> simp_all [fpLe]
  exact h.trans h'

/-- A correct solver. -/
noncomputable def exactSolver : Solver where
  eigvals c := (polyOf c).roots.toList
  argsortBool := argsortBy boolLe false
  argsortReal := argsortBy fpLe FP.nan

theorem exactSolver_correct : exactSolver.Correct where
  roots _ _ _ _ := Multiset.coe_toList _
  bool := argsortBy_isArgsort _ _ boolLe_total boolLe_trans
  real := argsortBy_isArgsort _ _ fpLe_total fpLe_trans

end Snompy
