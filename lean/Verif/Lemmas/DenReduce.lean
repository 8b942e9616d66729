import Verif.Lemmas.Den

/-!
# Padding in front and reducing along axis 0, elementwise
-/

namespace Snompy

theorem mapM_ok {α β : Type} (l : List α) (f : α → PyM β) (g : α → β)
    (h : ∀ a ∈ l, f a = .ok (g a)) : l.mapM f = .ok (l.map g) := by
  induction l with
  | nil => rfl
  | cons a l ih =>
    rw [List.mapM_cons, h a (by simp), ih (fun b hb => h b (by simp [hb]))]
    rfl

theorem mapM_error {α β : Type} (a : α) (l : List α) (f : α → PyM β) (e : PyErr)
    (h : f a = .error e) : (a :: l).mapM f = .error e := by
  rw [List.mapM_cons, h]; rfl

theorem mapM_congr {α β : Type} (l : List α) (f g : α → PyM β) (h : ∀ a ∈ l, f a = g a) :
    l.mapM f = l.mapM g := by
  induction l with
  | nil => rfl
  | cons a l ih =>
    rw [List.mapM_cons, List.mapM_cons, h a (by simp), ih (fun b hb => h b (by simp [hb]))]

theorem mapM_map {α β γ : Type} (l : List α) (f : α → β) (g : β → PyM γ) :
    (l.map f).mapM g = l.mapM fun a => g (f a) := by
  induction l with
  | nil => rfl
  | cons a l ih => rw [List.map_cons, List.mapM_cons, List.mapM_cons, ih]

theorem eq_map_range {α : Type} (l : List α) (d : α) :
    l = (List.range l.length).map fun k => l.getD k d := by
  apply List.ext_getElem
  · simp
  · intro n h1 h2
    simp [List.getD_eq_getElem?_getD, h1]

theorem mapM_eq_range {α β : Type} (l : List α) (d : α) (f : α → PyM β) :
    l.mapM f = (List.range l.length).mapM fun k => f (l.getD k d) := by
  conv_lhs => rw [eq_map_range l d, mapM_map]

/-- The padded array, read at an index whose new axis is at position `k`. -/
theorem padFront_get {α : Type} (xs : List α) (p : ℕ) (d : α) (i : ℕ → ℕ) (k : ℕ)
    (hk : k < xs.length) :
    (NDArray.padFront xs p d).get (Function.update i p k) = xs.getD k d := by
  show xs.getD (canon (List.replicate p 1 ++ [xs.length]) (Function.update i p k) p) d = _
  congr 1
  have hd : dimAt (List.replicate p 1 ++ [xs.length]) p = xs.length := by
    simp [dimAt, List.getD_eq_getElem?_getD]
  simp only [canon, hd, Function.update_self]
  split_ifs with h
  · omega
  · rfl

theorem dimAt_append_length (s : List ℕ) (m : ℕ) : dimAt (s ++ [m]) s.length = m := by
  simp [dimAt, List.getD_eq_getElem?_getD]

/-- Reduction along the leading axis, elementwise. -/
theorem DenM.reduce0 {α β : Type} {r : PyM (PyM (NDArray α))} {s0 : List ℕ} {m : ℕ}
    {F : (ℕ → ℕ) → PyM α} (hr : DenM r (some (s0 ++ [m])) F) (red : List α → β)
    (K : (ℕ → ℕ) → ℕ → PyM α)
    (hF : ∀ i k, k < m → F (Function.update (canon s0 i) s0.length k) = K i k)
    (hm : 0 < m ∨ ∀ i, ∃ v, F i = .ok v) :
    DenM (do let A ← r; pure (do NDArray.reduce0 red (← A))) (some s0)
      (fun i => do let vals ← (List.range m).mapM (K i); pure (red vals)) := by
  rcases hr with ⟨e, rfl, hf⟩ | ⟨A, g, rfl, h2, h3⟩
  · have h0 : 0 < m := by
      rcases hm with h | h
      · exact h
      · obtain ⟨v, hv⟩ := h (fun _ => 0)
        rw [hf] at hv; cases hv
    refine congr (err e (some s0)) rfl fun i => ?_
    obtain ⟨n, rfl⟩ : ∃ n, m = n + 1 := ⟨m - 1, by omega⟩
    rw [List.range_succ_eq_map, mapM_error 0 _ (K i) e (by rw [← hF i 0 h0, hf])]
    rfl
  · have hnd : A.ndim = s0.length + 1 := by simp [NDArray.ndim, h2]
    have hred : NDArray.reduce0 red A =
        .ok ⟨A.rshape.dropLast, fun i => red (A.column i)⟩ := by
      simp [NDArray.reduce0, hnd]
    refine Or.inr ⟨⟨A.rshape.dropLast, fun i => red (A.column i)⟩,
      fun i => red ((List.range m).map fun k =>
        g (Function.update (canon s0 i) s0.length k)), ?_, ?_, ?_⟩
    · show Except.ok (NDArray.reduce0 red A) = _
      rw [hred]
    · simp [h2]
    · intro i
      refine ⟨?_, ?_⟩
      · show (do let vals ← (List.range m).mapM (K i); pure (red vals)) = Except.ok _
        rw [mapM_ok _ (K i) (fun k => g (Function.update (canon s0 i) s0.length k))]
        · rfl
        · intro k hk
          rw [← hF i k (by simpa using hk), (h3 _).1]
      · show red (A.column (canon A.rshape.dropLast i)) = _
        have hdl : A.rshape.dropLast = s0 := by simp [h2]
        rw [hdl, NDArray.column, hnd, h2]
        simp only [Nat.add_sub_cancel, dimAt_append_length]
        congr 1
        apply List.map_congr_left
        intro k _
        exact (h3 _).2

/-- All operands of `_pad_for_broadcasting` are array expressions with known shapes. -/
def LikesDen (l : List (RArr ⊕ CArr)) (shapes : List Shape) : Prop :=
  List.Forall₂ (fun x s => match x with
    | .inl x => ∃ f, Den x s f
    | .inr x => ∃ f, Den x s f) l shapes

theorem maxNdim_of_likes {l : List (RArr ⊕ CArr)} {shapes : List Shape} (h : LikesDen l shapes)
    {s0 : List ℕ} (hs : joinAll shapes = some s0) : Arr.maxNdim l = .ok s0.length := by
  induction h generalizing s0 with
  | nil =>
    simp only [joinAll, Option.some.injEq] at hs
    subst hs; rfl
  | @cons x s l shapes hx hl ih =>
    simp only [joinAll] at hs
    cases hsx : s with
    | none => simp [hsx] at hs
    | some a =>
      cases hj : joinAll shapes with
      | none => simp [hj] at hs
      | some b =>
        rw [hsx, hj, Shape.some_join_some] at hs
        have hlen := bshape_length hs
        have hrec := ih hj
        subst hsx
        cases x with
        | inl x =>
          obtain ⟨f, A, rfl, hA, _⟩ := hx
          rw [Arr.maxNdim, hrec, hlen]
          simp [NDArray.ndim, hA]
        | inr x =>
          obtain ⟨f, A, rfl, hA, _⟩ := hx
          rw [Arr.maxNdim, hrec, hlen]
          simp [NDArray.ndim, hA]

theorem Den.padFront {α : Type} (xs : List α) (p : ℕ) (d : α) :
    Den (.ok (NDArray.padFront xs p d)) (some (List.replicate p 1 ++ [xs.length]))
      (NDArray.padFront xs p d).get := Den.leaf _

/-- `Dep sb f`: the family `f` depends on the index only modulo broadcasting to `sb`. -/
def Dep {α : Type} (sb : Shape) (f : (ℕ → ℕ) → α) : Prop :=
  ∀ s0, sb = some s0 → ∀ i j, canon s0 i = canon s0 j → f i = f j

theorem Dep.of_den {α : Type} {x : PyM (NDArray α)} {s sb : Shape} {f : (ℕ → ℕ) → α}
    (h : Den x s f) (hle : s ≤ᵇ sb) : Dep sb f := by
  rintro s0 rfl i j hij
  cases s with
  | none => exact absurd (Shape.le_none hle) (by simp)
  | some s => exact h.index_congr (canon_congr_of_le hle hij)

section
variable {likes : List (RArr ⊕ CArr)} {shapes : List Shape} {sb : Shape}

private theorem join_error_of_none {α β : Type} {r : PyM (PyM (NDArray α))} (red : List α → β)
    (h : ∃ e, (r >>= fun y => y) = .error e) :
    ∃ e, ((do let A ← r; pure (do NDArray.reduce0 red (← A)) : PyM (PyM (NDArray β))) >>=
      fun y => y) = .error e := by
  obtain ⟨e, he⟩ := h
  cases r with
  | error e' => exact ⟨e', rfl⟩
  | ok y =>
    have hy : y = .error e := he
    exact ⟨e, by rw [hy]; rfl⟩

/-- `quad0`, elementwise. -/
theorem DenM.quad0 (rule : List (ℝ × ℝ)) (hl : LikesDen likes shapes) (hsb : joinAll shapes = sb)
    {body : RArr → RArr → PyM CArr} {bodyS : (ℕ → ℕ) → FP ℝ → FP ℝ → PyM (FP ℂ)}
    {likesS : (ℕ → ℕ) → List (FP ℝ ⊕ FP ℂ)}
    (hb : ∀ x w sx X W, Den x sx X → Den w sx W →
      DenM (body x w) (sx ⊔ᵇ sb) (fun i => bodyS i (X i) (W i)))
    (hdep : Dep sb bodyS)
    (hne : rule ≠ [] ∨ ∀ i x w, ∃ v, bodyS i x w = .ok v) :
    DenM (CplxOps.quad0 rule likes body) sb
      (fun i => CplxOps.quad0 rule (likesS i) (bodyS i)) := by
  cases hs0 : sb with
  | none =>
    subst hs0
    show ∃ e, _
    cases hp : Arr.maxNdim likes with
    | error e => exact ⟨e, by simp [CplxOps.quad0, hp]⟩
    | ok p =>
      have hd := hb _ _ _ _ _ (Den.padFront (rule.map fun xw => FP.num xw.1) p FP.nan)
        (by simpa using Den.padFront (rule.map fun xw => FP.num xw.2) p FP.nan)
      simp only [Shape.join_none] at hd
      obtain ⟨e, he⟩ := join_error_of_none FP.sum hd
      exact ⟨e, by simpa [CplxOps.quad0, hp] using he⟩
  | some s0 =>
    subst hs0
    have hp := maxNdim_of_likes hl hsb
    have hd := hb _ _ _ _ _ (Den.padFront (rule.map fun xw => FP.num xw.1) s0.length FP.nan)
      (by simpa using Den.padFront (rule.map fun xw => FP.num xw.2) s0.length FP.nan)
    rw [Shape.some_join_some, bshape_pad, List.length_map] at hd
    have key := DenM.reduce0 hd FP.sum
      (fun i k => bodyS i (FP.num (rule.getD k 0).1) (FP.num (rule.getD k 0).2)) ?_ ?_
    · have heq : CplxOps.quad0 rule likes body =
          (do let A ← body (.ok (NDArray.padFront (rule.map fun xw => FP.num xw.1) s0.length FP.nan))
                (.ok (NDArray.padFront (rule.map fun xw => FP.num xw.2) s0.length FP.nan))
              pure (do NDArray.reduce0 FP.sum (← A))) := by
        simp [CplxOps.quad0, hp]
      rw [heq]
      refine key.congr rfl fun i => ?_
      show _ = (do
        let vals ← rule.mapM fun xw : ℝ × ℝ => bodyS i (FP.num xw.1) (FP.num xw.2)
        pure (FP.sum vals))
      rw [mapM_eq_range rule 0]
    · intro i k hk
      have hc : canon s0 (Function.update (canon s0 i) s0.length k) = canon s0 i := by
        rw [canon_update (le_refl _), canon_canon]
      rw [hdep s0 rfl _ _ hc, padFront_get _ _ _ _ _ (by simpa using hk),
        padFront_get _ _ _ _ _ (by simpa using hk)]
      simp [List.getD_eq_getElem?_getD, hk]
    · rcases hne with h | h
      · exact Or.inl (List.length_pos_iff.mpr h)
      · exact Or.inr fun i => h _ _ _

/-- `trapz0`, elementwise. -/
theorem DenM.trapz0 (grid : List ℝ) (hl : LikesDen likes shapes) (hsb : joinAll shapes = sb)
    {body : RArr → PyM CArr} {bodyS : (ℕ → ℕ) → FP ℝ → PyM (FP ℂ)}
    {likesS : (ℕ → ℕ) → List (FP ℝ ⊕ FP ℂ)}
    (hb : ∀ x sx X, Den x sx X → DenM (body x) (sx ⊔ᵇ sb) (fun i => bodyS i (X i)))
    (hdep : Dep sb bodyS) (hne : grid ≠ [] ∨ ∀ i x, ∃ v, bodyS i x = .ok v) :
    DenM (CplxOps.trapz0 grid likes body) sb
      (fun i => CplxOps.trapz0 grid (likesS i) (bodyS i)) := by
  cases hs0 : sb with
  | none =>
    subst hs0
    show ∃ e, _
    cases hp : Arr.maxNdim likes with
    | error e => exact ⟨e, by simp [CplxOps.trapz0, hp]⟩
    | ok p =>
      have hd := hb _ _ _ (Den.padFront (grid.map FP.num) p FP.nan)
      simp only [Shape.join_none] at hd
      obtain ⟨e, he⟩ := join_error_of_none FP.trapz hd
      exact ⟨e, by simpa [CplxOps.trapz0, hp] using he⟩
  | some s0 =>
    subst hs0
    have hp := maxNdim_of_likes hl hsb
    have hd := hb _ _ _ (Den.padFront (grid.map FP.num) s0.length FP.nan)
    rw [Shape.some_join_some, bshape_pad, List.length_map] at hd
    have key := DenM.reduce0 hd FP.trapz (fun i k => bodyS i (FP.num (grid.getD k 0))) ?_ ?_
    · have heq : CplxOps.trapz0 grid likes body =
          (do let A ← body (.ok (NDArray.padFront (grid.map FP.num) s0.length FP.nan))
              pure (do NDArray.reduce0 FP.trapz (← A))) := by
        simp [CplxOps.trapz0, hp]
      rw [heq]
      refine key.congr rfl fun i => ?_
      show _ = (do
        let vals ← grid.mapM fun x => bodyS i (FP.num x)
        pure (FP.trapz vals))
      rw [mapM_eq_range grid 0]
    · intro i k hk
      have hc : canon s0 (Function.update (canon s0 i) s0.length k) = canon s0 i := by
        rw [canon_update (le_refl _), canon_canon]
      rw [hdep s0 rfl _ _ hc, padFront_get _ _ _ _ _ (by simpa using hk)]
      simp [List.getD_eq_getElem?_getD, hk]
    · rcases hne with h | h
      · exact Or.inl (List.length_pos_iff.mpr h)
      · exact Or.inr fun i => h _ _

/-- `series0`, elementwise. -/
theorem DenM.series0 (n : ℕ) (hl : LikesDen likes shapes) (hsb : joinAll shapes = sb)
    {body : JArr → PyM CArr} {bodyS : (ℕ → ℕ) → ℤ → PyM (FP ℂ)}
    {likesS : (ℕ → ℕ) → List (FP ℝ ⊕ FP ℂ)}
    (hb : ∀ x sx X, Den x sx X → DenM (body x) (sx ⊔ᵇ sb) (fun i => bodyS i (X i)))
    (hdep : Dep sb bodyS) (hne : n ≠ 0 ∨ ∀ i x, ∃ v, bodyS i x = .ok v) :
    DenM (CplxOps.series0 n likes body) sb
      (fun i => CplxOps.series0 n (likesS i) (bodyS i)) := by
  cases hs0 : sb with
  | none =>
    subst hs0
    show ∃ e, _
    cases hp : Arr.maxNdim likes with
    | error e => exact ⟨e, by simp [CplxOps.series0, hp]⟩
    | ok p =>
      have hd := hb _ _ _ (Den.padFront ((List.range n).map fun k : ℕ => (k : ℤ)) p 0)
      simp only [Shape.join_none] at hd
      obtain ⟨e, he⟩ := join_error_of_none FP.sum hd
      exact ⟨e, by simpa [CplxOps.series0, hp] using he⟩
  | some s0 =>
    subst hs0
    have hp := maxNdim_of_likes hl hsb
    have hd := hb _ _ _ (Den.padFront ((List.range n).map fun k : ℕ => (k : ℤ)) s0.length 0)
    rw [Shape.some_join_some, bshape_pad, List.length_map, List.length_range] at hd
    have key := DenM.reduce0 hd FP.sum (fun i k => bodyS i (k : ℤ)) ?_ ?_
    · have heq : CplxOps.series0 n likes body =
          (do let A ← body (.ok (NDArray.padFront ((List.range n).map fun k : ℕ => (k : ℤ)) s0.length 0))
              pure (do NDArray.reduce0 FP.sum (← A))) := by
        simp [CplxOps.series0, hp]
      rw [heq]
      exact key
    · intro i k hk
      have hc : canon s0 (Function.update (canon s0 i) s0.length k) = canon s0 i := by
        rw [canon_update (le_refl _), canon_canon]
      rw [hdep s0 rfl _ _ hc, padFront_get _ _ _ _ _ (by simpa using hk)]
      simp [List.getD_eq_getElem?_getD, hk]
    · rcases hne with h | h
      · exact Or.inl (Nat.pos_of_ne_zero h)
      · exact Or.inr fun i => h _ _

end

end Snompy
