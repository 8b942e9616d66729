import Verif.Lemmas.Shape
import Verif.Spec.Elementwise

/-!
# Relation between the array reading and the scalar reading

`Den x s f`: the array expression `x` has shape `s` (or raises if `s = none`) and its entry at each
broadcast index `i` is `f i`.
-/

namespace Snompy

namespace Den

variable {α β γ : Type}

theorem leaf (A : NDArray α) : Den (.ok A) (some A.rshape) A.get :=
  ⟨A, rfl, rfl, fun _ => rfl⟩

theorem scalar (a : α) : Den (.ok (NDArray.scalar a)) (some []) (fun _ => a) :=
  ⟨_, rfl, rfl, fun _ => rfl⟩

theorem congr {x : PyM (NDArray α)} {s s' : Shape} {f f' : (ℕ → ℕ) → α} (h : Den x s f)
    (hs : s = s') (hf : ∀ i, f i = f' i) : Den x s' f' := by
  subst hs
  cases s with
  | none => exact h
  | some s =>
    obtain ⟨A, h1, h2, h3⟩ := h
    exact ⟨A, h1, h2, fun i => (h3 i).trans (hf i)⟩

/-- Entries depend only on the index modulo broadcasting. -/
theorem index_congr {x : PyM (NDArray α)} {s : List ℕ} {f : (ℕ → ℕ) → α} (h : Den x (some s) f)
    {i j : ℕ → ℕ} (hij : canon s i = canon s j) : f i = f j := by
  obtain ⟨A, _, h2, h3⟩ := h
  rw [← h3, ← h3, NDArray.get, NDArray.get, h2, hij]

theorem map1 (op : α → β) {x : PyM (NDArray α)} {s : Shape} {f : (ℕ → ℕ) → α} (h : Den x s f) :
    Den (Arr.map1 op x) s (fun i => op (f i)) := by
  cases s with
  | none =>
    obtain ⟨e, rfl⟩ := h
    exact ⟨e, rfl⟩
  | some s =>
    obtain ⟨A, rfl, h2, h3⟩ := h
    refine ⟨A.map op, rfl, h2, fun i => ?_⟩
    have : (A.map op).get i = op (A.get (canon A.rshape i)) := rfl
    show (A.map op).get i = op (f i)
    rw [this, ← h3 i, NDArray.get, NDArray.get, canon_canon]

theorem map2 (op : α → β → γ) {x : PyM (NDArray α)} {y : PyM (NDArray β)} {s t : Shape}
    {f : (ℕ → ℕ) → α} {g : (ℕ → ℕ) → β} (hx : Den x s f) (hy : Den y t g) :
    Den (Arr.map2 op x y) (s ⊔ᵇ t) (fun i => op (f i) (g i)) := by
  cases s with
  | none =>
    obtain ⟨e, rfl⟩ := hx
    exact ⟨e, rfl⟩
  | some s =>
    obtain ⟨A, rfl, hA, hAf⟩ := hx
    cases t with
    | none =>
      obtain ⟨e, rfl⟩ := hy
      exact ⟨e, rfl⟩
    | some t =>
      obtain ⟨B, rfl, hB, hBg⟩ := hy
      have hdef : Arr.map2 op (.ok A) (.ok B) = NDArray.zipWith op A B := rfl
      rw [hdef, NDArray.zipWith, hA, hB]
      cases hst : bshape s t with
      | none => simp only [Shape.some_join_some, hst]; exact ⟨_, rfl⟩
      | some u =>
        simp only [Shape.some_join_some, hst]
        refine ⟨_, rfl, rfl, fun i => ?_⟩
        have hsu : some s ≤ᵇ some u := by
          have := Shape.le_join_left (some s) (some t)
          rwa [Shape.some_join_some, hst] at this
        have htu : some t ≤ᵇ some u := by
          have := Shape.le_join_right (some s) (some t)
          rwa [Shape.some_join_some, hst] at this
        show op (A.get (canon u i)) (B.get (canon u i)) = op (f i) (g i)
        rw [← hAf, ← hBg, NDArray.get, NDArray.get, NDArray.get, NDArray.get, hA, hB,
          canon_canon_of_le hsu, canon_canon_of_le htu]

theorem where3 (c : α → Prop) [DecidablePred c] {x : PyM (NDArray α)} {y z : PyM (NDArray β)}
    {s t u : Shape} {f : (ℕ → ℕ) → α} {g h : (ℕ → ℕ) → β}
    (hx : Den x s f) (hy : Den y t g) (hz : Den z u h) :
    Den (Arr.where3 c x y z) (s ⊔ᵇ (t ⊔ᵇ u)) (fun i => if c (f i) then g i else h i) :=
  map2 _ hx (map2 _ hy hz)

section RealRules
variable {x y : RArr} {s t : Shape} {f g : (ℕ → ℕ) → FP ℝ}

theorem lit (a : ℝ) : Den (RealOps.lit a : RArr) (some []) (fun _ => RealOps.lit a) := scalar _
theorem radd (hx : Den x s f) (hy : Den y t g) : Den (x + y) (s ⊔ᵇ t) (fun i => f i + g i) :=
  map2 _ hx hy
theorem rsub (hx : Den x s f) (hy : Den y t g) : Den (x - y) (s ⊔ᵇ t) (fun i => f i - g i) :=
  map2 _ hx hy
theorem rmul (hx : Den x s f) (hy : Den y t g) : Den (x * y) (s ⊔ᵇ t) (fun i => f i * g i) :=
  map2 _ hx hy
theorem rdiv (hx : Den x s f) (hy : Den y t g) : Den (x / y) (s ⊔ᵇ t) (fun i => f i / g i) :=
  map2 _ hx hy
theorem log (hx : Den x s f) : Den (RealOps.log x) s (fun i => RealOps.log (f i)) := map1 _ hx
theorem sin (hx : Den x s f) : Den (RealOps.sin x) s (fun i => RealOps.sin (f i)) := map1 _ hx
theorem cos (hx : Den x s f) : Den (RealOps.cos x) s (fun i => RealOps.cos (f i)) := map1 _ hx
theorem abs (hx : Den x s f) : Den (RealOps.abs x) s (fun i => RealOps.abs (f i)) := map1 _ hx
theorem clip (lo hi : ℝ) (hx : Den x s f) :
    Den (RealOps.clip lo hi x) s (fun i => RealOps.clip lo hi (f i)) := map1 _ hx
theorem npow (n : ℕ) (hx : Den x s f) :
    Den (RealOps.npow x n) s (fun i => RealOps.npow (f i) n) := map1 (fun a => RealOps.npow a n) hx
theorem onesLike (hx : Den x s f) :
    Den (RealOps.onesLike x) s (fun i => RealOps.onesLike (f i)) := map1 _ hx
theorem ofR (hx : Den x s f) :
    Den (CplxOps.ofR x : CArr) s (fun i => CplxOps.ofR (f i)) := map1 _ hx
end RealRules

section CplxRules
variable {x y : CArr} {s t : Shape} {f g : (ℕ → ℕ) → FP ℂ}

theorem clit (a : ℂ) : Den (CplxOps.clit a : CArr) (some []) (fun _ => CplxOps.clit a) := scalar _
theorem cadd (hx : Den x s f) (hy : Den y t g) : Den (x + y) (s ⊔ᵇ t) (fun i => f i + g i) :=
  map2 _ hx hy
theorem csub (hx : Den x s f) (hy : Den y t g) : Den (x - y) (s ⊔ᵇ t) (fun i => f i - g i) :=
  map2 _ hx hy
theorem cmul (hx : Den x s f) (hy : Den y t g) : Den (x * y) (s ⊔ᵇ t) (fun i => f i * g i) :=
  map2 _ hx hy
theorem cdiv (hx : Den x s f) (hy : Den y t g) : Den (x / y) (s ⊔ᵇ t) (fun i => f i / g i) :=
  map2 _ hx hy
theorem exp (hx : Den x s f) : Den (CplxOps.exp x) s (fun i => CplxOps.exp (f i)) := map1 _ hx
theorem sqrt (hx : Den x s f) : Den (CplxOps.sqrt x) s (fun i => CplxOps.sqrt (f i)) := map1 _ hx
theorem cabs (hx : Den x s f) : Den (CplxOps.cabs x) s (fun i => CplxOps.cabs (f i)) := map1 _ hx
theorem cpow (n : ℕ) (hx : Den x s f) :
    Den (CplxOps.cpow x n) s (fun i => CplxOps.cpow (f i) n) := map1 (fun a => CplxOps.cpow a n) hx
theorem jpow {j : JArr} {h : (ℕ → ℕ) → ℤ} (hx : Den x s f) (hj : Den j t h) :
    Den (CplxOps.jpow x j) (s ⊔ᵇ t) (fun i => CplxOps.jpow (f i) (h i)) := map2 _ hx hj
theorem jpred {j : JArr} {h : (ℕ → ℕ) → ℤ} (hj : Den j t h) :
    Den (CplxOps.jpred CArr j) t (fun i => CplxOps.jpred (FP ℂ) (h i)) := map1 _ hj
theorem whereJ {j : JArr} {u : Shape} {h : (ℕ → ℕ) → ℤ} (hj : Den j u h) (hx : Den x s f)
    (hy : Den y t g) :
    Den (CplxOps.whereJ j x y) (u ⊔ᵇ (s ⊔ᵇ t)) (fun i => CplxOps.whereJ (h i) (f i) (g i)) := by
  refine congr (where3 (fun j : ℤ => j = 0) hj hx hy) rfl fun i => ?_
  show _ = if h i = 0 then f i else g i
  congr
theorem whereR {n : RArr} {u : Shape} {h : (ℕ → ℕ) → FP ℝ} (hn : Den n u h) (hx : Den x s f)
    (hy : Den y t g) :
    Den (CplxOps.whereR n x y) (u ⊔ᵇ (s ⊔ᵇ t)) (fun i => CplxOps.whereR (h i) (f i) (g i)) := by
  classical
  refine congr (where3 (fun j : FP ℝ => j = FP.num 0) hn hx hy) rfl fun i => ?_
  show _ = if h i = FP.num 0 then f i else g i
  congr
end CplxRules

end Den

/-- Apply the structural rules of `Den`. -/
macro "den" : tactic =>
  `(tactic| repeat' (first
      | assumption
      | apply Den.lit | apply Den.clit
      | apply Den.radd | apply Den.rsub | apply Den.rmul | apply Den.rdiv
      | apply Den.cadd | apply Den.csub | apply Den.cmul | apply Den.cdiv
      | apply Den.log | apply Den.sin | apply Den.cos | apply Den.abs | apply Den.clip
      | apply Den.npow | apply Den.onesLike | apply Den.ofR
      | apply Den.exp | apply Den.sqrt | apply Den.cabs | apply Den.cpow
      | apply Den.jpow | apply Den.jpred | apply Den.whereJ | apply Den.whereR))

/-- Equality of two broadcasts of the same shapes. -/
macro "shape_eq" : tactic =>
  `(tactic| (simp only [Shape.unit_join, Shape.join_unit]; try ac_rfl))

instance {α : Type} : Nonempty (FP α) := ⟨FP.nan⟩

namespace DenM

variable {α β : Type}

theorem ok {y : PyM (NDArray α)} {s : Shape} {f : (ℕ → ℕ) → α} (h : Den y s f) :
    DenM (.ok y) s (fun i => .ok (f i)) := by
  cases s with
  | none => obtain ⟨e, rfl⟩ := h; exact ⟨e, rfl⟩
  | some s =>
    obtain ⟨A, rfl, h2, h3⟩ := h
    exact Or.inr ⟨A, f, rfl, h2, fun i => ⟨rfl, h3 i⟩⟩

theorem err (e : PyErr) (s : Shape) :
    DenM (.error e : PyM (PyM (NDArray α))) s (fun _ => .error e) := by
  cases s with
  | none => exact ⟨e, rfl⟩
  | some s => exact Or.inl ⟨e, rfl, fun _ => rfl⟩

theorem congr {x : PyM (PyM (NDArray α))} {s s' : Shape} {f f' : (ℕ → ℕ) → PyM α}
    (h : DenM x s f) (hs : s = s') (hf : ∀ i, f i = f' i) : DenM x s' f' := by
  subst hs
  have : f = f' := funext hf
  rwa [← this]

theorem seq [Nonempty α] {x : PyM (PyM (NDArray α))} {s s' : Shape} {f : (ℕ → ℕ) → PyM α}
    {k : PyM (NDArray α) → PyM (PyM (NDArray β))} {kS : (ℕ → ℕ) → α → PyM β}
    (hx : DenM x s f) (hle : s ≤ᵇ s')
    (hk : ∀ y g, Den y s g → DenM (k y) s' (fun i => kS i (g i))) :
    DenM (x >>= k) s' (fun i => f i >>= kS i) := by
  cases s with
  | none =>
    have hs' := Shape.le_none hle
    subst hs'
    obtain ⟨e, he⟩ := hx
    cases x with
    | error e' => exact ⟨e', rfl⟩
    | ok y =>
      have hy : y = .error e := he
      exact hk y (fun _ => Classical.arbitrary α) ⟨e, hy⟩
  | some s =>
    rcases hx with ⟨e, rfl, hf⟩ | ⟨A, g, rfl, h2, h3⟩
    · have : (fun i => f i >>= kS i) = fun _ => (.error e : PyM β) := by
        funext i; rw [hf]; rfl
      rw [this]
      exact err e s'
    · have := hk (.ok A) g ⟨A, rfl, h2, fun i => (h3 i).2⟩
      refine congr this rfl fun i => ?_
      rw [(h3 i).1]; rfl

end DenM

end Snompy
