import Verif.Model.Cache

/-!
# C57: the quadrature cache is invisible
-/

namespace Snompy.Props

open Prog

/-- Every entry of the cache holds the nodes of the positive integer its key is equal to. -/
def CacheOk (env : Env) (c : Cache) : Prop :=
  ∀ e ∈ c, ∃ n : ℤ, 0 < n ∧ (e.1 = .plain n ∨ e.1 = .tuple n) ∧ e.2 = env.laggauss n.toNat

theorem mem_of_lookup {c : Cache} {k : Key} {r : Rule} (h : c.lookup k = some r) : (k, r) ∈ c := by
  induction c with
  | nil => simp at h
  | cons e c ih =>
    obtain ⟨k', r'⟩ := e
    rw [List.lookup_cons] at h
    by_cases hk : k = k'
    · subst hk
      simp only [beq_self_eq_true, Option.some.injEq] at h
      simp [h]
    · have : (k == k') = false := by simpa using hk
      rw [this] at h
      exact List.mem_cons_of_mem _ (ih h)

theorem index_val {o : Order} {n : ℤ} (h : o.index = .ok n) : o.val = n := by
  cases o with
  | int m => cases h; rfl
  | npInt m => cases h; rfl
  | bool b => cases h; cases b <;> simp [Order.val]
  | float x => cases h

theorem key_cases (o : Order) {n : ℤ} (h : o.index = .ok n) : o.key = .plain n ∨ o.key = .tuple n := by
  have hv := index_val h
  cases o with
  | int m => cases h; exact .inl rfl
  | npInt m => exact .inr (congrArg Key.tuple hv)
  | bool b => exact .inr (congrArg Key.tuple hv)
  | float x => cases h

theorem cached_ok {env : Env} {c : Cache} (hc : CacheOk env c) (o : Order) :
    CacheOk env (laggaussCached env o c).2 := by
  unfold laggaussCached
  split
  · exact hc
  · split
    · rename_i r hr
      intro e he
      rcases List.mem_cons.1 he with rfl | he
      · unfold laggaussNumpy at hr
        cases hi : o.index with
        | error e => rw [hi] at hr; cases hr
        | ok n =>
          rw [hi] at hr
          simp only [PyM.ok_bind] at hr
          split at hr
          · cases hr
          · cases hr
            exact ⟨n, by omega, key_cases o hi, rfl⟩
      · exact hc e he
    · exact hc

theorem run_ok {α : Type} {env : Env} (p : Prog α) {c : Cache} (hc : CacheOk env c) : CacheOk env (p.run env c).2 := by
  induction p generalizing c with
  | done r => exact hc
  | ask o k ih =>
    have h := cached_ok hc o
    rw [Prog.run]
    split
    · rename_i r c' he
      rw [he] at h
      exact ih r h
    · rename_i e c' he
      rw [he] at h
      exact h

theorem after_ok (env : Env) (h : List (Prog Unit)) : CacheOk env (after env h) := by
  induction h with
  | nil => intro e he; cases he
  | cons p ps ih => exact run_ok p ih

theorem cached_eq {env : Env} {c : Cache} (hc : CacheOk env c) {o : Order} {n : ℤ} (ho : o.index = .ok n) :
    (laggaussCached env o c).1 = laggaussNumpy env o := by
  unfold laggaussCached
  split
  · rename_i r hr
    obtain ⟨m, hm, hk, rfl⟩ := hc _ (mem_of_lookup hr)
    have hmn : m = n := by
      rcases key_cases o ho with h | h <;> rw [h] at hk <;> simpa [eq_comm] using hk
    subst hmn
    simp only [laggaussNumpy, ho, PyM.ok_bind, if_neg (not_le.2 hm)]
  · split <;> simp [*]

/-- **C57.** Whatever calls came before, an integer order (plain, numpy or bool; positive or not) gets what numpy
itself returns for it, as with a cold cache: the nodes of that order, or the exception. -/
theorem C57_nodes (env : Env) (h : List (Prog Unit)) {o : Order} {n : ℤ} (ho : o.index = .ok n) :
    (laggaussCached env o (after env h)).1 = (laggaussCached env o []).1 ∧
      (laggaussCached env o (after env h)).1 =
        if 0 < n then .ok (env.laggauss n.toNat) else .error (.valueError "deg must be a positive integer") := by
  have h1 := cached_eq (after_ok env h) ho
  have h2 := cached_eq (env := env) (after_ok env []) ho
  refine ⟨h1.trans h2.symm, h1.trans ?_⟩
  simp only [laggaussNumpy, ho, PyM.ok_bind]
  split <;> split <;> first | rfl | omega

/-- The orders a program may ask for are all integers. -/
inductive IntegerOrders {α : Type} : Prog α → Prop where
  | done (r : PyM α) : IntegerOrders (.done r)
  | ask {o : Order} {n : ℤ} {k : Rule → Prog α} (ho : o.index = .ok n) (hk : ∀ r, IntegerOrders (k r)) :
      IntegerOrders (.ask o k)

theorem IntegerOrders.bind {α β : Type} {p : Prog α} {f : α → Prog β} (hp : IntegerOrders p)
    (hf : ∀ a, IntegerOrders (f a)) : IntegerOrders (p.bind f) := by
  induction hp with
  | done r =>
    cases r with
    | ok a => exact hf a
    | error e => exact .done _
  | ask ho hk ih => exact .ask ho ih

theorem run_eq {α : Type} {env : Env} {p : Prog α} (hp : IntegerOrders p) {c c' : Cache} (hc : CacheOk env c)
    (hc' : CacheOk env c') : (p.run env c).1 = (p.run env c').1 := by
  induction hp generalizing c c' with
  | done r => rfl
  | ask ho hk ih =>
    rename_i o n k
    have e1 := cached_eq hc ho
    have e2 := cached_eq hc' ho
    have k1 := cached_ok hc o
    have k2 := cached_ok hc' o
    simp only [Prog.run]
    generalize laggaussCached env o c = x at e1 k1
    generalize laggaussCached env o c' = y at e2 k2
    obtain ⟨x1, x2⟩ := x
    obtain ⟨y1, y2⟩ := y
    subst e1
    subst e2
    cases laggaussNumpy env o with
    | ok r => exact ih r k1 k2
    | error e => rfl

/-- **C57** for every piece of code that asks for integer orders, however often and depending on whatever it got
before: its outcome is the one with a cold cache.  The calls of the history may have asked for any orders, and may have
raised. -/
theorem C57_calls {α : Type} (env : Env) (h : List (Prog Unit)) {p : Prog α} (hp : IntegerOrders p) :
    (p.run env (after env h)).1 = (p.run env []).1 :=
  run_eq hp (after_ok env h) (after_ok env [])

section
variable {R J C : Type} [RealOps R] [CplxOps R J C]

theorem lagRule_eq (env : Env) (n : ℕ) (h : List (Prog Unit)) :
    (laggaussCached env (.int n) (after env h)).1 = env.lagRule n := by
  rw [(C57_nodes env h (o := .int n) rfl).2, Env.lagRule]
  by_cases hn : n = 0
  · simp [hn]
  · rw [if_neg hn, if_pos (by omega), Int.toNat_natCast]

/-- **C57** for the methods of `Sample`: with the cache, after any history, they return what the model without a cache
(in which every other property is proved) returns. -/
theorem C57_above_surf (env : Env) (h : List (Prog Unit)) (s : Stack R C) (zQ : R) (n : ℕ) :
    ((s.aboveSurfProg zQ (.int n)).run env (after env h)).1 = s.reflCoefQsAboveSurf env zQ (some n) := by
  have h1 := lagRule_eq env n h
  simp only [Stack.aboveSurfProg, Stack.reflCoefQsAboveSurf, Option.getD_some, Prog.run]
  rw [← h1]
  generalize laggaussCached env (.int n) (after env h) = x
  obtain ⟨e | r, c⟩ := x <;> rfl

theorem C57_surf (env : Env) (h : List (Prog Unit)) (s : Stack R C) (zQ : R) (n : ℕ) :
    ((s.surfProg zQ (.int n)).run env (after env h)).1 = s.surfPotAndField env zQ (some n) := by
  have h1 := lagRule_eq env n h
  simp only [Stack.surfProg, Stack.surfPotAndField, Option.getD_some, Prog.run]
  rw [← h1]
  generalize laggaussCached env (.int n) (after env h) = x
  obtain ⟨e | r, c⟩ := x <;> rfl

theorem run_bind {α β : Type} (env : Env) (p : Prog α) (f : α → Prog β) (c : Cache) : (p.bind f).run env c =
    match p.run env c with
    | (.ok a, c') => (f a).run env c'
    | (.error e, c') => (.error e, c') := by
  induction p generalizing c with
  | done r => cases r <;> rfl
  | ask o k ih =>
    simp only [Prog.bind, Prog.run]
    generalize laggaussCached env o c = x
    obtain ⟨e | r, c'⟩ := x
    · rfl
    · exact ih r c'

theorem C57_image (env : Env) (h : List (Prog Unit)) (s : Stack R C) (zQ : R) (n : ℕ) :
    ((s.imageProg zQ (.int n)).run env (after env h)).1 = s.imageDepthAndCharge env zQ (some n) := by
  have h1 := C57_surf env h s zQ n
  rw [Stack.imageProg, run_bind, Stack.imageDepthAndCharge, ← h1]
  generalize Prog.run env (s.surfProg zQ (.int n)) (after env h) = x
  obtain ⟨e | ⟨phi, e⟩, c⟩ := x <;> rfl

end

/-- A float order that equals an earlier integer order: it raises with a cold cache, and succeeds after a call with the
numpy integer of the same value. -/
theorem C57_float (env : Env) (n : ℕ) (hn : 0 < n) :
    (laggaussCached env (.float n) []).1 = .error (.typeError "deg must be an integer") ∧
      ∃ h, (laggaussCached env (.float n) (after env h)).1 = .ok (env.laggauss n) := by
  refine ⟨rfl, [.ask (.npInt n) fun _ => .done (.ok ())], ?_⟩
  have h1 : laggaussCached env (.npInt n) [] = (.ok (env.laggauss n), [(.tuple n, env.laggauss n)]) := by
    have hv : Order.val (.npInt n) = (n : ℚ) := by simp [Order.val]
    simp [laggaussCached, laggaussNumpy, Order.index, hn.ne', Order.key, hv]
  simp only [after, Prog.run, h1]
  simp [laggaussCached, Order.key, Order.val]

/-- All orders of the program are plain Python integers. -/
inductive PlainOrders {α : Type} : Prog α → Prop where
  | done (r : PyM α) : PlainOrders (.done r)
  | ask {n : ℤ} {k : Rule → Prog α} (hk : ∀ r, PlainOrders (k r)) : PlainOrders (.ask (.int n) k)

/-- A float order always raises if only plain Python integers were used before: CPython keys them differently. -/
theorem C57_float_plain (env : Env) (h : List (Prog Unit)) (hh : ∀ p ∈ h, PlainOrders p) (x : ℚ) :
    (laggaussCached env (.float x) (after env h)).1 = .error (.typeError "deg must be an integer") := by
  have hrun : ∀ {p : Prog Unit}, PlainOrders p → ∀ c : Cache, (∀ e ∈ c, ∃ n, e.1 = .plain n) →
      ∀ e ∈ (p.run env c).2, ∃ n, e.1 = .plain n := by
    intro p hp
    induction hp with
    | done r => exact fun c hc => hc
    | ask hk ih =>
      rename_i n k
      intro c hc
      simp only [Prog.run]
      have hc' : ∀ e ∈ (laggaussCached env (.int n) c).2, ∃ n, e.1 = .plain n := by
        unfold laggaussCached
        split
        · exact hc
        · split
          · intro e he
            rcases List.mem_cons.1 he with rfl | he
            · exact ⟨n, rfl⟩
            · exact hc e he
          · exact hc
      generalize laggaussCached env (.int n) c = y at hc'
      obtain ⟨e | r, c'⟩ := y
      · exact hc'
      · exact ih r c' hc'
  have hall : ∀ e ∈ after env h, ∃ n, e.1 = .plain n := by
    induction h with
    | nil => intro e he; cases he
    | cons p ps ih =>
      exact hrun (hh p (by simp)) _ (ih fun q hq => hh q (by simp [hq]))
  unfold laggaussCached
  split
  · rename_i r hr
    obtain ⟨n, hn⟩ := hall _ (mem_of_lookup hr)
    cases hn
  · rfl

/-- A history and an order as in the theorems above. -/
example (env : Env) : (laggaussCached env (.int 32) (after env [.ask (.int 32) fun _ => .done (.ok ()),
    .ask (.float 32) fun _ => .done (.ok ()), .ask (.npInt 32) fun _ => .done (.error .broadcast)])).1 =
    .ok (env.laggauss 32) := by
  have := (C57_nodes env [.ask (.int 32) fun _ => .done (.ok ()),
    .ask (.float 32) fun _ => .done (.ok ()), .ask (.npInt 32) fun _ => .done (.error .broadcast)]
    (o := .int 32) rfl).2
  simpa using this

example : IntegerOrders (Prog.ask (.npInt 3) fun r => .ask (.int (r.length : ℤ)) fun _ => .done (.ok ())) :=
  .ask (n := 3) rfl fun r => .ask (n := r.length) rfl fun _ => .done _

example : ∀ p ∈ [Prog.ask (.int 3) fun _ => .done (.ok ())], PlainOrders p := by
  simp only [List.mem_singleton, forall_eq]
  exact .ask fun _ => .done _

end Snompy.Props
