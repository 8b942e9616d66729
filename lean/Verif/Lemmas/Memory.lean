import Verif.Spec.Memory
import Verif.Lemmas.SampleObj

/-!
# Lemmas about memory
-/

namespace Snompy

variable {α : Type}

/-- The array exists. -/
def Heap.Known (h : Heap α) (r : Ref) : Prop := ∀ k, r.addr = .lib k → k < h.nLib

/-- Nothing that exists has changed; there may be new blocks made by snompy. -/
structure Heap.Ext (h h' : Heap α) : Prop where
  nUser : h'.nUser = h.nUser
  nLib : h.nLib ≤ h'.nLib
  cells : ∀ a, (∀ k, a = .lib k → k < h.nLib) → h'.cells a = h.cells a

namespace Heap

theorem Ext.refl (h : Heap α) : h.Ext h := ⟨rfl, le_rfl, fun _ _ => rfl⟩

theorem Ext.trans {h h' h'' : Heap α} (a : h.Ext h') (b : h'.Ext h'') : h.Ext h'' :=
  ⟨b.nUser.trans a.nUser, a.nLib.trans b.nLib, fun x hx =>
    (b.cells x fun k hk => (hx k hk).trans_le a.nLib).trans (a.cells x hx)⟩

theorem Ext.known {h h' : Heap α} (e : h.Ext h') {r : Ref} (hr : h.Known r) : h'.Known r :=
  fun k hk => (hr k hk).trans_le e.nLib

theorem Ext.read {h h' : Heap α} (e : h.Ext h') {r : Ref} (hr : h.Known r) : h'.read r = h.read r := by
  unfold Heap.read
  rw [e.cells r.addr hr]

theorem Ext.readAll {h h' : Heap α} (e : h.Ext h') {l : List Ref} (hl : ∀ r ∈ l, h.Known r) :
    l.map h'.read = l.map h.read :=
  List.map_congr_left fun r hr => e.read (hl r hr)

theorem known_user (h : Heap α) {r : Ref} (hr : r.IsUser) : h.Known r := by
  obtain ⟨n, hn⟩ := hr
  intro k hk
  rw [hn] at hk
  cases hk

theorem new_ext (h : Heap α) (A : NDArray α) : h.Ext (h.new A).1 := by
  refine ⟨rfl, Nat.le_succ _, fun a ha => ?_⟩
  refine Function.update_of_ne ?_ _ _
  rintro rfl
  exact absurd (ha _ rfl) (lt_irrefl _)

theorem new_read (h : Heap α) (A : NDArray α) : (h.new A).1.read (h.new A).2 = A := by
  simp [Heap.new, Heap.read]

/-- A list of new arrays. -/
theorem newAll_spec (h : Heap α) (l : List (NDArray α)) :
    h.Ext (h.newAll l).1 ∧ (h.newAll l).2.map (h.newAll l).1.read = l ∧
      (∀ r ∈ (h.newAll l).2, r.pos = id ∧ ∃ k, r.addr = .lib k ∧ h.nLib ≤ k ∧ k < (h.newAll l).1.nLib) ∧
      ((h.newAll l).2.map Ref.addr).Nodup := by
  induction l generalizing h with
  | nil => exact ⟨Ext.refl h, rfl, by simp [newAll], by simp [newAll]⟩
  | cons A l ih =>
    obtain ⟨h1, h2, h3, h4⟩ := ih (h.new A).1
    have hk : (h.new A).1.Known (h.new A).2 := by
      intro k hk
      cases hk
      exact Nat.lt_succ_self _
    refine ⟨(new_ext h A).trans h1, ?_, ?_, ?_⟩
    · simp only [newAll, List.map_cons]
      rw [h1.read hk, new_read, h2]
    · simp only [newAll, List.mem_cons]
      rintro r (rfl | hr)
      · refine ⟨rfl, h.nLib, rfl, le_rfl, ?_⟩
        exact lt_of_lt_of_le (Nat.lt_succ_self _) h1.nLib
      · obtain ⟨h5, k, h6, h7, h8⟩ := h3 r hr
        exact ⟨h5, k, h6, (Nat.le_succ _).trans h7, h8⟩
    · simp only [newAll, List.map_cons, List.nodup_cons]
      refine ⟨?_, h4⟩
      intro hm
      obtain ⟨r, hr, he⟩ := List.mem_map.1 hm
      obtain ⟨-, k, h6, h7, -⟩ := h3 r hr
      rw [h6] at he
      cases he
      exact absurd h7 (Nat.not_succ_le_self _)

theorem newAll_known (h : Heap α) (l : List (NDArray α)) : ∀ r ∈ (h.newAll l).2, (h.newAll l).1.Known r := by
  intro r hr k hk
  obtain ⟨-, k', h1, -, h2⟩ := (newAll_spec h l).2.2.1 r hr
  rw [h1] at hk
  cases hk
  exact h2

end Heap

theorem RefVal.read_ext {h h' : Heap α} (e : h.Ext h') (v : RefVal) (hv : ∀ l, v = .items l → ∀ r ∈ l, h.Known r) :
    v.read h' = v.read h := by
  cases v with
  | notIterable => rfl
  | items l => exact congrArg StackVal.items (e.readAll (hv l rfl))

/-- Both heaps. -/
structure Mem.Ext (m m' : Mem) : Prop where
  r : m.r.Ext m'.r
  c : m.c.Ext m'.c

theorem Mem.Ext.refl (m : Mem) : m.Ext m := ⟨.refl _, .refl _⟩
theorem Mem.Ext.trans {m m' m'' : Mem} (a : m.Ext m') (b : m'.Ext m'') : m.Ext m'' :=
  ⟨a.r.trans b.r, a.c.trans b.c⟩

namespace SampleRef

/-- Every array of the sample exists. -/
structure Known (m : Mem) (o : SampleRef) : Prop where
  t : ∀ l, o.t = some l → ∀ r ∈ l, m.r.Known r
  eps : ∀ l, o.eps = some l → ∀ r ∈ l, m.c.Known r
  env : ∀ r, o.epsEnv0 = .inl r → m.c.Known r
  nuVac : ∀ r, o.nuVac = some r → m.r.Known r

theorem Known.ext {m m' : Mem} (e : m.Ext m') {o : SampleRef} (h : o.Known m) : o.Known m' :=
  ⟨fun l hl r hr => e.r.known (h.t l hl r hr), fun l hl r hr => e.c.known (h.eps l hl r hr),
    fun r hr => e.c.known (h.env r hr), fun r hr => e.r.known (h.nuVac r hr)⟩

theorem read_ext {m m' : Mem} (e : m.Ext m') {o : SampleRef} (h : o.Known m) : o.read m' = o.read m := by
  unfold read
  congr 1
  · cases ht : o.t with
    | none => rfl
    | some l => exact congrArg some (e.r.readAll (h.t l ht))
  · cases ht : o.eps with
    | none => rfl
    | some l => exact congrArg some (e.c.readAll (h.eps l ht))
  · cases ht : o.epsEnv0 with
    | inl r => exact e.c.read (h.env r ht)
    | inr x => rfl
  · cases ht : o.nuVac with
    | none => rfl
    | some r => exact congrArg some (e.r.read (h.nuVac r ht))

/-- What an assignment does, in terms of values. -/
structure Sim (m : Mem) (x : Mem × SampleRef × PyM Unit) (y : SampleObj × PyM Unit) : Prop where
  ext : m.Ext x.1
  known : x.2.1.Known x.1
  read : x.2.1.read x.1 = y.1
  out : x.2.2 = y.2

theorem setT_sim {m : Mem} {o : SampleRef} (h : o.Known m) (v : Option RefVal) :
    Sim m (setT m o v) ((o.read m).setT (v.map (·.read m.r))) := by
  cases v with
  | none =>
    refine ⟨.refl _, ⟨?_, h.eps, h.env, h.nuVac⟩, rfl, rfl⟩
    intro l hl
    cases hl
    simp
  | some v =>
    simp only [setT, SampleObj.setT, Option.map_some]
    cases hu : unpackStack (v.read m.r) with
    | error e => exact ⟨.refl _, h, rfl, rfl⟩
    | ok t =>
      obtain ⟨h1, h2, h3, -⟩ := Heap.newAll_spec m.r t
      have he : m.Ext { m with r := (m.r.newAll t).1 } := ⟨h1, .refl _⟩
      have hr : ({ o with t := some (m.r.newAll t).2 } : SampleRef).read { m with r := (m.r.newAll t).1 } =
          { o.read m with t := some t } := by
        have := read_ext he h
        unfold read at this ⊢
        simp only [Option.map_some, h2]
        simp only [SampleObj.mk.injEq] at this
        rw [this.2.2.1, this.2.2.2]
      refine ⟨he, ⟨?_, (h.ext he).eps, (h.ext he).env, (h.ext he).nuVac⟩, hr, ?_⟩
      · intro l hl
        cases hl
        exact Heap.newAll_known m.r t
      · simp only
        rw [hr]

theorem setEpsVal_sim {m : Mem} {o : SampleRef} (h : o.Known m) (v : StackVal (FP ℂ)) :
    Sim m (setEpsVal m o v) ((o.read m).setEps v) := by
  simp only [setEpsVal, SampleObj.setEps]
  cases hu : unpackStack v with
  | error e => exact ⟨.refl _, h, rfl, rfl⟩
  | ok eps =>
    obtain ⟨h1, h2, h3, -⟩ := Heap.newAll_spec m.c eps
    have he : m.Ext { m with c := (m.c.newAll eps).1 } := ⟨.refl _, h1⟩
    have hr : ({ o with eps := some (m.c.newAll eps).2 } : SampleRef).read { m with c := (m.c.newAll eps).1 } =
        { o.read m with eps := some eps } := by
      have := read_ext he h
      unfold read at this ⊢
      simp only [Option.map_some, h2]
      simp only [SampleObj.mk.injEq] at this
      rw [this.2.2.1]
    refine ⟨he, ⟨(h.ext he).t, ?_, (h.ext he).env, (h.ext he).nuVac⟩, hr, ?_⟩
    · intro l hl
      cases hl
      exact Heap.newAll_known m.c eps
    · simp only
      rw [hr]

theorem setBeta_sim {m : Mem} {o : SampleRef} (h : o.Known m) (v : RefVal) :
    Sim m (setBeta m o v) ((o.read m).setBeta (v.read m.c)) := by
  simp only [setBeta, SampleObj.setBeta]
  cases unpackStack (v.read m.c) with
  | error e => exact ⟨.refl _, h, rfl, rfl⟩
  | ok beta =>
    cases (o.read m).epsEnv with
    | error e => exact ⟨.refl _, h, rfl, rfl⟩
    | ok env =>
      simp only
      cases imulEnv (SampleObj.epsFromBeta beta).1 (SampleObj.epsFromBeta beta).2 env with
      | error e => exact ⟨.refl _, h, rfl, rfl⟩
      | ok eps => exact setEpsVal_sim h _

/-- The arrays exist that are passed. -/
def RefVal.Known (h : Heap α) (v : RefVal) : Prop := ∀ l, v = .items l → ∀ r ∈ l, h.Known r

theorem run_sim {m : Mem} {o : SampleRef} (h : o.Known m) (op : Op) (hop : ∀ r, op = .nuVac (some r) → m.r.Known r) :
    Sim m (op.run m o) ((op.read m).run (o.read m)) := by
  cases op with
  | t v => exact setT_sim h v
  | eps v => exact setEpsVal_sim h _
  | beta v => exact setBeta_sim h v
  | nuVac v =>
    refine ⟨.refl _, ⟨h.t, h.eps, h.env, ?_⟩, rfl, rfl⟩
    rintro r hr
    exact hop r (congrArg Op.nuVac hr)

/-- Construction, in terms of values. -/
structure SimInit (m : Mem) (x : Mem × PyM SampleRef) (y : PyM SampleObj) : Prop where
  ext : m.Ext x.1
  known : ∀ o, x.2 = .ok o → o.Known x.1
  read : (x.2 >>= fun o => .ok (o.read x.1)) = y

theorem andThen_sim {m : Mem} {x : Mem × SampleRef × PyM Unit} {y : SampleObj × PyM Unit} (h : Sim m x y)
    {f : Mem → SampleRef → Mem × PyM SampleRef} {g : SampleObj → PyM SampleObj}
    (hf : x.2.2 = .ok () → SimInit x.1 (f x.1 x.2.1) (g y.1)) :
    SimInit m (andThen x f) (SampleObj.raised y >>= g) := by
  obtain ⟨m', o, r⟩ := x
  obtain ⟨o', r'⟩ := y
  obtain ⟨h1, h2, h3, h4⟩ := h
  simp only at h1 h2 h3 h4
  subst h4
  cases r with
  | error e => exact ⟨h1, fun o ho => (by cases ho), rfl⟩
  | ok u =>
    obtain ⟨f1, f2, f3⟩ := hf rfl
    exact ⟨h1.trans f1, f2, f3⟩

theorem init_sim (d : Defaults) (m : Mem) (a : Args) (heps : ∀ v, a.eps = some v → RefVal.Known m.c v)
    (hbeta : ∀ v, a.beta = some v → RefVal.Known m.c v) (henv : ∀ r, a.epsEnv = some r → m.c.Known r)
    (hnu : ∀ r, a.nuVac = some r → m.r.Known r) :
    SimInit m (init d m a) (SampleObj.init d (a.read m)) := by
  unfold init SampleObj.init
  have hi : ((a.read m).eps.isNone = (a.read m).beta.isNone) = (a.eps.isNone = a.beta.isNone) := by
    simp [Args.read]
  simp only [hi]
  split_ifs with hx
  · exact ⟨.refl _, fun o ho => (by cases ho), rfl⟩
  set o : SampleRef := ⟨none, none, (a.epsEnv.map Sum.inl).getD (.inr d.epsEnv), none⟩ with ho
  have hk : o.Known m := by
    refine ⟨fun l hl => (by cases hl), fun l hl => (by cases hl), fun r hr => ?_, fun l hl => (by cases hl)⟩
    rw [ho] at hr
    cases he : a.epsEnv with
    | none => rw [he] at hr; cases hr
    | some r' => rw [he] at hr; cases hr; exact henv _ he
  have hr : (⟨none, none, (a.read m).epsEnv.getD (NDArray.scalar (FP.num d.epsEnv)), none⟩ : SampleObj) = o.read m := by
    rw [ho]
    cases he : a.epsEnv <;> simp [read, Args.read, he, readEnv]
  rw [hr]
  have finish : ∀ (m' : Mem) (o' : SampleRef), m.Ext m' → o'.Known m' →
      SimInit m' (match a.nuVac with
        | none => (m', .ok { o' with nuVac := none })
        | some r => ({ m' with r := (m'.r.new (m'.r.read r)).1 },
          .ok { o' with nuVac := some (m'.r.new (m'.r.read r)).2 }))
        (pure { o'.read m' with nuVac := (a.read m).nuVac }) := by
    intro m' o' he' hk'
    cases hn : a.nuVac with
    | none =>
      refine ⟨.refl _, ?_, ?_⟩
      · rintro o'' h
        cases h
        exact ⟨hk'.t, hk'.eps, hk'.env, fun r hr => by cases hr⟩
      · simp only [PyM.ok_bind, PyM.pure_eq_ok, Args.read, hn, read, Option.map_none]
    | some r =>
      have he : m'.Ext { m' with r := (m'.r.new (m'.r.read r)).1 } := ⟨Heap.new_ext _ _, .refl _⟩
      refine ⟨he, ?_, ?_⟩
      · rintro o'' h
        cases h
        refine ⟨(hk'.ext he).t, (hk'.ext he).eps, (hk'.ext he).env, ?_⟩
        rintro r' h'
        cases h'
        intro k hk
        cases hk
        exact Nat.lt_succ_self _
      · have := read_ext he hk'
        simp only [PyM.ok_bind, PyM.pure_eq_ok, Args.read, hn, read, Option.map_some, Except.ok.injEq,
          SampleObj.mk.injEq] at this ⊢
        refine ⟨this.1, this.2.1, this.2.2.1, ?_⟩
        rw [Heap.new_read, he'.r.read (hnu r hn)]
  refine andThen_sim (setT_sim hk a.t) fun _ => ?_
  obtain ⟨s1, s2, s3, s4⟩ := setT_sim hk a.t
  generalize hT : setT m o a.t = x at s1 s2 s3 s4 ⊢
  generalize SampleObj.setT (o.read m) (a.t.map (·.read m.r)) = y at s3 s4 ⊢
  cases he : a.eps with
  | some v =>
    have e1 : (a.read m).eps = some (v.read x.1.c) := by
      simp only [Args.read, he, Option.map_some]
      rw [RefVal.read_ext s1.c v (heps v he)]
    simp only [e1]
    have hs := setEpsVal_sim s2 (v.read x.1.c)
    rw [s3] at hs
    refine andThen_sim hs fun _ => ?_
    have := finish (setEpsVal x.1 x.2.1 (v.read x.1.c)).1 _ (s1.trans hs.ext) hs.known
    rw [hs.read] at this
    exact this
  | none =>
    cases hb : a.beta with
    | none => rw [he, hb] at hx; exact absurd rfl hx
    | some v =>
      have e0 : (a.read m).eps = none := by simp [Args.read, he]
      have e1 : (a.read m).beta = some (v.read x.1.c) := by
        simp only [Args.read, hb, Option.map_some]
        rw [RefVal.read_ext s1.c v (hbeta v hb)]
      simp only [e0, e1]
      have hs := setBeta_sim s2 v
      rw [s3] at hs
      refine andThen_sim hs fun _ => ?_
      have := finish (setBeta x.1 x.2.1 v).1 _ (s1.trans hs.ext) hs.known
      rw [hs.read] at this
      exact this

/-- The layers either are those from before or new. -/
def Fresh (old new : Option (List Ref)) (n n' : ℕ) : Prop :=
  new = old ∨ ∃ l, new = some l ∧ (∀ r ∈ l, r.pos = id ∧ ∃ k, r.addr = .lib k ∧ n ≤ k ∧ k < n') ∧
    (l.map Ref.addr).Nodup

theorem Fresh.trans {a b c : Option (List Ref)} {n n' n'' : ℕ} (h1 : Fresh a b n n') (h2 : Fresh b c n' n'')
    (h : n ≤ n') (h' : n' ≤ n'') : Fresh a c n n'' := by
  rcases h2 with rfl | ⟨l, rfl, h3, h4⟩
  · rcases h1 with rfl | ⟨l, rfl, h3, h4⟩
    · exact Or.inl rfl
    · refine Or.inr ⟨l, rfl, fun r hr => ?_, h4⟩
      obtain ⟨h5, k, h6, h7, h8⟩ := h3 r hr
      exact ⟨h5, k, h6, h7, h8.trans_le h'⟩
  · refine Or.inr ⟨l, rfl, fun r hr => ?_, h4⟩
    obtain ⟨h5, k, h6, h7, h8⟩ := h3 r hr
    exact ⟨h5, k, h6, h.trans h7, h8⟩

/-- What assignments do to memory: nothing that exists changes, and the sample points to what it had or to new
arrays. -/
structure Step (m : Mem) (o : SampleRef) (m' : Mem) (o' : SampleRef) : Prop where
  ext : m.Ext m'
  t : Fresh o.t o'.t m.r.nLib m'.r.nLib
  eps : Fresh o.eps o'.eps m.c.nLib m'.c.nLib

theorem Step.refl (m : Mem) (o : SampleRef) : Step m o m o := ⟨.refl _, Or.inl rfl, Or.inl rfl⟩

theorem Step.trans {m o m' o' m'' o''} (a : Step m o m' o') (b : Step m' o' m'' o'') : Step m o m'' o'' :=
  ⟨a.ext.trans b.ext, a.t.trans b.t a.ext.r.nLib b.ext.r.nLib, a.eps.trans b.eps a.ext.c.nLib b.ext.c.nLib⟩

theorem setT_step (m : Mem) (o : SampleRef) (v : Option RefVal) : Step m o (setT m o v).1 (setT m o v).2.1 := by
  cases v with
  | none => exact ⟨.refl _, Or.inr ⟨[], rfl, by simp, by simp⟩, Or.inl rfl⟩
  | some v =>
    simp only [setT]
    cases hu : unpackStack (v.read m.r) with
    | error e => exact .refl _ _
    | ok t =>
      obtain ⟨h1, h2, h3, h4⟩ := Heap.newAll_spec m.r t
      exact ⟨⟨h1, .refl _⟩, Or.inr ⟨_, rfl, h3, h4⟩, Or.inl rfl⟩

theorem setEpsVal_step (m : Mem) (o : SampleRef) (v : StackVal (FP ℂ)) :
    Step m o (setEpsVal m o v).1 (setEpsVal m o v).2.1 := by
  simp only [setEpsVal]
  cases hu : unpackStack v with
  | error e => exact .refl _ _
  | ok t =>
    obtain ⟨h1, h2, h3, h4⟩ := Heap.newAll_spec m.c t
    exact ⟨⟨.refl _, h1⟩, Or.inl rfl, Or.inr ⟨_, rfl, h3, h4⟩⟩

theorem setBeta_step (m : Mem) (o : SampleRef) (v : RefVal) :
    Step m o (setBeta m o v).1 (setBeta m o v).2.1 := by
  simp only [setBeta]
  cases unpackStack (v.read m.c) with
  | error e => exact .refl _ _
  | ok beta =>
    cases (o.read m).epsEnv with
    | error e => exact .refl _ _
    | ok env =>
      simp only
      cases imulEnv (SampleObj.epsFromBeta beta).1 (SampleObj.epsFromBeta beta).2 env with
      | error e => exact .refl _ _
      | ok eps => exact setEpsVal_step _ _ _

theorem run_step (m : Mem) (o : SampleRef) (op : Op) : Step m o (op.run m o).1 (op.run m o).2.1 := by
  cases op with
  | t v => exact setT_step _ _ _
  | eps v => exact setEpsVal_step _ _ _
  | beta v => exact setBeta_step _ _ _
  | nuVac v => exact ⟨.refl _, Or.inl rfl, Or.inl rfl⟩

/-- Construction. -/
theorem andThen_step {m : Mem} {o : SampleRef} {x : Mem × SampleRef × PyM Unit} (h : Step m o x.1 x.2.1)
    {f : Mem → SampleRef → Mem × PyM SampleRef}
    (hf : x.1.Ext (f x.1 x.2.1).1 ∧ ∀ o', (f x.1 x.2.1).2 = .ok o' → Step x.1 x.2.1 (f x.1 x.2.1).1 o' ∧
      ∃ k, ∀ r, o'.nuVac = some r → r.addr = .lib k) :
    m.Ext (andThen x f).1 ∧ ∀ o', (andThen x f).2 = .ok o' → Step m o (andThen x f).1 o' ∧
      ∃ k, ∀ r, o'.nuVac = some r → r.addr = .lib k := by
  unfold andThen
  rcases hx : x.2.2 with e | u
  · exact ⟨h.ext, fun o' ho => (by cases ho)⟩
  · exact ⟨h.ext.trans hf.1, fun o' ho => ⟨h.trans (hf.2 o' ho).1, (hf.2 o' ho).2⟩⟩

theorem init_step (d : Defaults) (m : Mem) (a : Args) :
    m.Ext (init d m a).1 ∧ ∀ o, (init d m a).2 = .ok o →
      (Fresh none o.t m.r.nLib (init d m a).1.r.nLib ∧ Fresh none o.eps m.c.nLib (init d m a).1.c.nLib) ∧
      ∃ k, ∀ r, o.nuVac = some r → r.addr = .lib k := by
  unfold init
  split_ifs with hx
  · exact ⟨.refl _, fun o ho => (by cases ho)⟩
  set o : SampleRef := ⟨none, none, (a.epsEnv.map Sum.inl).getD (.inr d.epsEnv), none⟩ with ho
  have finish : ∀ (m' : Mem) (o' : SampleRef),
      m'.Ext (match a.nuVac with
        | none => ((m', .ok { o' with nuVac := none }) : Mem × PyM SampleRef)
        | some r => ({ m' with r := (m'.r.new (m'.r.read r)).1 },
          .ok { o' with nuVac := some (m'.r.new (m'.r.read r)).2 })).1 ∧
      ∀ o'', (match a.nuVac with
        | none => ((m', .ok { o' with nuVac := none }) : Mem × PyM SampleRef)
        | some r => ({ m' with r := (m'.r.new (m'.r.read r)).1 },
          .ok { o' with nuVac := some (m'.r.new (m'.r.read r)).2 })).2 = .ok o'' →
        Step m' o' (match a.nuVac with
          | none => ((m', .ok { o' with nuVac := none }) : Mem × PyM SampleRef)
          | some r => ({ m' with r := (m'.r.new (m'.r.read r)).1 },
            .ok { o' with nuVac := some (m'.r.new (m'.r.read r)).2 })).1 o'' ∧
        ∃ k, ∀ r, o''.nuVac = some r → r.addr = .lib k := by
    intro m' o'
    cases a.nuVac with
    | none =>
      refine ⟨.refl _, ?_⟩
      rintro o'' h
      cases h
      exact ⟨⟨.refl _, Or.inl rfl, Or.inl rfl⟩, 0, fun r hr => (by cases hr)⟩
    | some r =>
      have he : m'.Ext { m' with r := (m'.r.new (m'.r.read r)).1 } := ⟨Heap.new_ext _ _, .refl _⟩
      refine ⟨he, ?_⟩
      rintro o'' h
      cases h
      refine ⟨⟨he, Or.inl rfl, Or.inl rfl⟩, m'.r.nLib, ?_⟩
      rintro r' h'
      cases h'
      rfl
  have key := andThen_step (setT_step m o a.t) (f := fun m o =>
      match a.eps, a.beta with
      | some v, _ => andThen (setEps m o v) fun m o => match a.nuVac with
        | none => (m, .ok { o with nuVac := none })
        | some r => ({ m with r := (m.r.new (m.r.read r)).1 }, .ok { o with nuVac := some (m.r.new (m.r.read r)).2 })
      | none, some v => andThen (setBeta m o v) fun m o => match a.nuVac with
        | none => (m, .ok { o with nuVac := none })
        | some r => ({ m with r := (m.r.new (m.r.read r)).1 }, .ok { o with nuVac := some (m.r.new (m.r.read r)).2 })
      | none, none => match a.nuVac with
        | none => (m, .ok { o with nuVac := none })
        | some r => ({ m with r := (m.r.new (m.r.read r)).1 }, .ok { o with nuVac := some (m.r.new (m.r.read r)).2 })) (by
    split
    · exact andThen_step (setEpsVal_step _ _ _) (finish _ _)
    · exact andThen_step (setBeta_step _ _ _) (finish _ _)
    · exact finish _ _)
  exact ⟨key.1, fun o' ho' => ⟨⟨(key.2 o' ho').1.t, (key.2 o' ho').1.eps⟩, (key.2 o' ho').2⟩⟩

end SampleRef

/-! ## Separation -/

/-- A family of arrays, the `p`-th layer of the `j`-th sample: made by snompy, and no two share a block. -/
structure Sep (n : ℕ) (f : ℕ → Option (List Ref)) : Prop where
  own : ∀ j l, f j = some l → ∀ r ∈ l, r.pos = id ∧ ∃ k, r.addr = .lib k ∧ k < n
  apart : ∀ j j' l l', f j = some l → f j' = some l' → ∀ (p p' : ℕ) (r r' : Ref), l[p]? = some r → l'[p']? = some r' →
    r.addr = r'.addr → j = j' ∧ p = p'

theorem Sep.mono {n n' : ℕ} {f : ℕ → Option (List Ref)} (h : Sep n f) (hn : n ≤ n') : Sep n' f :=
  ⟨fun j l hj r hr => by
    obtain ⟨h1, k, h2, h3⟩ := h.own j l hj r hr
    exact ⟨h1, k, h2, h3.trans_le hn⟩, h.apart⟩

/-- One sample gets new arrays. -/
theorem Sep.step {n n' : ℕ} {f f' : ℕ → Option (List Ref)} (h : Sep n f) (hn : n ≤ n') (j₀ : ℕ)
    (hne : ∀ j, j ≠ j₀ → f' j = f j) (hj : SampleRef.Fresh (f j₀) (f' j₀) n n') : Sep n' f' := by
  rcases hj with hj | ⟨l₀, hl₀, h1, h2⟩
  · have : f' = f := by
      funext j
      by_cases hjj : j = j₀
      · rw [hjj, hj]
      · exact hne j hjj
    rw [this]
    exact h.mono hn
  refine ⟨fun j l hl r hr => ?_, ?_⟩
  · by_cases hjj : j = j₀
    · rw [hjj, hl₀] at hl
      cases hl
      obtain ⟨h3, k, h4, -, h5⟩ := h1 r hr
      exact ⟨h3, k, h4, h5⟩
    · rw [hne j hjj] at hl
      exact (h.mono hn).own j l hl r hr
  · intro j j' l l' hl hl' p p' r r' hr hr' ha
    have hm : r ∈ l := List.mem_of_getElem? hr
    have hm' : r' ∈ l' := List.mem_of_getElem? hr'
    by_cases hjj : j = j₀ <;> by_cases hjj' : j' = j₀
    · rw [hjj, hl₀] at hl
      rw [hjj', hl₀] at hl'
      cases hl
      cases hl'
      refine ⟨hjj.trans hjj'.symm, ?_⟩
      have e1 : (l₀.map Ref.addr)[p]? = some r.addr := by rw [List.getElem?_map, hr]; rfl
      have e2 : (l₀.map Ref.addr)[p']? = some r.addr := by rw [List.getElem?_map, hr', ha]; rfl
      have hp : p < (l₀.map Ref.addr).length := (List.getElem?_eq_some_iff.1 e1).1
      exact (List.getElem?_inj hp h2).1 (e1.trans e2.symm)
    · rw [hjj, hl₀] at hl
      cases hl
      rw [hne j' hjj'] at hl'
      obtain ⟨-, k, h4, h5, -⟩ := h1 r hm
      obtain ⟨-, k', h6, h7⟩ := h.own j' l' hl' r' hm'
      rw [h4, h6] at ha
      cases ha
      omega
    · rw [hjj', hl₀] at hl'
      cases hl'
      rw [hne j hjj] at hl
      obtain ⟨-, k, h4, h5, -⟩ := h1 r' hm'
      obtain ⟨-, k', h6, h7⟩ := h.own j l hl r hm
      rw [h4, h6] at ha
      cases ha
      omega
    · rw [hne j hjj] at hl
      rw [hne j' hjj'] at hl'
      exact h.apart j j' l l' hl hl' p p' r r' hr hr' ha

namespace World

/-- The layers of all samples. -/
def epsOf (w : World) (j : ℕ) : Option (List Ref) := (w.objs[j]?).bind (·.eps)
def tOf (w : World) (j : ℕ) : Option (List Ref) := (w.objs[j]?).bind (·.t)

/-- No two layers share memory, in one sample or in two. -/
structure Apart (w : World) : Prop where
  eps : Sep w.mem.c.nLib w.epsOf
  t : Sep w.mem.r.nLib w.tOf

theorem apart_start (r c) : (World.start r c).Apart := by
  constructor <;> refine ⟨fun j l h => ?_, fun j j' l l' h => ?_⟩ <;> simp [epsOf, tOf, World.start] at h

theorem apart_run {w : World} (h : w.Apart) (a : Act) : (a.run w).Apart := by
  cases a with
  | newR A => exact ⟨h.eps, h.t⟩
  | newC A => exact ⟨h.eps, h.t⟩
  | writeR a i x => exact ⟨h.eps, h.t⟩
  | writeC a i x => exact ⟨h.eps, h.t⟩
  | sample d a =>
    obtain ⟨h1, h2⟩ := SampleRef.init_step d w.mem a
    simp only [Act.run]
    generalize SampleRef.init d w.mem a = x at h1 h2
    obtain ⟨m, e | o⟩ := x
    · exact ⟨h.eps.mono h1.c.nLib, h.t.mono h1.r.nLib⟩
    · obtain ⟨⟨h3, h4⟩, -⟩ := h2 o rfl
      have hnone : w.objs[w.objs.length]? = none := List.getElem?_eq_none le_rfl
      have hlast : (w.objs ++ [o])[w.objs.length]? = some o := by simp
      have hne : ∀ j, j ≠ w.objs.length → (w.objs ++ [o])[j]? = w.objs[j]? := by
        intro j hj
        rcases lt_or_gt_of_ne hj with hj | hj
        · rw [List.getElem?_append_left hj]
        · rw [List.getElem?_eq_none (by simp; omega), List.getElem?_eq_none hj.le]
      refine ⟨h.eps.step h1.c.nLib w.objs.length (fun j hj => ?_) ?_, h.t.step h1.r.nLib w.objs.length (fun j hj => ?_) ?_⟩
      · simp only [epsOf, hne j hj]
      · simp only [epsOf, hlast, hnone]
        exact h4
      · simp only [tOf, hne j hj]
      · simp only [tOf, hlast, hnone]
        exact h3
  | assign j op =>
    simp only [Act.run]
    cases ho : w.objs[j]? with
    | none => exact h
    | some o =>
      have hs := SampleRef.run_step w.mem o op
      simp only
      have hj : j < w.objs.length := (List.getElem?_eq_some_iff.1 ho).1
      refine ⟨h.eps.step hs.ext.c.nLib j (fun j' hj' => ?_) ?_, h.t.step hs.ext.r.nLib j (fun j' hj' => ?_) ?_⟩
      · simp only [epsOf, List.getElem?_set_ne (Ne.symm hj')]
      · simp only [epsOf, List.getElem?_set_self hj, ho]
        exact hs.eps
      · simp only [tOf, List.getElem?_set_ne (Ne.symm hj')]
      · simp only [tOf, List.getElem?_set_self hj, ho]
        exact hs.t

theorem apart_runAll {w : World} (h : w.Apart) (l : List Act) : (w.runAll l).Apart := by
  induction l generalizing w with
  | nil => exact h
  | cons a l ih => exact ih (apart_run h a)

end World

end Snompy
