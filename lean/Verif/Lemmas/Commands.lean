import Verif.Spec.Commands

/-!
# Running the commands of `setup.py`
-/

namespace Snompy.Version

theorem CM.bind_ok {α β : Type} {x : CM α} {f : α → CM β} {d d' : Disk} {a : α} (h : x d = (d', .ok a)) :
    (x >>= f) d = f a d' := by
  change (match x d with
    | (d, .ok a) => f a d
    | (d, .error e) => (d, .error e)) = _
  rw [h]

theorem CM.bind_error {α β : Type} {x : CM α} {f : α → CM β} {d d' : Disk} {e : CErr} (h : x d = (d', .error e)) :
    (x >>= f) d = (d', .error e) := by
  change (match x d with
    | (d, .ok a) => f a d
    | (d, .error e) => (d, .error e)) = _
  rw [h]

theorem CM.pure_eq {α : Type} (a : α) (d : Disk) : (pure a : CM α) d = (d, .ok a) := rfl

variable {b : Builder} {d : Disk} {root src pre : Str} {cfg : SetupCfg} {versions : PyDict}

theorem Project.root_run (h : Project b d root src pre cfg versions) : b.root d = (d, .ok root) := by
  simp only [Builder.root, CM.ask, h.root_eq]

theorem Project.config_run (h : Project b d root src pre cfg versions) : b.config root d = (d, .ok cfg) := by
  simp only [Builder.config, CM.ask, h.cfg_eq]

theorem Project.versions_run (h : Project b d root src pre cfg versions) : b.versions d = (d, .ok versions) := by
  unfold Builder.versions
  rw [CM.bind_ok h.root_run, CM.bind_ok h.config_run, if_neg (not_not.2 h.vcs), h.source, h.prefix_eq]
  simp only [CM.ask, h.versions_eq]
  rfl

theorem unlink_run {p : Str} (hs : (d.read p).isSome) (hr : b.removable p = true) :
    b.unlink p d = ({ d with inode := Function.update d.inode p none }, .ok ()) := by
  unfold Builder.unlink
  rw [if_pos ⟨by simpa [Disk.read] using hs, hr⟩]

theorem sound_unlink (hd : d.Sound) (p : Str) : ({ d with inode := Function.update d.inode p none } : Disk).Sound := by
  intro q i hq
  rcases eq_or_ne q p with rfl | hne
  · simp at hq
  · exact hd q i (by simpa [Function.update_of_ne hne] using hq)

theorem read_unlink (p q : Str) : ({ d with inode := Function.update d.inode p none } : Disk).read q =
    if q = p then none else d.read q := by
  unfold Disk.read
  rcases eq_or_ne q p with rfl | hne
  · simp
  · simp [hne]

/-- Writing a new file. -/
theorem put_new (hd : d.Sound) {p text : Str} (hp : d.read p = none) (hw : b.writable p = true) :
    ∃ d', b.put p text d = (d', .ok ()) ∧ d'.read p = some text ∧ SameBut p d d' ∧ d'.Sound := by
  have hi : d.inode p = none := by simpa [Disk.read] using hp
  refine ⟨⟨Function.update d.inode p (some d.next), Function.update d.data d.next text, d.next + 1⟩, ?_, ?_, ?_, ?_⟩
  · simp only [Builder.put, hw, if_true, hi]
  · simp [Disk.read]
  · intro q hq
    unfold Disk.read
    simp only [Function.update_of_ne hq]
    cases h : d.inode q with
    | none => rfl
    | some i => simp [Function.update_of_ne (hd q i h).ne]
  · intro q i hq
    rcases eq_or_ne q p with rfl | hne
    · simp only [Function.update_self, Option.some.injEq] at hq
      exact hq ▸ Nat.lt_succ_self _
    · simp only [Function.update_of_ne hne] at hq
      exact (hd q i hq).trans (Nat.lt_succ_self _)

/-- Replacing a file. -/
theorem replace_run (hd : d.Sound) {p text : Str} (h : Replaceable b d p) :
    ∃ d₁ d', b.unlink p d = (d₁, .ok ()) ∧ b.put p text d₁ = (d', .ok ()) ∧ d'.read p = some text ∧ SameBut p d d' ∧
      d'.Sound := by
  obtain ⟨h1, h2, h3⟩ := h
  obtain ⟨d', e1, e2, e3, e4⟩ := put_new (b := b) (text := text) (sound_unlink hd p) (p := p) (by rw [read_unlink, if_pos rfl]) h3
  refine ⟨_, d', unlink_run h1 h2, e1, e2, fun q hq => ?_, e4⟩
  rw [e3 q hq, read_unlink, if_neg hq]

theorem writeTo_run (hd : d.Sound) {p : Str} (h : Replaceable b d (b.path p)) (hv : (versions.lookup "version".toList).isSome) :
    ∃ d', b.writeTo p versions d = (d', .ok ()) ∧ d'.read (b.path p) = some (writeVersionFile b.sys.win32 versions) ∧
      SameBut (b.path p) d d' ∧ d'.Sound := by
  obtain ⟨d₁, d', e1, e2, e3, e4, e5⟩ := replace_run (text := writeVersionFile b.sys.win32 versions) hd h
  refine ⟨d', ?_, e3, e4, e5⟩
  obtain ⟨v, hv⟩ := Option.isSome_iff_exists.1 hv
  unfold Builder.writeTo
  rw [CM.bind_ok e1, CM.bind_ok e2, hv]
  rfl

/-- Writing again to a file that has one name. -/
theorem put_over {p t₁ t₂ : Str} (hd : d.Sound) (hp : d.read p = none) (hw : b.writable p = true) :
    ∃ d₁ d', b.put p t₁ d = (d₁, .ok ()) ∧ b.put p t₂ d₁ = (d', .ok ()) ∧ d'.read p = some t₂ ∧ SameBut p d d' ∧ d'.Sound := by
  have hi : d.inode p = none := by simpa [Disk.read] using hp
  refine ⟨⟨Function.update d.inode p (some d.next), Function.update d.data d.next t₁, d.next + 1⟩,
    ⟨Function.update d.inode p (some d.next), Function.update d.data d.next t₂, d.next + 1⟩, ?_, ?_, ?_, ?_, ?_⟩
  · simp only [Builder.put, hw, if_true, hi]
  · simp only [Builder.put, hw, if_true, Function.update_self, Function.update_idem]
  · simp [Disk.read]
  · intro q hq
    unfold Disk.read
    simp only [Function.update_of_ne hq]
    cases h : d.inode q with
    | none => rfl
    | some i => simp [Function.update_of_ne (hd q i h).ne]
  · intro q i hq
    rcases eq_or_ne q p with rfl | hne
    · simp only [Function.update_self, Option.some.injEq] at hq
      exact hq ▸ Nat.lt_succ_self _
    · simp only [Function.update_of_ne hne] at hq
      exact (hd q i hq).trans (Nat.lt_succ_self _)

/-! ## Dictionaries -/

theorem lookup_dictSet {α : Type} (l : List (Str × α)) (k k' : Str) (v : α) :
    (dictSet l k v).lookup k' = if k' = k then some v else l.lookup k' := by
  unfold dictSet
  split
  · rename_i h
    induction l with
    | nil => simp at h
    | cons a l ih =>
      rw [List.map_cons, List.lookup_cons, List.lookup_cons]
      by_cases ha : a.1 = k
      · by_cases hk : k' = k
        · subst hk; simp [ha]
        · have : ¬ k' = a.1 := ha ▸ hk
          simp only [if_pos ha, beq_eq_false_iff_ne.2 hk, beq_eq_false_iff_ne.2 this, if_neg hk]
          by_cases hl : k ∈ l.map Prod.fst
          · rw [ih hl, if_neg hk]
          · congr 1
            conv_rhs => rw [← List.map_id l]
            refine List.map_congr_left fun x hx => ?_
            rw [if_neg (fun e => hl (List.mem_map.2 ⟨x, hx, e⟩))]
            rfl
      · have hl : k ∈ l.map Prod.fst := by
          simpa [Ne.symm ha] using h
        rw [if_neg ha, ih hl]
        by_cases hk : k' = a.1
        · subst hk; simp [ha]
        · simp [beq_eq_false_iff_ne.2 hk]
  · rename_i h
    rw [List.lookup_append]
    by_cases hk : k' = k
    · subst hk
      rw [if_pos rfl, List.lookup_eq_none_iff.2]
      · simp
      · intro x hx
        simpa using fun e => h (List.mem_map.2 ⟨x, hx, e.symm⟩)
    · rw [if_neg hk, List.lookup_cons, beq_eq_false_iff_ne.2 hk]
      simp

theorem lookup_dictDel {α : Type} (l : List (Str × α)) (k k' : Str) :
    (dictDel l k).lookup k' = if k' = k then none else l.lookup k' := by
  unfold dictDel
  induction l with
  | nil => simp
  | cons a l ih =>
    rw [List.filter_cons]
    by_cases ha : a.1 = k
    · simp only [ha, ne_eq, not_true_eq_false, decide_false, Bool.false_eq_true, if_false]
      simp only [ne_eq] at ih
      rw [ih, List.lookup_cons]
      by_cases hk : k' = k
      · simp [hk]
      · simp [hk, ha, beq_eq_false_iff_ne.2 hk]
    · simp only [ne_eq, ha, not_false_eq_true, decide_true, if_true]
      simp only [ne_eq] at ih
      rw [List.lookup_cons, List.lookup_cons, ih]
      by_cases hk : k' = a.1
      · subst hk; simp [ha]
      · simp [beq_eq_false_iff_ne.2 hk]

theorem lookup_user {K : Type} (l : List (Str × K)) (k : Str) :
    (l.map fun kv => (kv.1, Klass.user kv.2)).lookup k = (l.lookup k).map Klass.user := by
  induction l with
  | nil => rfl
  | cons a l ih =>
    rw [List.map_cons, List.lookup_cons, List.lookup_cons, ih]
    cases k == a.1 <;> rfl

end Snompy.Version
