import Verif.Lemmas.Versioneer

/-! # The generated version file: its lines, and its import -/

namespace Snompy.Version

/-! ## No keywords -/

/-- The first character that is not whitespace is not `g`. -/
def NotG (l : Str) : Prop := (l.dropWhile isSpace).head? ≠ some 'g'

instance (l : Str) : Decidable (NotG l) := inferInstanceAs (Decidable (_ ≠ _))

theorem strip_prefix (l : Str) : strip l <+: l.dropWhile isSpace := by
  have h : ((l.dropWhile isSpace).reverse.dropWhile isSpace) <:+ (l.dropWhile isSpace).reverse := List.dropWhile_suffix _
  have := List.reverse_prefix.2 h
  rwa [List.reverse_reverse] at this

theorem startsWith_notG (l p : Str) (h : NotG l) : startsWith (strip l) ('g' :: p) = false := by
  rw [← Bool.not_eq_true, startsWith_iff]
  rintro ⟨t, ht⟩
  obtain ⟨u, hu⟩ := strip_prefix l
  rw [← ht] at hu
  apply h
  rw [← hu]
  rfl

theorem keywordStep_notG (kw : Keywords) (l : Str) (h : NotG l) : keywordStep kw l = kw := by
  have h1 : startsWith (strip l) "git_refnames =".toList = false := startsWith_notG l _ h
  have h2 : startsWith (strip l) "git_full =".toList = false := startsWith_notG l _ h
  have h3 : startsWith (strip l) "git_date =".toList = false := startsWith_notG l _ h
  simp only [keywordStep, h1, h2, h3]
  rfl

theorem getKeywords_notG (ls : List Str) (h : ∀ l ∈ ls, NotG l) : getKeywords (some ls) = ⟨none, none, none⟩ := by
  unfold getKeywords
  rw [Option.getD_some]
  generalize (⟨none, none, none⟩ : Keywords) = kw
  induction ls with
  | nil => rfl
  | cons l ls ih =>
    rw [List.foldl_cons, keywordStep_notG kw l (h l (by simp))]
    exact ih fun l hl => h l (by simp [hl])

theorem linesOf_line (acc x t : Str) (h : '\n' ∉ x) :
    linesOf acc (x ++ '\n' :: t) = (acc.reverse ++ x ++ ['\n']) :: linesOf [] t := by
  induction x generalizing acc with
  | nil => simp [linesOf]
  | cons c x ih =>
    have hc : c ≠ '\n' := fun e => h (by simp [e])
    rw [List.cons_append, linesOf, if_neg hc, ih _ fun hm => h (by simp [hm])]
    simp

/-- A text whose lines all begin well. -/
def LinesNotG (s : Str) : Prop := ∀ l ∈ linesOf [] s, NotG l

theorem LinesNotG.line {x t : Str} (hx : '\n' ∉ x) (hg : NotG (x ++ ['\n'])) (ht : LinesNotG t) :
    LinesNotG (x ++ '\n' :: t) := by
  intro l hl
  rw [linesOf_line [] x t hx] at hl
  rcases List.mem_cons.1 hl with rfl | hl
  · simpa using hg
  · exact ht l hl

/-- A text that is made of whole lines. -/
def Block (s : Str) : Prop := ∀ t, LinesNotG t → LinesNotG (s ++ t)

theorem Block.line {x : Str} (hx : '\n' ∉ x) (hg : NotG (x ++ ['\n'])) : Block (x ++ ['\n']) := by
  intro t ht
  rw [List.append_assoc]
  exact LinesNotG.line hx hg ht

theorem Block.append {a b : Str} (ha : Block a) (hb : Block b) : Block (a ++ b) := by
  intro t ht
  rw [List.append_assoc]
  exact ha _ (hb t ht)

theorem printable_no_newline {s : Str} (h : ∀ c ∈ s, Printable c) : '\n' ∉ s := fun hm => by
  have := h _ hm
  revert this
  decide

theorem member_notG (kv : Str × JVal) (t : Str) : NotG (jsonMember kv ++ t) := by
  have h : jsonMember kv ++ t = ' ' :: '"' :: (kv.1.flatMap jsonChar ++ ['"'] ++ ": ".toList ++ jsonVal kv.2 ++ t) := by
    simp [jsonMember, jsonStr]
  unfold NotG
  rw [h, List.dropWhile_cons_of_pos (by decide), List.dropWhile_cons_of_neg (by decide)]
  simp

theorem members_block (l : PyDict) (hl : l ≠ []) : Block (jsonMembers l ++ ['\n']) := by
  induction l with
  | nil => exact absurd rfl hl
  | cons kv rest ih =>
    have hp := printable_no_newline (jsonMember_printable kv)
    cases rest with
    | nil => exact Block.line hp (member_notG kv _)
    | cons kv' rest =>
      have e : jsonMembers (kv :: kv' :: rest) ++ ['\n'] =
          ((jsonMember kv ++ [',']) ++ ['\n']) ++ (jsonMembers (kv' :: rest) ++ ['\n']) := by
        rw [jsonMembers]
        · simp
        · simp
      rw [e]
      refine Block.append (Block.line ?_ ?_) (ih (by simp))
      · simpa using hp
      · rw [List.append_assoc]
        exact member_notG kv _

theorem dumps_block (d : PyDict) : Block (jsonDumps d ++ ['\n']) := by
  have hopen : Block (['{'] ++ ['\n']) := Block.line (by decide) (by decide)
  have hclose : Block (['}'] ++ ['\n']) := Block.line (by decide) (by decide)
  rw [jsonDumps]
  split
  · exact Block.line (x := "{}".toList) (by decide) (by decide)
  · rename_i h
    have hne : sortKeys d ≠ [] := fun e => by
      have := (sortKeys_perm d).length_eq
      rw [e] at this
      exact h (List.isEmpty_iff.2 (List.length_eq_zero_iff.1 this.symm))
    have := (hopen.append (members_block (sortKeys d) hne)).append hclose
    have e : "{\n".toList ++ jsonMembers (sortKeys d) ++ "\n}".toList ++ ['\n'] =
        ['{'] ++ ['\n'] ++ (jsonMembers (sortKeys d) ++ ['\n']) ++ (['}'] ++ ['\n']) := by
      simp
    rw [e]
    exact this

theorem head_block : Block shortHead := by
  have e : shortHead = (([] : Str) ++ ['\n']) ++ ("# This file was generated by 'versioneer.py' (0.22) from".toList ++ ['\n']) ++
      ("# revision-control system data, or from the parent directory name of an".toList ++ ['\n']) ++
      ("# unpacked source archive. Distribution tarballs contain a pre-generated copy".toList ++ ['\n']) ++
      ("# of this file.".toList ++ ['\n']) ++ (([] : Str) ++ ['\n']) ++ ("import json".toList ++ ['\n']) ++
      (([] : Str) ++ ['\n']) ++ ("version_json = '''".toList ++ ['\n']) := by decide +kernel
  rw [e]
  have h : ∀ x : Str, '\n' ∉ x → NotG (x ++ ['\n']) → Block (x ++ ['\n']) := fun x h1 h2 => Block.line h1 h2
  exact ((((((((h _ (by decide) (by decide)).append (h _ (by decide) (by decide))).append (h _ (by decide) (by decide))).append
    (h _ (by decide) (by decide))).append (h _ (by decide) (by decide))).append (h _ (by decide) (by decide))).append
    (h _ (by decide) (by decide))).append (h _ (by decide) (by decide))).append (h _ (by decide) (by decide))

/-- No line of the generated file looks like a keyword. -/
theorem short_keywords (win : Bool) (d : PyDict) :
    getKeywords ((some (writeVersionFile win d)).map fun t => linesOf [] (readText t)) = ⟨none, none, none⟩ := by
  rw [Option.map_some, readText_file]
  apply getKeywords_notG
  have h := (head_block.append (dumps_block d)) shortTail (by unfold LinesNotG; decide +kernel)
  rw [shortVersionPy, List.append_assoc shortHead]
  exact h

/-! ## The string literal -/

/-- Every backslash has a `u` behind it. -/
def BackU : Str → Prop
  | [] => True
  | c :: t => (c = '\\' → ∃ u, t = 'u' :: u) ∧ BackU t

theorem BackU.append {a b : Str} (ha : BackU a) (hb : BackU b) : BackU (a ++ b) := by
  induction a with
  | nil => exact hb
  | cons c t ih =>
    refine ⟨fun hc => ?_, ih ha.2⟩
    obtain ⟨u, rfl⟩ := ha.1 hc
    exact ⟨u ++ b, rfl⟩

theorem BackU.of_not_mem {a : Str} (h : '\\' ∉ a) : BackU a := by
  induction a with
  | nil => trivial
  | cons c t ih => exact ⟨fun hc => absurd hc.symm fun e => h (by simp [← e]), ih fun hm => h (by simp [hm])⟩

/-- At most two apostrophes in a row, with `k` of them before the text. -/
def Runs : ℕ → Str → Prop
  | _, [] => True
  | k, c :: t => if c = '\'' then k + 1 < 3 ∧ Runs (k + 1) t else Runs 0 t

theorem Runs.mono {k m : ℕ} {s : Str} (h : Runs k s) (hm : m ≤ k) : Runs m s := by
  induction s generalizing k m with
  | nil => trivial
  | cons c t ih =>
    unfold Runs at h ⊢
    split
    · rename_i hc
      rw [if_pos hc] at h
      exact ⟨by omega, ih h.2 (by omega)⟩
    · rename_i hc
      rwa [if_neg hc] at h

theorem Runs.append {k : ℕ} {a b : Str} {x : Char} (hx : x ≠ '\'') (ha : Runs k a) (hb : Runs 0 b) : Runs k (a ++ x :: b) := by
  induction a generalizing k with
  | nil => simpa [Runs, hx] using hb
  | cons c t ih =>
    rw [List.cons_append]
    unfold Runs at ha ⊢
    split
    · rename_i hc
      rw [if_pos hc] at ha
      exact ⟨ha.1, ih ha.2⟩
    · rename_i hc
      rw [if_neg hc] at ha
      exact ih ha

theorem Runs.of_not_mem {k : ℕ} {a : Str} (h : '\'' ∉ a) : Runs k a := by
  induction a generalizing k with
  | nil => trivial
  | cons c t ih =>
    unfold Runs
    rw [if_neg fun e => h (by simp [e])]
    exact ih fun hm => h (by simp [hm])

theorem runs_of_infix {k : ℕ} (hk : k < 3) {s : Str} (h : ¬ "'''".toList <:+: List.replicate k '\'' ++ s) : Runs k s := by
  induction s generalizing k with
  | nil => trivial
  | cons c t ih =>
    unfold Runs
    split
    · rename_i hc
      subst hc
      have e : List.replicate k '\'' ++ '\'' :: t = List.replicate (k + 1) '\'' ++ t := by
        rw [List.replicate_succ']; simp
      rw [e] at h
      have hk' : k + 1 < 3 := by
        by_contra hcon
        have : k = 2 := by omega
        subst this
        exact h (List.prefix_append _ _).isInfix
      exact ⟨hk', ih hk' h⟩
    · apply ih (by omega)
      intro hi
      apply h
      have : t <:+: List.replicate k '\'' ++ c :: t := ((List.suffix_cons c t).trans (List.suffix_append _ _)).isInfix
      exact (by simpa using hi : "'''".toList <:+: t).trans this

/-- The literal ends where the template ends it. -/
theorem tripleBody_end (t rest : Str) (h1 : BackU t) (h2 : Runs 0 t) (h3 : t.getLast? ≠ some '\'') :
    tripleBody (t ++ '\'' :: '\'' :: '\'' :: rest) = some (t, rest) := by
  induction hn : t.length using Nat.strong_induction_on generalizing t with
  | _ n ih =>
    cases t with
    | nil => rfl
    | cons c t =>
      have hlast : t ≠ [] → t.getLast? ≠ some '\'' := by
        intro hne
        obtain ⟨x, xs, rfl⟩ := List.exists_cons_of_ne_nil hne
        rwa [List.getLast?_cons_cons] at h3
      have hlast' : t.getLast? ≠ some '\'' := by
        cases t with
        | nil => simp
        | cons x xs => exact hlast (by simp)
      by_cases hb : c = '\\'
      · subst hb
        obtain ⟨u, rfl⟩ := h1.1 rfl
        have hr : Runs 0 u := by
          simpa [Runs] using h2
        have hl : u.getLast? ≠ some '\'' := by
          cases u with
          | nil => simp
          | cons x xs => rwa [List.getLast?_cons_cons] at hlast'
        have := ih u.length (by rw [← hn]; simp) u h1.2.2 hr hl rfl
        simp only [List.cons_append]
        rw [tripleBody, this]
        rfl
      · have hr : Runs 0 t := by
          unfold Runs at h2
          split at h2
          · exact h2.2.mono (by omega)
          · exact h2
        have := ih t.length (by rw [← hn]; simp) t h1.2 hr hlast' rfl
        rw [List.cons_append, tripleBody.eq_def]
        split
        · rename_i heq
          exfalso
          simp only [List.cons.injEq] at heq
          obtain ⟨rfl, heq⟩ := heq
          cases t with
          | nil => simp at h3
          | cons x xs =>
            simp only [List.cons_append, List.cons.injEq] at heq
            obtain ⟨rfl, heq⟩ := heq
            cases xs with
            | nil => simp at h3
            | cons y ys =>
              simp only [List.cons_append, List.cons.injEq] at heq
              obtain ⟨rfl, heq⟩ := heq
              simp [Runs] at h2
        · rename_i heq
          simp only [List.cons.injEq] at heq
          exact absurd heq.1 hb
        · rename_i heq
          simp only [List.cons.injEq] at heq
          obtain ⟨rfl, rfl⟩ := heq
          rw [this]
          rfl
        · rename_i heq
          simp at heq

/-- A part of a literal and the string it stands for. -/
def Un (a a' : Str) : Prop :=
  ∀ t r, (∀ n, t.length ≤ n → unescape n t = some r) → ∀ n, (a ++ t).length ≤ n → unescape n (a ++ t) = some (a' ++ r)

theorem Un.append {a a' b b' : Str} (ha : Un a a') (hb : Un b b') : Un (a ++ b) (a' ++ b') := by
  intro t r h n hn
  rw [List.append_assoc] at hn ⊢
  rw [List.append_assoc]
  exact ha (b ++ t) (b' ++ r) (hb t r h) n hn

theorem Un.nil : Un [] [] := fun _ _ h n hn => h n hn

theorem Un.char (c : Char) (hc : c ≠ '\\') : Un [c] [c] := by
  intro t r h n hn
  obtain ⟨n, rfl⟩ : ∃ k, n = k + 1 := ⟨n - 1, by simp at hn; omega⟩
  simp only [List.cons_append, List.nil_append]
  rw [unescape, h n (by simp at hn; omega)]
  · rfl
  · intro t' e1; exact absurd e1 hc
  · intro e1; exact absurd e1 hc

theorem Un.plain (s : Str) (h : '\\' ∉ s) : Un s s := by
  induction s with
  | nil => exact Un.nil
  | cons c t ih =>
    exact (Un.char c fun e => h (by simp [e])).append (ih fun hm => h (by simp [hm]))

theorem Un.u (m : ℕ) (h : m < 0xd800 ∨ (0xdfff < m ∧ m < 65536)) : Un (uEscape m) [Char.ofNat m] := by
  intro t r ht n hn
  obtain ⟨n, rfl⟩ : ∃ k, n = k + 1 := ⟨n - 1, by simp [uEscape] at hn; omega⟩
  have hn' : t.length ≤ n := by simp [uEscape] at hn; omega
  simp only [uEscape, List.cons_append, List.nil_append]
  rw [unescape]
  · rw [pyEscape, hexVal4_digits m (by omega)]
    dsimp only
    rw [if_neg (by omega)]
    dsimp only
    rw [ht n hn']
    rfl
  · intro t' e1
    simp at e1

theorem Un.run {a a' : Str} (h : Un a a') : unescape a.length a = some a' := by
  have := h [] [] (fun n _ => by cases n <;> rfl) a.length (by simp)
  simpa using this

/-! ## Strings that survive -/

/-- A character that a string literal leaves as it is: no quote, backslash or control character, and not outside the basic
multilingual plane. -/
def SafeChar (c : Char) : Prop := c ≠ '"' ∧ c ≠ '\\' ∧ 32 ≤ c.toNat ∧ c.toNat < 0x10000

instance (c : Char) : Decidable (SafeChar c) := inferInstanceAs (Decidable (_ ∧ _ ∧ _ ∧ _))

theorem jsonChar_safe (c : Char) (h : SafeChar c) :
    (Printable c ∧ jsonChar c = [c]) ∨ ((c.toNat < 0xd800 ∨ (0xdfff < c.toNat ∧ c.toNat < 65536)) ∧ jsonChar c = uEscape c.toNat ∧
      126 < c.toNat) := by
  obtain ⟨h1, h2, h3, h4⟩ := h
  have hr := char_range c
  have a1 : c ≠ '\n' := by rintro rfl; revert h3; decide
  have a2 : c ≠ '\r' := by rintro rfl; revert h3; decide
  have a3 : c ≠ '\t' := by rintro rfl; revert h3; decide
  unfold jsonChar Printable
  dsimp only
  rw [if_neg h1, if_neg h2, if_neg a1, if_neg a2, if_neg a3, if_neg (by omega), if_neg (by omega)]
  by_cases h5 : c.toNat ≤ 126
  · left
    exact ⟨⟨h3, h5⟩, by rw [if_pos ⟨h3, h5⟩]⟩
  · right
    rw [if_neg (by omega), if_pos h4]
    exact ⟨by omega, rfl, by omega⟩

theorem uEscape_no_quote (n : ℕ) : '\'' ∉ uEscape n := by
  have h : ∀ k, k < 16 → hexDigit k ≠ '\'' := by decide
  simp only [uEscape, List.mem_cons, List.not_mem_nil, or_false, not_or]
  refine ⟨by decide, by decide, ?_, ?_, ?_, ?_⟩
  all_goals exact (h _ (by omega)).symm

theorem uEscape_backU (n : ℕ) : BackU (uEscape n) := by
  have h : ∀ k, k < 16 → hexDigit k ≠ '\\' := by decide
  refine ⟨fun _ => ⟨_, rfl⟩, BackU.of_not_mem ?_⟩
  simp only [List.mem_cons, List.not_mem_nil, or_false, not_or]
  refine ⟨by decide, ?_, ?_, ?_, ?_⟩
  all_goals exact (h _ (by omega)).symm

/-- A string of safe characters in the file. -/
structure Safe (s : Str) : Prop where
  chars : ∀ c ∈ s, SafeChar c
  runs : Runs 0 s

theorem flatMap_backU (s : Str) (h : ∀ c ∈ s, SafeChar c) : BackU (s.flatMap jsonChar) := by
  induction s with
  | nil => trivial
  | cons c t ih =>
    rw [List.flatMap_cons]
    refine BackU.append ?_ (ih fun c hc => h c (by simp [hc]))
    have hc := h c (by simp)
    rcases jsonChar_safe c hc with ⟨-, e⟩ | ⟨-, e, -⟩
    · rw [e]
      exact BackU.of_not_mem (by simpa using Ne.symm hc.2.1)
    · rw [e]
      exact uEscape_backU _

theorem flatMap_runs (s : Str) (h : ∀ c ∈ s, SafeChar c) (k : ℕ) (hs : Runs k s) : Runs k (s.flatMap jsonChar) := by
  induction s generalizing k with
  | nil => trivial
  | cons c t ih =>
    have ht := fun k => ih (fun c hc => h c (by simp [hc])) k
    rw [List.flatMap_cons]
    rcases jsonChar_safe c (h c (by simp)) with ⟨-, e⟩ | ⟨-, e, h126⟩
    · rw [e, List.cons_append, List.nil_append]
      unfold Runs at hs ⊢
      split
      · rename_i hc
        rw [if_pos hc] at hs
        exact ⟨hs.1, ht _ hs.2⟩
      · rename_i hc
        rw [if_neg hc] at hs
        exact ht _ hs
    · have hc : c ≠ '\'' := by rintro rfl; revert h126; decide
      unfold Runs at hs
      rw [if_neg hc] at hs
      have hq := uEscape_no_quote c.toNat
      have hx : hexDigit (c.toNat % 16) ≠ '\'' := fun e => hq (by rw [← e]; simp [uEscape])
      rw [e]
      have e2 : uEscape c.toNat ++ t.flatMap jsonChar = (uEscape c.toNat).take 5 ++ hexDigit (c.toNat % 16) :: t.flatMap jsonChar := by
        simp [uEscape]
      rw [e2]
      exact Runs.append hx (Runs.of_not_mem fun hm => hq (List.mem_of_mem_take hm)) (ht _ hs)

theorem flatMap_un (s : Str) (h : ∀ c ∈ s, SafeChar c) : Un (s.flatMap jsonChar) (s.flatMap fun c => [c]) := by
  induction s with
  | nil => exact Un.nil
  | cons c t ih =>
    rw [List.flatMap_cons, List.flatMap_cons]
    refine Un.append ?_ (ih fun c hc => h c (by simp [hc]))
    rcases jsonChar_safe c (h c (by simp)) with ⟨-, e⟩ | ⟨hr, e, -⟩
    · rw [e]
      exact Un.char c (h c (by simp)).2.1
    · rw [e]
      have := Un.u c.toNat hr
      rwa [Char.ofNat_toNat] at this

/-- What the file and the string have in common: a text that can stand in the literal, and what it stands for. -/
structure Good (a a' : Str) : Prop where
  back : BackU a
  runs : ∀ b, Runs 0 b → Runs 0 (a ++ b)
  un : Un a a'

theorem Good.append {a a' b b' : Str} (ha : Good a a') (hb : Good b b') : Good (a ++ b) (a' ++ b') :=
  ⟨ha.back.append hb.back, fun t ht => by rw [List.append_assoc]; exact ha.runs _ (hb.runs t ht), ha.un.append hb.un⟩

theorem Runs.of_noquote {a b : Str} (h : '\'' ∉ a) (hb : Runs 0 b) : Runs 0 (a ++ b) := by
  induction a with
  | nil => exact hb
  | cons c t ih =>
    rw [List.cons_append]
    unfold Runs
    rw [if_neg fun e => h (by simp [e])]
    exact ih fun hm => h (by simp [hm])

theorem Good.plain (a : Str) (h1 : '\\' ∉ a) (h2 : '\'' ∉ a) : Good a a :=
  ⟨BackU.of_not_mem h1, fun _ hb => Runs.of_noquote h2 hb, Un.plain a h1⟩

theorem Good.str {s : Str} (h : Safe s) : Good (strE jsonChar s) (strE (fun c => [c]) s) := by
  have hq : BackU ['"'] := BackU.of_not_mem (by decide)
  refine ⟨hq.append ((flatMap_backU s h.chars).append hq), fun b hb => ?_, ?_⟩
  · have e : strE jsonChar s ++ b = '"' :: (s.flatMap jsonChar ++ '"' :: b) := by simp [strE]
    rw [e]
    have : Runs 0 (s.flatMap jsonChar ++ '"' :: b) := Runs.append (by decide) (flatMap_runs s h.chars 0 h.runs) hb
    simpa [Runs] using this
  · exact (Un.char '"' (by decide)).append ((flatMap_un s h.chars).append (Un.char '"' (by decide)))

/-- The strings of a value are safe. -/
def JVal.Safe : JVal → Prop
  | .str s => Version.Safe s
  | _ => True

theorem Good.val {v : JVal} (h : v.Safe) : Good (valE jsonChar v) (valE (fun c => [c]) v) := by
  rcases v with _ | (_ | _) | s
  · exact Good.plain _ (by decide) (by decide)
  · exact Good.plain _ (by decide) (by decide)
  · exact Good.plain _ (by decide) (by decide)
  · exact Good.str h

theorem Good.member {kv : Str × JVal} (h1 : Safe kv.1) (h2 : kv.2.Safe) :
    Good (memberE jsonChar kv) (memberE (fun c => [c]) kv) :=
  (Good.plain [' '] (by decide) (by decide)).append
    (((Good.str h1).append (Good.plain ": ".toList (by decide) (by decide))).append (Good.val h2))

theorem Good.members {l : PyDict} (h : ∀ kv ∈ l, Safe kv.1 ∧ kv.2.Safe) :
    Good (membersE jsonChar l) (membersE (fun c => [c]) l) := by
  induction l with
  | nil => exact Good.plain [] (by decide) (by decide)
  | cons kv rest ih =>
    have hkv := h kv (by simp)
    cases rest with
    | nil => exact Good.member hkv.1 hkv.2
    | cons kv' rest =>
      have e : ∀ enc, membersE enc (kv :: kv' :: rest) = memberE enc kv ++ ",\n".toList ++ membersE enc (kv' :: rest) := by
        intro enc
        rw [membersE]
        simp
      rw [e, e]
      exact ((Good.member hkv.1 hkv.2).append (Good.plain ",\n".toList (by decide) (by decide))).append
        (ih fun kv hkv => h kv (by simp [hkv]))

theorem Good.dumps {l : PyDict} (h : ∀ kv ∈ l, Safe kv.1 ∧ kv.2.Safe) :
    Good (dumpsE jsonChar l) (dumpsE (fun c => [c]) l) := by
  unfold dumpsE
  split
  · exact Good.plain _ (by decide) (by decide)
  · exact ((Good.plain "{\n".toList (by decide) (by decide)).append (Good.members h)).append
      (Good.plain "\n}".toList (by decide) (by decide))

theorem readable_safe {c : Char} (h : SafeChar c) : Readable (fun c => [c]) c := readable_id c h.2.1 h.2.2.1 h.1

theorem importFile_safe (win : Bool) (d : PyDict) (hk : (d.map Prod.fst).Nodup) (h : ∀ kv ∈ d, Safe kv.1 ∧ kv.2.Safe) :
    importFile (writeVersionFile win d) = .result (.ok (sortKeys d)) := by
  have h' : ∀ kv ∈ sortKeys d, Safe kv.1 ∧ kv.2.Safe := fun kv hkv => h kv ((sortKeys_perm d).mem_iff.1 hkv)
  have hnl : Good ['\n'] ['\n'] := Good.plain _ (by decide) (by decide)
  have hg : Good (['\n'] ++ dumpsE jsonChar (sortKeys d) ++ ['\n']) (['\n'] ++ dumpsE (fun c => [c]) (sortKeys d) ++ ['\n']) :=
    (hnl.append (Good.dumps h')).append hnl
  have hbody : tripleBody (['\n'] ++ dumpsE jsonChar (sortKeys d) ++ ['\n'] ++ shortTail) =
      some (['\n'] ++ dumpsE jsonChar (sortKeys d) ++ ['\n'], shortTail.drop 3) := by
    have e : shortTail = '\'' :: '\'' :: '\'' :: shortTail.drop 3 := by decide +kernel
    conv_lhs => rw [e]
    apply tripleBody_end _ _ hg.back
    · simpa using hg.runs [] trivial
    · rw [List.getLast?_concat]
      decide
  have hload := jsonLoads_enc (fun c => [c]) (sortKeys d) ['\n'] ['\n'] (fun kv hkv => ⟨fun c hc =>
    readable_safe ((h' kv hkv).1.chars c hc), by
      have := (h' kv hkv).2
      rcases hv : kv.2 with _ | _ | s
      · trivial
      · trivial
      · rw [hv] at this
        exact fun c hc => readable_safe (Safe.chars this c hc)⟩) (sortKeys_nodup d hk) (by decide) (by decide)
  have hpre : shortHead.isPrefixOf (shortHead ++ (dumpsE jsonChar (sortKeys d) ++ ['\n'] ++ shortTail)) = true := by
    simp [List.isPrefixOf_iff_prefix]
  have htail : "'''".toList ++ shortTail.drop 3 = shortTail := by decide +kernel
  unfold importFile
  simp only [readText_file, shortVersionPy, jsonDumps_eq, List.append_assoc]
  simp only [List.append_assoc] at hpre hbody hload
  rw [if_pos hpre, List.drop_left]
  have hb2 : tripleBody ('\n' :: (dumpsE jsonChar (sortKeys d) ++ (['\n'] ++ shortTail))) = _ := hbody
  rw [hb2]
  dsimp only
  rw [if_pos htail]
  have hun := hg.un.run
  simp only [List.append_assoc] at hun
  rw [hun]
  dsimp only
  rw [hload]

end Snompy.Version
