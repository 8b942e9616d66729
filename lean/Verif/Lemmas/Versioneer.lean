import Verif.Model.Versioneer
import Verif.Lemmas.Version

/-! # Lemmas about `Verif/Model/Versioneer.lean` -/

namespace Snompy.Version

/-! ## Characters of JSON -/

theorem hexVal_hexDigit (n : ℕ) (h : n < 16) : hexVal (hexDigit n) = some n := by
  revert n; decide

theorem hexVal4_digits (n : ℕ) (h : n < 65536) :
    hexVal4 (hexDigit (n / 4096 % 16)) (hexDigit (n / 256 % 16)) (hexDigit (n / 16 % 16)) (hexDigit (n % 16)) = some n := by
  unfold hexVal4
  rw [hexVal_hexDigit _ (by omega), hexVal_hexDigit _ (by omega), hexVal_hexDigit _ (by omega),
    hexVal_hexDigit _ (by omega)]
  simp only [bind, Option.bind, pure]
  congr 1
  omega

theorem char_range (c : Char) : c.toNat < 0xd800 ∨ (0xdfff < c.toNat ∧ c.toNat < 0x110000) := c.valid

theorem scanChar_plain (c : Char) (t : Str) (h1 : c ≠ '\\') (h2 : 32 ≤ c.toNat) : scanChar (c :: t) = some (c, t) := by
  unfold scanChar
  split
  · rename_i h; simp only [List.cons.injEq] at h; exact absurd h.1 h1
  · rename_i h; simp only [List.cons.injEq] at h; exact absurd h.1 h1
  · rename_i h
    simp only [List.cons.injEq] at h
    obtain ⟨rfl, rfl⟩ := h
    rw [if_neg]
    simp [h1, h2]
  · rename_i h; simp at h

theorem scanChar_u (n : ℕ) (t : Str) (h : n < 0xd800 ∨ (0xdfff < n ∧ n < 65536)) :
    scanChar (uEscape n ++ t) = some (Char.ofNat n, t) := by
  unfold uEscape
  simp only [List.cons_append, List.nil_append]
  rw [scanChar, hexVal4_digits n (by omega)]
  dsimp only
  rw [if_neg (by omega), if_neg (by omega)]

theorem scanChar_pair (m : ℕ) (t : Str) (h : m < 0x100000) :
    scanChar (uEscape (0xd800 + m / 1024 % 1024) ++ uEscape (0xdc00 + m % 1024) ++ t) =
      some (Char.ofNat (0x10000 + m), t) := by
  rw [List.append_assoc]
  have h1 := hexVal4_digits (0xd800 + m / 1024 % 1024) (by omega)
  have h2 := hexVal4_digits (0xdc00 + m % 1024) (by omega)
  unfold uEscape
  simp only [List.cons_append, List.nil_append]
  rw [scanChar, h1]
  dsimp only
  rw [if_pos (by omega)]
  simp only [h2]
  rw [if_pos (by omega), show 0x10000 + 1024 * (0xd800 + m / 1024 % 1024 - 0xd800) + (0xdc00 + m % 1024 - 0xdc00) =
    0x10000 + m by omega]

/-- `json.loads` reads what `json.dumps` wrote, for every character. -/
theorem scanChar_json (c : Char) (t : Str) : scanChar (jsonChar c ++ t) = some (c, t) := by
  unfold jsonChar
  dsimp only
  split_ifs with h1 h2 h3 h4 h5 h6 h7 h8 h9
  · subst h1; rfl
  · subst h2; rfl
  · subst h3; rfl
  · subst h4; rfl
  · subst h5; rfl
  · have : c = Char.ofNat 12 := by rw [← h6, Char.ofNat_toNat]
    subst this; rfl
  · have : c = Char.ofNat 8 := by rw [← h7, Char.ofNat_toNat]
    subst this; rfl
  · exact scanChar_plain c t h2 h8.1
  · have := char_range c
    rw [scanChar_u _ _ (by omega), Char.ofNat_toNat]
  · have := char_range c
    rw [scanChar_pair _ _ (by omega)]
    rw [show 0x10000 + (c.toNat - 0x10000) = c.toNat by omega, Char.ofNat_toNat]

theorem jsonChar_head (c : Char) : ∃ x u, jsonChar c = x :: u ∧ x ≠ '"' := by
  unfold jsonChar
  dsimp only
  split_ifs with h1
  all_goals first
    | exact ⟨'\\', _, rfl, by decide⟩
    | exact ⟨c, [], rfl, h1⟩

/-! ## Texts of JSON

A dictionary is written with some encoding of its characters: `jsonChar` in the file, and none in the string that the file
defines. -/

/-- An encoding that can be read back. -/
structure Readable (enc : Char → Str) (c : Char) : Prop where
  scan : ∀ t, scanChar (enc c ++ t) = some (c, t)
  head : ∃ x u, enc c = x :: u ∧ x ≠ '"'

theorem readable_json (c : Char) : Readable jsonChar c := ⟨scanChar_json c, jsonChar_head c⟩

theorem readable_id (c : Char) (h1 : c ≠ '\\') (h2 : 32 ≤ c.toNat) (h3 : c ≠ '"') : Readable (fun c => [c]) c :=
  ⟨fun t => scanChar_plain c t h1 h2, c, [], rfl, h3⟩

def strE (enc : Char → Str) (s : Str) : Str := '"' :: (s.flatMap enc ++ ['"'])

def valE (enc : Char → Str) : JVal → Str
  | .str s => strE enc s
  | v => jsonVal v

def memberE (enc : Char → Str) (kv : Str × JVal) : Str := ' ' :: (strE enc kv.1 ++ ": ".toList ++ valE enc kv.2)

def membersE (enc : Char → Str) : PyDict → Str
  | [] => []
  | [kv] => memberE enc kv
  | kv :: rest => memberE enc kv ++ ",\n".toList ++ membersE enc rest

theorem valE_json (v : JVal) : valE jsonChar v = jsonVal v := by
  cases v <;> rfl

theorem membersE_json (d : PyDict) : membersE jsonChar d = jsonMembers d := by
  induction d with
  | nil => rfl
  | cons kv rest ih =>
    have h : memberE jsonChar kv = jsonMember kv := by rw [memberE, valE_json]; rfl
    cases rest with
    | nil => exact h
    | cons kv' rest => rw [membersE, jsonMembers, ih, h] <;> simp

/-- The strings of a value. -/
def JVal.Chars (P : Char → Prop) : JVal → Prop
  | .str s => ∀ c ∈ s, P c
  | _ => True

/-- The strings of a dictionary. -/
def DictChars (P : Char → Prop) (d : PyDict) : Prop := ∀ kv ∈ d, (∀ c ∈ kv.1, P c) ∧ kv.2.Chars P

theorem scanString_enc (enc : Char → Str) (s t : Str) (h : ∀ c ∈ s, Readable enc c) (n : ℕ) (hn : s.length < n) :
    scanString n (s.flatMap enc ++ '"' :: t) = .ok (s, t) := by
  induction s generalizing n with
  | nil =>
    obtain ⟨n, rfl⟩ : ∃ k, n = k + 1 := ⟨n - 1, by simp at hn; omega⟩
    rfl
  | cons c cs ih =>
    obtain ⟨n, rfl⟩ : ∃ k, n = k + 1 := ⟨n - 1, by simp at hn; omega⟩
    have hc := h c (by simp)
    obtain ⟨x, u, hx, hne⟩ := hc.head
    have hs := hc.scan (cs.flatMap enc ++ '"' :: t)
    rw [List.flatMap_cons, List.append_assoc]
    rw [hx] at hs ⊢
    rw [List.cons_append] at hs ⊢
    rw [scanString, hs]
    · dsimp only
      rw [ih (fun c hc => h c (by simp [hc])) n (by simp at hn; omega)]
      rfl
    · intro y hy
      rw [List.cons.injEq] at hy
      exact hne hy.1

theorem length_flatMap_le (enc : Char → Str) (s : Str) (h : ∀ c ∈ s, Readable enc c) : s.length ≤ (s.flatMap enc).length := by
  induction s with
  | nil => simp
  | cons c cs ih =>
    obtain ⟨x, u, hx, -⟩ := (h c (by simp)).head
    have := ih fun c hc => h c (by simp [hc])
    rw [List.flatMap_cons, hx, List.length_append, List.length_cons, List.length_cons]
    omega

theorem scanString_text (enc : Char → Str) (s t : Str) (h : ∀ c ∈ s, Readable enc c) :
    scanString (s.flatMap enc ++ '"' :: t).length (s.flatMap enc ++ '"' :: t) = .ok (s, t) := by
  apply scanString_enc enc s t h
  have := length_flatMap_le enc s h
  rw [List.length_append, List.length_cons]
  omega

theorem scanValue_enc (enc : Char → Str) (v : JVal) (t : Str) (h : v.Chars (Readable enc)) :
    scanValue (valE enc v ++ t) = .ok (v, t) := by
  rcases v with _ | (_ | _) | s
  · rfl
  · rfl
  · rfl
  · have e : valE enc (.str s) ++ t = '"' :: (s.flatMap enc ++ '"' :: t) := by simp [valE, strE]
    rw [e, scanValue, scanString_text enc s t h]
    rfl

theorem setItem_new (d : PyDict) (k : Str) (v : JVal) (h : k ∉ d.map Prod.fst) : setItem d k v = d ++ [(k, v)] := by
  rw [setItem, if_neg h]

theorem skipSpace_quote (t : Str) : skipSpace ('"' :: t) = '"' :: t := by
  rw [skipSpace, List.dropWhile_cons_of_neg (by decide)]

theorem scanMembers_enc (enc : Char → Str) (l d : PyDict) (t : Str) (h : DictChars (Readable enc) l) (hl : l ≠ [])
    (hk : ((d ++ l).map Prod.fst).Nodup) (n : ℕ) (hn : l.length ≤ n) :
    scanMembers n d (skipSpace (membersE enc l ++ "\n}".toList ++ t)) = .ok (d ++ l, t) := by
  induction l generalizing d n with
  | nil => exact absurd rfl hl
  | cons kv rest ih =>
    obtain ⟨k, v⟩ := kv
    obtain ⟨n, rfl⟩ : ∃ m, n = m + 1 := ⟨n - 1, by simp at hn; omega⟩
    have hkv := h (k, v) (by simp)
    have hnew : k ∉ d.map Prod.fst := by
      rw [List.map_append, List.nodup_append] at hk
      intro hm
      exact hk.2.2 k hm k (by simp) rfl
    have step : ∀ u : Str, scanMembers (n + 1) d (skipSpace (memberE enc (k, v) ++ u)) =
        match skipSpace u with
        | '}' :: t => .ok (d ++ [(k, v)], t)
        | ',' :: t => scanMembers n (d ++ [(k, v)]) (skipSpace t)
        | _ => .error .valueError := by
      intro u
      have e : skipSpace (memberE enc (k, v) ++ u) = '"' :: (k.flatMap enc ++ '"' :: (':' :: ' ' :: (valE enc v ++ u))) := by
        rw [memberE, List.cons_append, skipSpace, List.dropWhile_cons_of_pos (by decide)]
        simp only [strE, List.cons_append]
        rw [List.dropWhile_cons_of_neg (by decide)]
        simp
      have hval : skipSpace (' ' :: (valE enc v ++ u)) = valE enc v ++ u := by
        rw [skipSpace, List.dropWhile_cons_of_pos (by decide)]
        rcases v with _ | (_ | _) | s
        · rfl
        · rfl
        · rfl
        · exact skipSpace_quote _
      rw [e, scanMembers, scanString_text enc k _ hkv.1]
      have hcol : skipSpace (':' :: ' ' :: (valE enc v ++ u)) = ':' :: ' ' :: (valE enc v ++ u) := by
        rw [skipSpace, List.dropWhile_cons_of_neg (by decide)]
      simp only [bind, Except.bind, hcol, hval, scanValue_enc enc v u hkv.2, setItem_new d k v hnew]
      rfl
    cases rest with
    | nil =>
      rw [show membersE enc [(k, v)] ++ "\n}".toList ++ t = memberE enc (k, v) ++ ('\n' :: '}' :: t) by
        simp [membersE], step]
      rfl
    | cons kv' rest =>
      have e : membersE enc ((k, v) :: kv' :: rest) ++ "\n}".toList ++ t =
          memberE enc (k, v) ++ (',' :: '\n' :: (membersE enc (kv' :: rest) ++ "\n}".toList ++ t)) := by
        rw [membersE]
        · simp
        · simp
      have hcom : ∀ u : Str, skipSpace (',' :: '\n' :: u) = ',' :: '\n' :: u := fun u => by
        rw [skipSpace, List.dropWhile_cons_of_neg (by decide)]
      have hnl : ∀ u : Str, skipSpace ('\n' :: u) = skipSpace u := fun u => by
        rw [skipSpace, List.dropWhile_cons_of_pos (by decide), skipSpace]
      rw [e, step, hcom]
      show scanMembers n (d ++ [(k, v)]) (skipSpace ('\n' :: _)) = _
      rw [hnl, ih (d ++ [(k, v)]) (fun kv hkv => h kv (by simp [hkv])) (by simp) (by simpa using hk) n
        (by simp at hn ⊢; omega)]
      simp

/-- The text of an object. -/
def dumpsE (enc : Char → Str) (d : PyDict) : Str :=
  if d.isEmpty then "{}".toList else "{\n".toList ++ membersE enc d ++ "\n}".toList

theorem jsonDumps_eq (d : PyDict) : jsonDumps d = dumpsE jsonChar (sortKeys d) := by
  rw [jsonDumps, dumpsE, membersE_json]
  have : (sortKeys d).isEmpty = d.isEmpty := by
    rw [Bool.eq_iff_iff, List.isEmpty_iff_length_eq_zero, List.isEmpty_iff_length_eq_zero, sortKeys, List.length_insertionSort]
  rw [this]

theorem memberE_length (enc : Char → Str) (kv : Str × JVal) : 1 ≤ (memberE enc kv).length := by simp [memberE]

theorem membersE_length (enc : Char → Str) (l : PyDict) : l.length ≤ (membersE enc l).length := by
  induction l with
  | nil => simp
  | cons kv rest ih =>
    have := memberE_length enc kv
    cases rest with
    | nil => simpa [membersE] using this
    | cons kv' rest =>
      rw [membersE]
      · simp at ih ⊢; omega
      · simp

theorem skipSpace_members (enc : Char → Str) (kv : Str × JVal) (l : PyDict) (t : Str) :
    ∃ u, skipSpace (membersE enc (kv :: l) ++ t) = '"' :: u ∧ (membersE enc (kv :: l) ++ t).length = u.length + 2 := by
  have h : ∃ u, membersE enc (kv :: l) ++ t = ' ' :: '"' :: u := by
    cases l with
    | nil => exact ⟨_, by simp only [membersE, memberE, strE, List.cons_append]; rfl⟩
    | cons kv' l =>
      have e : membersE enc (kv :: kv' :: l) = memberE enc kv ++ ",\n".toList ++ membersE enc (kv' :: l) := by
        rw [membersE]
        simp
      exact ⟨_, by rw [e]; simp only [memberE, strE, List.cons_append]; rfl⟩
  obtain ⟨u, hu⟩ := h
  refine ⟨u, ?_, by rw [hu]; simp⟩
  rw [hu, skipSpace, List.dropWhile_cons_of_pos (by decide), List.dropWhile_cons_of_neg (by decide)]

/-- `json.loads` reads every object that is written with a readable encoding. -/
theorem jsonLoads_enc (enc : Char → Str) (d : PyDict) (before after : Str) (h : DictChars (Readable enc) d)
    (hk : (d.map Prod.fst).Nodup) (hb : ∀ c ∈ before, jsonSpace c = true) (ha : ∀ c ∈ after, jsonSpace c = true) :
    jsonLoads (before ++ dumpsE enc d ++ after) = .ok d := by
  have hafter : skipSpace after = [] := by
    have := List.dropWhile_append_of_pos (l₂ := []) ha
    simpa [skipSpace] using this
  have hbefore : ∀ u, skipSpace (before ++ u) = skipSpace u := fun u => List.dropWhile_append_of_pos hb
  rw [List.append_assoc, jsonLoads, hbefore]
  cases d with
  | nil =>
    have : skipSpace (dumpsE enc [] ++ after) = '{' :: '}' :: after := by
      show skipSpace ('{' :: '}' :: after) = _
      rw [skipSpace, List.dropWhile_cons_of_neg (by decide)]
    rw [this]
    have h2 : skipSpace ('}' :: after) = '}' :: after := by rw [skipSpace, List.dropWhile_cons_of_neg (by decide)]
    simp only [h2, bind, Except.bind, hafter]
    rfl
  | cons kv l =>
    have e : skipSpace (dumpsE enc (kv :: l) ++ after) =
        '{' :: '\n' :: (membersE enc (kv :: l) ++ ("\n}".toList ++ after)) := by
      have : dumpsE enc (kv :: l) ++ after = '{' :: '\n' :: (membersE enc (kv :: l) ++ ("\n}".toList ++ after)) := by
        simp [dumpsE]
      rw [this, skipSpace, List.dropWhile_cons_of_neg (by decide)]
    obtain ⟨u, hu, hlen⟩ := skipSpace_members enc kv l ("\n}".toList ++ after)
    have hs : skipSpace ('\n' :: (membersE enc (kv :: l) ++ ("\n}".toList ++ after))) = '"' :: u := by
      rw [skipSpace, List.dropWhile_cons_of_pos (by decide)]
      exact hu
    have hn : (kv :: l).length ≤ ('"' :: u).length := by
      have h1 := membersE_length enc (kv :: l)
      rw [List.length_append] at hlen
      simp at h1 hlen ⊢
      omega
    have hm := scanMembers_enc enc (kv :: l) [] after h (by simp) (by simpa using hk) _ hn
    rw [List.append_assoc, hu] at hm
    rw [e]
    simp only [hs]
    change (bind (scanMembers ('"' :: u).length [] ('"' :: u)) _ : VM PyDict) = _
    rw [hm]
    simp [bind, Except.bind, hafter, pure, Except.pure]

/-! ## Searching -/

/-- No place before the end of `pre` where `start` could begin if `start` follows `pre`. -/
def noStart (start : Str) : Str → Bool
  | [] => true
  | c :: p => !start.isPrefixOf (c :: p ++ start) && noStart start p

theorem searchBetween_at (start fin pre u v : Str) (h : noStart start pre = true) (hu : beforeLast fin u = some v) :
    searchBetween start fin (pre ++ start ++ u) = some v := by
  induction pre with
  | nil =>
    have hp : start.isPrefixOf (start ++ u) = true := by simp [List.isPrefixOf_iff_prefix]
    rw [List.nil_append]
    cases hs : start ++ u with
    | nil =>
      rw [List.append_eq_nil_iff] at hs
      obtain ⟨rfl, rfl⟩ := hs
      simpa [searchBetween] using hu
    | cons c t =>
      rw [searchBetween, ← hs, if_pos hp, List.drop_left, hu]
  | cons c p ih =>
    rw [noStart, Bool.and_eq_true, Bool.not_eq_true'] at h
    have hn : start.isPrefixOf (c :: p ++ start ++ u) = false := by
      rw [← Bool.not_eq_true, List.isPrefixOf_iff_prefix]
      intro hp
      have := h.1
      rw [← Bool.not_eq_true, List.isPrefixOf_iff_prefix] at this
      apply this
      exact List.prefix_of_prefix_length_le hp (List.prefix_append _ _) (by simp; omega)
    rw [List.cons_append, List.cons_append] at hn ⊢
    rw [searchBetween, hn]
    exact ih h.2

theorem beforeLast_at (fin u v : Str) (hf : fin ≠ []) (h : beforeLast fin (fin ++ v).tail = none) :
    beforeLast fin (u ++ fin ++ v) = some u := by
  induction u with
  | nil =>
    obtain ⟨c, t, rfl⟩ := List.exists_cons_of_ne_nil hf
    rw [List.nil_append, List.cons_append, beforeLast]
    rw [List.cons_append, List.tail_cons] at h
    rw [h]
    dsimp only
    rw [if_pos]
    rw [List.isPrefixOf_iff_prefix]
    exact ⟨v, by simp⟩
  | cons c u ih => rw [List.cons_append, List.cons_append, beforeLast, ih]

theorem searchBetween_none (start fin s : Str) (h : ¬ start <:+: s) : searchBetween start fin s = none := by
  induction s with
  | nil =>
    rw [searchBetween, if_neg]
    rw [List.isPrefixOf_iff_prefix]
    exact fun hp => h hp.isInfix
  | cons c t ih =>
    rw [searchBetween, if_neg, ih]
    · exact fun hi => h (hi.trans (List.suffix_cons c t).isInfix)
    · rw [List.isPrefixOf_iff_prefix]
      exact fun hp => h hp.isInfix

theorem search_short (contents : Str) :
    searchBetween jsonStart jsonEnd (shortVersionPy contents) = some (contents ++ ['\n']) := by
  have e : shortVersionPy contents = (shortHead.take (shortHead.length - jsonStart.length)) ++ jsonStart ++
      ((contents ++ ['\n']) ++ jsonEnd ++ shortTail.drop jsonEnd.length) := by
    have h1 : shortHead = shortHead.take (shortHead.length - jsonStart.length) ++ jsonStart := by decide +kernel
    have h2 : shortTail = jsonEnd ++ shortTail.drop jsonEnd.length := by decide +kernel
    rw [shortVersionPy]
    conv_lhs => rw [h1, h2]
    simp only [List.append_assoc]
  rw [e]
  apply searchBetween_at
  · decide +kernel
  · apply beforeLast_at
    · decide +kernel
    · decide +kernel

/-! ## Text mode -/

theorem readText_plain (s : Str) (h : '\r' ∉ s) : readText s = s := by
  induction s with
  | nil => rfl
  | cons c t ih =>
    have hc : c ≠ '\r' := fun e => h (by simp [e])
    rw [readText, ih (fun hm => h (by simp [hm]))]
    · intro t' e1; exact absurd e1 hc
    · intro e1; exact absurd e1 hc

theorem readText_writeText (win : Bool) (s : Str) (h : '\r' ∉ s) : readText (writeText win s) = s := by
  cases win with
  | false => exact readText_plain s h
  | true =>
    rw [writeText, if_pos rfl]
    induction s with
    | nil => rfl
    | cons c t ih =>
      have hc : c ≠ '\r' := fun e => h (by simp [e])
      have ih := ih fun hm => h (by simp [hm])
      rw [List.flatMap_cons]
      by_cases hn : c = '\n'
      · subst hn
        rw [if_pos rfl]
        simp only [List.cons_append, List.nil_append, readText, ih]
      · rw [if_neg hn, List.cons_append, List.nil_append, readText, ih]
        · intro t' e1; exact absurd e1 hc
        · intro e1; exact absurd e1 hc

/-! ## The characters of the file -/

def Printable (c : Char) : Prop := 32 ≤ c.toNat ∧ c.toNat ≤ 126

instance (c : Char) : Decidable (Printable c) := inferInstanceAs (Decidable (_ ∧ _))

theorem hexDigit_printable (n : ℕ) (h : n < 16) : Printable (hexDigit n) := by
  revert n; decide

theorem uEscape_printable (n : ℕ) : ∀ c ∈ uEscape n, Printable c := by
  intro c hc
  simp only [uEscape, List.mem_cons, List.not_mem_nil, or_false] at hc
  rcases hc with rfl | rfl | rfl | rfl | rfl | rfl
  · decide
  · decide
  all_goals exact hexDigit_printable _ (by omega)

theorem jsonChar_printable (c : Char) : ∀ x ∈ jsonChar c, Printable x := by
  unfold jsonChar
  dsimp only
  split_ifs with h1 h2 h3 h4 h5 h6 h7 h8 h9
  iterate 7 decide
  · intro x hx
    rw [List.mem_singleton] at hx
    exact hx ▸ h8
  · exact uEscape_printable _
  · intro x hx
    rcases List.mem_append.1 hx with hx | hx
    · exact uEscape_printable _ x hx
    · exact uEscape_printable _ x hx

/-- Printable characters, spaces and newlines. -/
def Plain (c : Char) : Prop := Printable c ∨ c = '\n'

instance (c : Char) : Decidable (Plain c) := inferInstanceAs (Decidable (_ ∨ _))

theorem jsonStr_printable (s : Str) : ∀ c ∈ jsonStr s, Printable c := by
  intro c hc
  simp only [jsonStr, List.mem_cons, List.mem_append, List.mem_flatMap, List.not_mem_nil, or_false] at hc
  rcases hc with rfl | ⟨y, -, hy⟩ | rfl
  · decide
  · exact jsonChar_printable y c hy
  · decide

theorem jsonVal_printable (v : JVal) : ∀ c ∈ jsonVal v, Printable c := by
  rcases v with _ | (_ | _) | s
  · decide
  · decide
  · decide
  · exact jsonStr_printable s

theorem jsonMember_printable (kv : Str × JVal) : ∀ c ∈ jsonMember kv, Printable c := by
  intro c hc
  rw [jsonMember, List.mem_cons, List.mem_append, List.mem_append] at hc
  rcases hc with rfl | (hc | hc) | hc
  · decide
  · exact jsonStr_printable _ c hc
  · revert c; decide
  · exact jsonVal_printable _ c hc

theorem jsonMembers_plain (l : PyDict) : ∀ c ∈ jsonMembers l, Plain c := by
  induction l with
  | nil => simp [jsonMembers]
  | cons kv rest ih =>
    cases rest with
    | nil => exact fun c hc => .inl (jsonMember_printable kv c hc)
    | cons kv' rest =>
      intro c hc
      rw [jsonMembers, List.mem_append, List.mem_append] at hc
      · rcases hc with (hc | hc) | hc
        · exact .inl (jsonMember_printable kv c hc)
        · revert c; decide
        · exact ih c hc
      · simp

theorem jsonDumps_plain (d : PyDict) : ∀ c ∈ jsonDumps d, Plain c := by
  intro c hc
  rw [jsonDumps] at hc
  split at hc
  · revert c; decide
  · rw [List.mem_append, List.mem_append] at hc
    rcases hc with (hc | hc) | hc
    · revert c; decide
    · exact jsonMembers_plain _ c hc
    · revert c; decide

theorem shortVersionPy_plain (d : PyDict) : ∀ c ∈ shortVersionPy (jsonDumps d), Plain c := by
  intro c hc
  rw [shortVersionPy, List.mem_append, List.mem_append, List.mem_append] at hc
  rcases hc with ((hc | hc) | hc) | hc
  · revert c; decide +kernel
  · exact jsonDumps_plain d c hc
  · revert c; decide +kernel
  · revert c; decide +kernel

theorem readText_file (win : Bool) (d : PyDict) :
    readText (writeVersionFile win d) = shortVersionPy (jsonDumps d) := by
  rw [writeVersionFile, readText_writeText]
  intro hm
  have := shortVersionPy_plain d _ hm
  revert this
  decide

theorem sortKeys_perm (d : PyDict) : (sortKeys d).Perm d := List.perm_insertionSort _ d

theorem sortKeys_nodup (d : PyDict) (hk : (d.map Prod.fst).Nodup) : ((sortKeys d).map Prod.fst).Nodup :=
  (((sortKeys_perm d).map Prod.fst).nodup_iff).2 hk

theorem strLe_total (a b : Str) : strLe a b = true ∨ strLe b a = true := by
  induction a generalizing b with
  | nil => left; simp [strLe]
  | cons c cs ih =>
    cases b with
    | nil => right; simp [strLe]
    | cons d ds =>
      simp only [strLe]
      rcases lt_trichotomy c.toNat d.toNat with h | h | h
      · left; simp [h]
      · simpa [h] using ih ds
      · right; simp [h]

theorem strLe_trans {a b c : Str} (h1 : strLe a b = true) (h2 : strLe b c = true) : strLe a c = true := by
  induction a generalizing b c with
  | nil => simp [strLe]
  | cons x xs ih =>
    cases b with
    | nil => simp [strLe] at h1
    | cons y ys =>
      cases c with
      | nil => simp [strLe] at h2
      | cons z zs =>
        simp only [strLe] at h1 h2 ⊢
        rcases lt_trichotomy x.toNat y.toNat with hxy | hxy | hxy
        · rcases lt_trichotomy y.toNat z.toNat with hyz | hyz | hyz
          · simp [hxy.trans hyz]
          · simp [hyz ▸ hxy]
          · simp [hyz, hyz.not_gt] at h2
        · rcases lt_trichotomy y.toNat z.toNat with hyz | hyz | hyz
          · simp [hxy, hyz]
          · simp only [hxy, hyz, lt_irrefl, if_false] at h1 h2 ⊢
            exact ih h1 h2
          · simp [hyz, hyz.not_gt] at h2
        · simp [hxy, hxy.not_gt] at h1

theorem sortKeys_sorted (d : PyDict) : (sortKeys d).Pairwise fun a b => strLe a.1 b.1 = true := by
  have : Std.Total fun a b : Str × JVal => strLe a.1 b.1 = true := ⟨fun a b => strLe_total a.1 b.1⟩
  have : IsTrans (Str × JVal) fun a b => strLe a.1 b.1 = true := ⟨fun _ _ _ => strLe_trans⟩
  exact List.pairwise_insertionSort _ d

theorem sortKeys_idem (d : PyDict) : sortKeys (sortKeys d) = sortKeys d :=
  (sortKeys_sorted d).insertionSort_eq

theorem setItem_nodup (d : PyDict) (k : Str) (v : JVal) (h : (d.map Prod.fst).Nodup) :
    ((setItem d k v).map Prod.fst).Nodup := by
  unfold setItem
  split
  · rw [List.map_map]
    convert h using 2
    funext kv
    by_cases hk : kv.1 = k <;> simp [hk]
  · rename_i hk
    rw [List.map_append, List.nodup_append]
    refine ⟨h, by simp, ?_⟩
    intro a ha b hb
    simp only [List.map_cons, List.map_nil, List.mem_singleton] at hb
    subst hb
    rintro rfl
    exact hk ha

theorem scanMembers_nodup (n : ℕ) (d : PyDict) (s : Str) (h : (d.map Prod.fst).Nodup) (r : PyDict × Str)
    (hr : scanMembers n d s = .ok r) : (r.1.map Prod.fst).Nodup := by
  induction n generalizing d s with
  | zero => simp [scanMembers] at hr
  | succ n ih =>
    cases s with
    | nil => simp [scanMembers] at hr
    | cons c t =>
      by_cases hc : c = '"'
      · subst hc
        rw [scanMembers] at hr
        cases h1 : scanString t.length t with
        | error e => rw [h1] at hr; simp [bind, Except.bind] at hr
        | ok kt =>
          rw [h1] at hr
          simp only [bind, Except.bind] at hr
          split at hr
          · split at hr
            · simp at hr
            · split at hr
              · simp only [Except.ok.injEq] at hr
                subst hr
                exact setItem_nodup _ _ _ h
              · exact ih _ _ (setItem_nodup _ _ _ h) hr
              · simp at hr
          · simp at hr
      · simp [scanMembers, hc] at hr

theorem jsonLoads_nodup (s : Str) (d : PyDict) (h : jsonLoads s = .ok d) : (d.map Prod.fst).Nodup := by
  unfold jsonLoads at h
  split at h
  · split at h
    · simp only [bind, Except.bind] at h
      split at h
      · simp only [pure, Except.pure, Except.ok.injEq] at h
        subst h
        simp
      · simp at h
    · rename_i t _ _ _
      cases h1 : scanMembers (skipSpace t).length [] (skipSpace t) with
      | error e => rw [h1] at h; simp [bind, Except.bind] at h
      | ok r =>
        rw [h1] at h
        simp only [bind, Except.bind] at h
        split at h
        · simp only [pure, Except.pure, Except.ok.injEq] at h
          subst h
          exact scanMembers_nodup _ _ _ (by simp) r h1
        · simp at h
  · simp at h

theorem infoDict_nodup (v : Info) : ((infoDict v).map Prod.fst).Nodup := by
  simp only [infoDict, List.map_cons, List.map_nil]
  decide

theorem setupVersions_nodup (sys : Sys) (cfg : Config) (root : Str) (file : Option Str) (d : PyDict)
    (h : setupVersions sys cfg root file = .ok d) : (d.map Prod.fst).Nodup := by
  have key : ∀ x r : VM PyDict, (∀ d, x = .ok d → (d.map Prod.fst).Nodup) → (∀ d, r = .ok d → (d.map Prod.fst).Nodup) →
      ∀ d, orElseDict x r = .ok d → (d.map Prod.fst).Nodup := by
    intro x r hx hr d hd
    unfold orElseDict at hd
    split at hd
    · exact hr d hd
    · exact hx d hd
  have hinfo : ∀ x : VM Info, ∀ d, x.map infoDict = .ok d → (d.map Prod.fst).Nodup := by
    rintro (e | v) d hd
    · simp [Except.map] at hd
    · simp only [Except.map, Except.ok.injEq] at hd
      exact hd ▸ infoDict_nodup v
  refine key _ _ (hinfo _) (key _ _ ?_ (key _ _ (hinfo _) (key _ _ ?_ ?_))) d h
  · intro d hd
    unfold versionsFromFile at hd
    split at hd
    · simp at hd
    · split at hd
      · simp at hd
      · exact jsonLoads_nodup _ d hd
  · intro d hd
    split at hd
    · simp at hd
    · exact hinfo _ d hd
  · intro d hd
    exact hinfo (.ok _) d hd

theorem versionsFromFile_file (win : Bool) (d : PyDict) (hk : (d.map Prod.fst).Nodup) :
    versionsFromFile (some (writeVersionFile win d)) = .ok (sortKeys d) := by
  rw [versionsFromFile, readText_file, search_short, Option.some_or]
  have := jsonLoads_enc jsonChar (sortKeys d) [] ['\n'] (fun kv _ => ⟨fun c _ => readable_json c, by
    rcases kv.2 with _ | _ | s
    · trivial
    · trivial
    · exact fun c _ => readable_json c⟩) (sortKeys_nodup d hk) (by simp) (by decide)
  rw [jsonDumps_eq]
  simpa using this

end Snompy.Version
