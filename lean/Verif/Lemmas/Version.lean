import Verif.Spec.Git
import Mathlib.Data.Nat.Digits.Lemmas

/-! # Strings of `Verif/Model/Version.lean` -/

namespace Snompy.Version

/-! ## Splitting at a character -/

theorem rsplit_iff (ch : Char) (s a b : Str) : rsplit ch s = some (a, b) ↔ s = a ++ ch :: b ∧ ch ∉ b := by
  constructor
  · intro h
    unfold rsplit at h
    have h1 : s.reverse.takeWhile (· ≠ ch) ++ s.reverse.dropWhile (· ≠ ch) = s.reverse :=
      List.takeWhile_append_dropWhile
    have h2 : ch ∉ s.reverse.takeWhile (· ≠ ch) := fun hm => by
      have := List.all_eq_true.1 (List.all_takeWhile (l := s.reverse) (p := fun c => decide (c ≠ ch))) _ hm
      simp at this
    revert h h1
    cases hd : s.reverse.dropWhile (· ≠ ch) with
    | nil => intro h; simp at h
    | cons x hd' =>
      intro h h1
      have hx : x = ch := by
        have := List.head_dropWhile_not (fun c => decide (c ≠ ch)) (l := s.reverse) (by rw [hd]; simp)
        simp only [hd, List.head_cons] at this
        simpa using this
      subst hx
      simp only [Option.some.injEq, Prod.mk.injEq] at h
      obtain ⟨rfl, rfl⟩ := h
      refine ⟨?_, by simpa using h2⟩
      have := congrArg List.reverse h1
      simp only [List.reverse_append, List.reverse_cons, List.reverse_reverse] at this
      simpa using this.symm
  · rintro ⟨rfl, hb⟩
    have hr : (a ++ ch :: b).reverse = b.reverse ++ ch :: a.reverse := by simp
    have hp : ∀ c ∈ b.reverse, decide (c ≠ ch) = true := by
      intro c hc
      have : c ≠ ch := fun e => hb (by simpa [e] using hc)
      simpa using this
    unfold rsplit
    rw [hr, List.takeWhile_append_of_pos hp, List.dropWhile_append_of_pos hp]
    simp

theorem digit_ne_hyphen (ext : DigitTable) : isDigit ext '-' = false := by simp [isDigit, digitVal]

/-- The regular expression `^(.+)-(\d+)-g([0-9a-f]+)$`: the whole string, perhaps followed by a newline, is a tag, a number
and a hash joined in the way of `git describe --long`. -/
def DescribeMatch (ext : DigitTable) (s tag num hex : Str) : Prop :=
  ∃ tail, (tail = [] ∨ tail = ['\n']) ∧ s = tag ++ '-' :: (num ++ '-' :: 'g' :: hex) ++ tail ∧
    (tag ≠ [] ∧ '\n' ∉ tag) ∧ (num ≠ [] ∧ ∀ c ∈ num, isDigit ext c = true) ∧ (hex ≠ [] ∧ ∀ c ∈ hex, isHex c = true)

theorem endsWith_iff (s p : Str) : endsWith s p = true ↔ ∃ t, t ++ p = s := by
  simp [endsWith, List.isSuffixOf_iff_suffix, List.IsSuffix]

theorem startsWith_iff (s p : Str) : startsWith s p = true ↔ ∃ t, p ++ t = s := by
  simp [startsWith, List.isPrefixOf_iff_prefix, List.IsPrefix]

/-- `matchDescribe` is the regular expression: it finds a match whenever there is one, and there is only one. -/
theorem matchDescribe_iff (ext : DigitTable) (s tag num hex : Str) :
    matchDescribe ext s = some (tag, num, hex) ↔ DescribeMatch ext s tag num hex := by
  have key : ∀ s' : Str, matchWhole ext s' = some (tag, num, hex) ↔
      s' = tag ++ '-' :: (num ++ '-' :: 'g' :: hex) ∧ (tag ≠ [] ∧ '\n' ∉ tag) ∧
        (num ≠ [] ∧ ∀ c ∈ num, isDigit ext c = true) ∧ (hex ≠ [] ∧ ∀ c ∈ hex, isHex c = true) := by
    intro s'
    unfold matchWhole
    constructor
    · intro h
      split at h
      · rename_i front hex' h1
        split at h
        · rename_i tag' num' h2
          split at h
          · rename_i hc
            simp only [Option.some.injEq, Prod.mk.injEq] at h
            obtain ⟨rfl, rfl, rfl⟩ := h
            obtain ⟨e1, -⟩ := (rsplit_iff _ _ _ _).1 h1
            obtain ⟨e2, -⟩ := (rsplit_iff _ _ _ _).1 h2
            simp only [Bool.and_eq_true, Bool.not_eq_true', List.isEmpty_eq_false_iff, List.all_eq_true,
              decide_eq_true_eq] at hc
            obtain ⟨⟨⟨⟨⟨h1, h2⟩, h3⟩, h4⟩, h5⟩, h6⟩ := hc
            refine ⟨by rw [e1, e2]; simp, ⟨h5, fun hm => h6 _ hm rfl⟩, ⟨h3, h4⟩, h1, h2⟩
          · simp at h
        · simp at h
      · simp at h
    · rintro ⟨rfl, ⟨ht, htn⟩, ⟨hn, hnd⟩, hh, hhx⟩
      have h1 : rsplit '-' (tag ++ '-' :: (num ++ '-' :: 'g' :: hex)) = some (tag ++ '-' :: num, 'g' :: hex) := by
        rw [rsplit_iff]
        refine ⟨by simp, fun hm => ?_⟩
        rcases List.mem_cons.1 hm with h | h
        · exact absurd h (by decide)
        · exact absurd (hhx _ h) (by decide)
      have h2 : rsplit '-' (tag ++ '-' :: num) = some (tag, num) := by
        rw [rsplit_iff]
        exact ⟨rfl, fun hm => by simpa [digit_ne_hyphen] using hnd _ hm⟩
      rw [h1]
      simp only [h2]
      rw [if_pos]
      simp only [Bool.and_eq_true, Bool.not_eq_true', List.isEmpty_eq_false_iff, List.all_eq_true, decide_eq_true_eq]
      exact ⟨⟨⟨⟨⟨hh, hhx⟩, hn⟩, hnd⟩, ht⟩, fun c hc e => htn (e ▸ hc)⟩
  unfold matchDescribe
  rw [key]
  unfold DescribeMatch
  constructor
  · rintro ⟨h, h'⟩
    by_cases he : endsWith s ['\n'] = true
    · rw [if_pos he] at h
      obtain ⟨t, rfl⟩ := (endsWith_iff _ _).1 he
      refine ⟨['\n'], .inr rfl, ?_, h'⟩
      rw [← h]; simp
    · rw [if_neg he] at h
      exact ⟨[], .inl rfl, by simpa using h, h'⟩
  · rintro ⟨tail, ht, rfl, h'⟩
    refine ⟨?_, h'⟩
    rcases ht with rfl | rfl
    · rw [if_neg, List.append_nil]
      intro he
      obtain ⟨t, ht⟩ := (endsWith_iff _ _).1 he
      obtain ⟨-, -, hh, hx⟩ := h'
      obtain ⟨x, c, rfl⟩ := List.eq_nil_or_concat hex |>.resolve_left hh
      have hl := congrArg List.getLast? ht
      have e : tag ++ '-' :: (num ++ '-' :: 'g' :: x.concat c) ++ [] = (tag ++ '-' :: (num ++ '-' :: 'g' :: x)) ++ [c] := by
        simp
      rw [e, List.getLast?_concat, List.getLast?_concat] at hl
      obtain rfl := Option.some.inj hl
      exact absurd (hx '\n' (by simp)) (by decide)
    · rw [if_pos ((endsWith_iff _ _).2 ⟨_, rfl⟩), List.dropLast_concat]

/-! ## Stripping -/

theorem stripBy_eq_self (p : Char → Bool) (s : Str) (h1 : ∀ c ∈ s.head?, p c = false)
    (h2 : ∀ c ∈ s.getLast?, p c = false) : stripBy p s = s := by
  have hd : s.dropWhile p = s := by
    cases s with
    | nil => rfl
    | cons c cs => simp [h1 c (by simp)]
  have hr : s.reverse.dropWhile p = s.reverse := by
    cases hs : s.reverse with
    | nil => rfl
    | cons c cs =>
      have : s.getLast? = some c := by
        rw [← List.head?_reverse, hs]; rfl
      simp [h2 c (by simp [this])]
  rw [stripBy, hd, hr, List.reverse_reverse]

theorem strip_eq_self (s : Str) (h : ∀ c ∈ s, isSpace c = false) : strip s = s :=
  stripBy_eq_self _ _ (fun c hc => h c (List.mem_of_mem_head? hc)) fun c hc => h c (List.mem_of_mem_getLast? hc)

/-! ## Numbers -/

/-- ASCII digits. -/
abbrev isAsciiDigit (c : Char) : Prop := 48 ≤ c.toNat ∧ c.toNat ≤ 57

theorem digitChar_toNat {d : ℕ} (hd : d < 10) : (Char.ofNat (48 + d)).toNat = 48 + d := by
  interval_cases d <;> rfl

theorem digitVal_ofNat (ext : DigitTable) {d : ℕ} (hd : d < 10) : digitVal ext (Char.ofNat (48 + d)) = some d := by
  rw [digitVal, digitChar_toNat hd, if_pos (by omega), if_pos (by omega)]
  simp

theorem natStr_digit (n : ℕ) : ∀ c ∈ natStr n, isAsciiDigit c := by
  intro c hc
  unfold natStr at hc
  split at hc
  · rw [List.mem_singleton] at hc; subst hc; decide
  · rw [List.mem_map] at hc
    obtain ⟨d, hd, rfl⟩ := hc
    have := Nat.digits_lt_base (b := 10) (by norm_num) (List.mem_reverse.1 hd)
    rw [isAsciiDigit, digitChar_toNat this]; omega

theorem natStr_ne_nil (n : ℕ) : natStr n ≠ [] := by
  unfold natStr
  split
  · simp
  · rename_i h
    simpa [Nat.digits_eq_nil_iff_eq_zero] using h

theorem isDigit_of_ascii (ext : DigitTable) {c : Char} (h : isAsciiDigit c) : isDigit ext c = true := by
  rw [isDigit, digitVal, if_pos (by have := h.2; omega), if_pos h]; rfl

theorem ascii_not_space {c : Char} (h : isAsciiDigit c) : isSpace c = false := by
  obtain ⟨h1, h2⟩ := h
  simp only [isSpace, Bool.or_eq_false_iff, Bool.and_eq_false_iff, decide_eq_false_iff_not, beq_eq_false_iff_ne]
  omega

theorem intGo_digits (ext : DigitTable) (ds : List ℕ) (h : ∀ d ∈ ds, d < 10) (v : ℕ) :
    intGo ext v (ds.map fun d => Char.ofNat (48 + d)) = some (ds.foldl (fun v d => 10 * v + d) v) := by
  induction ds generalizing v with
  | nil => simp [intGo]
  | cons d ds ih =>
    rw [List.map_cons, intGo.eq_def]
    simp only [digitVal_ofNat ext (h d (by simp))]
    simpa using ih (fun x hx => h x (by simp [hx])) _

theorem intUnsigned_natStr (ext : DigitTable) (n : ℕ) : intUnsigned ext (natStr n) = some n := by
  unfold natStr
  split
  · rename_i h; subst h
    simp [intUnsigned, digitVal, intGo]
  · rename_i h
    have hlt : ∀ d ∈ (Nat.digits 10 n).reverse, d < 10 := fun d hd =>
      Nat.digits_lt_base (b := 10) (by norm_num) (List.mem_reverse.1 hd)
    have hv : (Nat.digits 10 n).reverse.foldl (fun v d => 10 * v + d) 0 = n := by
      rw [List.foldl_reverse]
      conv_rhs => rw [← Nat.ofDigits_digits 10 n, Nat.ofDigits_eq_foldr]
      congr 1
      funext a b
      simp; ring
    revert hlt hv
    cases hr : (Nat.digits 10 n).reverse with
    | nil =>
      rw [List.reverse_eq_nil_iff, Nat.digits_eq_nil_iff_eq_zero] at hr
      exact absurd hr h
    | cons d ds =>
      intro hlt hv
      rw [List.map_cons, intUnsigned, digitVal_ofNat ext (hlt d (by simp))]
      simp only
      rw [intGo_digits ext ds (fun x hx => hlt x (by simp [hx]))]
      simpa using hv

/-- `int("%d" % n) == n`. -/
theorem pyInt_natStr (ext : DigitTable) (n : ℕ) : pyInt ext (natStr n) = .ok (n : ℤ) := by
  have hs : strip (natStr n) = natStr n := strip_eq_self _ fun c hc => ascii_not_space (natStr_digit n c hc)
  have hu := intUnsigned_natStr ext n
  unfold pyInt
  rw [hs]
  have hd := natStr_digit n
  revert hu hd
  cases natStr n with
  | nil => intro hu; simp [intUnsigned] at hu
  | cons c cs =>
    intro hu hd
    have hc := hd c (by simp)
    have h1 : c ≠ '-' := by rintro rfl; exact absurd hc (by simp [isAsciiDigit])
    have h2 : c ≠ '+' := by rintro rfl; exact absurd hc (by simp [isAsciiDigit])
    have : intSigned ext (c :: cs) = some (n : ℤ) := by
      unfold intSigned
      split
      · simp_all
      · simp_all
      · rw [hu]; rfl
    rw [this]

theorem natStr_injective : Function.Injective natStr := fun a b h => by
  have := pyInt_natStr (fun _ => none) a
  rw [h, pyInt_natStr] at this
  simpa using this.symm

theorem intStr_natCast (n : ℕ) : intStr n = natStr n := by
  simp [intStr]

theorem dec_eq (n : ℕ) : dec n = natStr n := by
  have h : ∀ n, Nat.toDigits 10 n = natStr n := by
    intro n
    induction n using Nat.strong_induction_on with
    | _ n ih =>
      rw [Nat.toDigits_eq_if (by norm_num)]
      have hc : ∀ d < 10, Nat.digitChar d = Char.ofNat (48 + d) := by
        intro d hd
        interval_cases d <;> rfl
      split
      · rename_i h
        rcases Nat.eq_zero_or_pos n with rfl | h0
        · rfl
        · rw [natStr, if_neg h0.ne', Nat.digits_of_lt 10 n h0.ne' h]
          simp [hc n h]
      · rename_i h
        rw [ih _ (by omega), natStr, natStr, if_neg (by omega), if_neg (by omega),
          Nat.digits_def' (b := 10) (n := n) (by norm_num) (by omega)]
        simp [hc (n % 10) (by omega)]
  rw [dec, ← h, ← Nat.toList_repr]
  rfl

/-! ## Splitting at a separator -/

theorem splitGo_none (sep : Str) (acc a : Str) (h : ∀ t, t ≠ [] → t <:+ a → ¬ sep <+: t) :
    splitGo sep acc a = [acc.reverse ++ a] := by
  induction a generalizing acc with
  | nil => simp [splitGo]
  | cons c cs ih =>
    rw [splitGo, if_neg]
    · rw [ih _ fun t ht hs => h t ht (hs.trans (List.suffix_cons c cs))]
      simp
    · rw [List.isPrefixOf_iff_prefix]
      exact h _ (by simp) List.suffix_rfl

theorem splitGo_cut (sep : Str) (hsep : sep ≠ []) (acc a rest : Str)
    (h : ∀ t, t ≠ [] → t <:+ a → ¬ sep <+: t ++ sep ++ rest) :
    splitGo sep acc (a ++ sep ++ rest) = (acc.reverse ++ a) :: splitGo sep [] rest := by
  induction a generalizing acc with
  | nil =>
    obtain ⟨c, cs, rfl⟩ := List.exists_cons_of_ne_nil hsep
    rw [List.nil_append, List.cons_append, splitGo, if_pos]
    · simp
    · rw [List.isPrefixOf_iff_prefix]
      exact ⟨rest, rfl⟩
  | cons c cs ih =>
    rw [List.cons_append, List.cons_append, splitGo, if_neg]
    · rw [ih _ fun t ht hs => h t ht (hs.trans (List.suffix_cons c cs))]
      simp
    · rw [List.isPrefixOf_iff_prefix]
      exact h _ (by simp) List.suffix_rfl

theorem split_char_none (ch : Char) (a : Str) (h : ch ∉ a) : split a [ch] = [a] := by
  rw [split, splitGo_none]
  · simp
  · rintro (_ | ⟨c, t⟩) ht hs hp
    · exact ht rfl
    · rw [List.cons_prefix_cons] at hp
      exact h (hp.1 ▸ hs.subset (by simp))

theorem split_char_cut (ch : Char) (a rest : Str) (h : ch ∉ a) : split (a ++ ch :: rest) [ch] = a :: split rest [ch] := by
  have := splitGo_cut [ch] (by simp) [] a rest (by
    rintro (_ | ⟨c, t⟩) ht hs hp
    · exact ht rfl
    · rw [List.cons_append, List.cons_append, List.cons_prefix_cons] at hp
      exact h (hp.1 ▸ hs.subset (by simp)))
  simpa [split] using this

/-- Lines joined by newlines are split into the lines. -/
theorem split_join (ch : Char) (ls : List Str) (l : Str) (h : ∀ x ∈ l :: ls, ch ∉ x) :
    split (l ++ (ls.map (ch :: ·)).flatten) [ch] = l :: ls := by
  induction ls generalizing l with
  | nil => simpa using split_char_none ch l (h l (by simp))
  | cons m ls ih =>
    rw [List.map_cons, List.flatten_cons, List.cons_append, split_char_cut ch _ _ (h l (by simp)),
      ih m fun x hx => h x (by simp at hx ⊢; tauto)]

/-! ## Dates -/

theorem lineBreak_space {c : Char} (h : isSpace c = false) : isLineBreak c = false := by
  simp only [isSpace, isLineBreak, Bool.or_eq_false_iff, Bool.and_eq_false_iff, decide_eq_false_iff_not,
    beq_eq_false_iff_ne] at h ⊢
  omega

theorem linesGo_none (acc s : Str) (h : ∀ c ∈ s, isLineBreak c = false) :
    linesGo acc s = if acc = [] ∧ s = [] then [] else [acc.reverse ++ s] := by
  induction s generalizing acc with
  | nil =>
    rw [linesGo]
    cases acc <;> simp
  | cons c cs ih =>
    have hc := h c (by simp)
    rw [linesGo.eq_def]
    have hr : c ≠ '\r' := by rintro rfl; exact absurd hc (by decide)
    split
    · simp_all
    · simp_all
    · rename_i heq
      obtain ⟨rfl, rfl⟩ := List.cons.inj heq
      rw [hc, if_neg (by simp), ih _ fun x hx => h x (by simp [hx])]
      simp

theorem replaceFirst_cut (ch : Char) (new a b : Str) (h : ch ∉ a) : replaceFirst ch new (a ++ ch :: b) = a ++ new ++ b := by
  induction a with
  | nil => simp [replaceFirst]
  | cons c cs ih =>
    have hc : c ≠ ch := fun e => h (by simp [e])
    rw [List.cons_append, replaceFirst, if_neg hc, ih fun hm => h (by simp [hm])]
    simp

theorem Word.not_mem_space {s : Str} (h : Word s) : ' ' ∉ s := fun hm => by
  have := h.2 _ hm
  exact absurd this (by decide)

theorem strip_words (a b : Str) (x : Str) (ha : Word a) (hb : Word b) : strip (a ++ x ++ b) = a ++ x ++ b := by
  apply stripBy_eq_self
  · intro c hc
    obtain ⟨y, ys, rfl⟩ := List.exists_cons_of_ne_nil ha.1
    simp only [List.cons_append, List.head?_cons, Option.mem_some_iff] at hc
    exact ha.2 c (by simp [hc])
  · intro c hc
    rw [List.getLast?_append_of_ne_nil _ hb.1] at hc
    exact hb.2 c (List.mem_of_mem_getLast? hc)

theorem linesGo_last (l : Str) (hl : l ≠ []) (hb : ∀ c ∈ l, isLineBreak c = false) (n : ℕ) (g : Str) (hn : g.length = n)
    (acc : Str) : (linesGo acc (g ++ '\n' :: l)).getLast? = some l := by
  have h0 : linesGo [] l = [l] := by
    rw [linesGo_none [] l hb, if_neg (by simp [hl])]
    rfl
  induction n using Nat.strong_induction_on generalizing g acc with
  | _ n ih =>
    have hne : ∀ (g' : Str), g'.length < n → ∀ a : Str, (a :: linesGo [] (g' ++ '\n' :: l)).getLast? = some l := by
      intro g' hg a
      have := ih _ hg g' rfl []
      rw [List.getLast?_cons, this]
      rfl
    rcases g with _ | ⟨c, cs⟩
    · rw [List.nil_append, linesGo.eq_def]
      split
      · simp_all
      · simp_all
      · rename_i heq
        obtain ⟨rfl, rfl⟩ := List.cons.inj heq
        rw [if_pos (by decide), h0]
        rfl
    · rw [List.cons_append, linesGo.eq_def]
      split
      · simp_all
      · rename_i cs' heq
        obtain ⟨rfl, heq2⟩ := List.cons.inj heq
        rcases cs with _ | ⟨c', cs⟩
        · obtain ⟨-, rfl⟩ := List.cons.inj heq2
          rw [h0]
          rfl
        · obtain ⟨rfl, rfl⟩ := List.cons.inj heq2
          exact hne cs (by simp at hn; omega) _
      · rename_i heq
        obtain ⟨rfl, rfl⟩ := List.cons.inj heq
        split
        · exact hne cs (by simp at hn; omega) _
        · exact ih cs.length (by simp at hn; omega) cs rfl _

/-- Whatever git prints in the lines before the date, for example about signatures, is ignored. -/
theorem isoDate_words (g a b c : Str) (hg : g = [] ∨ ∃ g', g = g' ++ "\n".toList) (ha : Word a) (hb : Word b) (hc : Word c) :
    isoDate (g ++ a ++ " ".toList ++ b ++ " ".toList ++ c) = .ok (a ++ "T".toList ++ b ++ c) := by
  have hlb : ∀ x ∈ a ++ " ".toList ++ b ++ " ".toList ++ c, isLineBreak x = false := by
    intro x hx
    simp only [List.mem_append] at hx
    have h2 : isLineBreak ' ' = false := by decide
    rcases hx with (((hx | hx) | hx) | hx) | hx
    · exact lineBreak_space (ha.2 x hx)
    · simp at hx; rw [hx]; exact h2
    · exact lineBreak_space (hb.2 x hx)
    · simp at hx; rw [hx]; exact h2
    · exact lineBreak_space (hc.2 x hx)
  have hl : (splitLines (g ++ a ++ " ".toList ++ b ++ " ".toList ++ c)).getLast? =
      some (a ++ " ".toList ++ b ++ " ".toList ++ c) := by
    rcases hg with rfl | ⟨g', rfl⟩
    · rw [List.nil_append, splitLines, linesGo_none _ _ hlb, if_neg (by simp)]
      rfl
    · have := linesGo_last (a ++ " ".toList ++ b ++ " ".toList ++ c) (by simp) hlb _ g' rfl []
      rw [← this, splitLines]
      simp
  have hst : strip (a ++ " ".toList ++ b ++ " ".toList ++ c) = a ++ " ".toList ++ b ++ " ".toList ++ c := by
    have := strip_words a c (" ".toList ++ b ++ " ".toList) ha hc
    simpa using this
  have h1 : replaceFirst ' ' ['T'] (a ++ " ".toList ++ b ++ " ".toList ++ c) = a ++ ['T'] ++ b ++ ' ' :: c := by
    have := replaceFirst_cut ' ' ['T'] a (b ++ " ".toList ++ c) ha.not_mem_space
    simpa using this
  have h2 : replaceFirst ' ' [] (a ++ ['T'] ++ b ++ ' ' :: c) = a ++ ['T'] ++ b ++ c := by
    have := replaceFirst_cut ' ' [] (a ++ ['T'] ++ b) c (by
      have := ha.not_mem_space
      have := hb.not_mem_space
      simp_all)
    simpa using this
  rw [isoDate]
  simp only [last, hl]
  show Except.ok _ = _
  rw [hst, h1, h2]
  simp

theorem strip_sig (g l : Str) (hg : g = [] ∨ ∃ g', g = g' ++ "\n".toList) (h1 : strip l = l) (hl : l ≠ []) :
    ∃ g', (g' = [] ∨ ∃ g'', g' = g'' ++ "\n".toList) ∧ strip (g ++ l) = g' ++ l := by
  have hhead : l.dropWhile isSpace = l := by
    have hlen := congrArg List.length h1
    unfold strip stripBy at hlen
    have h2 := (List.dropWhile_suffix (l := (l.dropWhile isSpace).reverse) isSpace).length_le
    have h3 := List.dropWhile_suffix (l := l) isSpace
    rw [List.length_reverse] at hlen h2
    exact h3.eq_of_length (le_antisymm h3.length_le (by omega))
  have hlast : l.reverse.dropWhile isSpace = l.reverse := by
    unfold strip stripBy at h1
    rw [hhead] at h1
    simpa using congrArg List.reverse h1
  have hrev : ∀ g' : Str, ((g' ++ l).reverse.dropWhile isSpace).reverse = g' ++ l := by
    intro g'
    rw [List.reverse_append, List.dropWhile_append, hlast]
    have : l.reverse.isEmpty = false := by simpa using hl
    rw [this]
    simp
  refine ⟨g.dropWhile isSpace, ?_, ?_⟩
  · rcases hg with rfl | ⟨g', rfl⟩
    · left; rfl
    · rw [List.dropWhile_append]
      split
      · left; decide
      · right; exact ⟨_, rfl⟩
  · unfold strip stripBy
    rw [List.dropWhile_append, hhead]
    split
    · rename_i h
      rw [List.isEmpty_iff] at h
      rw [h, List.nil_append]
      exact hrev []
    · exact hrev _

/-! ## Branches -/

theorem pickBranch_detached (d : Str) (bs : List Str) (hd : '\n' ∉ d) (hb : ∀ b ∈ bs, '\n' ∉ b) :
    pickBranch ("* (".toList ++ d ++ ")".toList ++ (bs.map ("\n  ".toList ++ ·)).flatten) =
      if "master".toList ∈ bs then some "master".toList else bs.head? := by
  have e : (bs.map ("\n  ".toList ++ ·)) = (bs.map ("  ".toList ++ ·)).map ('\n' :: ·) := by
    rw [List.map_map]; rfl
  have hs := split_join '\n' (bs.map ("  ".toList ++ ·)) ("* (".toList ++ d ++ ")".toList) (by
    intro x hx
    rcases List.mem_cons.1 hx with rfl | hx
    · simpa using hd
    · obtain ⟨b, hb', rfl⟩ := List.mem_map.1 hx
      simpa using hb b hb')
  have hm : (bs.map ("  ".toList ++ ·)).map (·.drop 2) = bs := by
    rw [List.map_map]
    conv_rhs => rw [← List.map_id bs]
    rfl
  unfold pickBranch
  rw [e, hs]
  simp only
  rw [if_pos (show '(' ∈ "* (".toList ++ d ++ ")".toList by simp), hm]

end Snompy.Version
