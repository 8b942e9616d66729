import Verif.Lemmas.Version

/-!
# C81: keywords read from a file, and versions from names of directories
-/

namespace Snompy.Props

open Snompy.Version

/-! ## Keywords in a file -/

private theorem quotedGo_skip (a b : Str) (h : '=' ∉ a) : quotedGo (a ++ b) = quotedGo b := by
  induction a with
  | nil => rfl
  | cons c cs ih =>
    have hc : c ≠ '=' := fun e => h (by simp [e])
    rw [List.cons_append, quotedGo, if_neg hc]
    exact ih fun hm => h (by simp [hm])

private theorem quotedGo_line (v : Str) (h : '\n' ∉ v) : quotedGo ("= \"".toList ++ v ++ "\"\n".toList) = some v := by
  have e : "= \"".toList ++ v ++ "\"\n".toList = '=' :: ' ' :: '"' :: (v ++ ['"'] ++ ['\n']) := by simp
  have hs : isSpace ' ' = true := by decide
  have hq : isSpace '"' = false := by decide
  have ht : (v ++ ['"'] ++ ['\n']).takeWhile (· ≠ '\n') = v ++ ['"'] := by
    rw [List.takeWhile_append_of_pos]
    · simp
    · intro c hc
      rcases List.mem_append.1 hc with hc | hc
      · simpa using fun e : c = '\n' => h (e ▸ hc)
      · rw [List.mem_singleton] at hc; subst hc; decide
  have hr : rsplit '"' (v ++ ['"']) = some (v, []) := (rsplit_iff _ _ _ _).2 ⟨rfl, by simp⟩
  rw [e, quotedGo, if_pos rfl, List.dropWhile_cons_of_pos hs, List.dropWhile_cons_of_neg (by simp [hq])]
  simp only [ht, hr]

private theorem quotedGo_file (name : String) (hn : '=' ∉ name.toList) (v : Str) (h : '\n' ∉ v) :
    quotedGo (assignment name v) = some v := by
  have e : assignment name v = ("    ".toList ++ name.toList ++ " ".toList) ++ ("= \"".toList ++ v ++ "\"\n".toList) := by
    simp [assignment]
  rw [e, quotedGo_skip, quotedGo_line v h]
  simp [hn]

private theorem strip_file (name : String) (c : Char) (n : Str) (hname : name.toList = c :: n) (hc : isSpace c = false)
    (v : Str) : strip (assignment name v) = name.toList ++ (" = \"".toList ++ v ++ ['"']) := by
  have e : assignment name v = [' ', ' ', ' ', ' '] ++ (c :: (n ++ " = \"".toList ++ v ++ ['"', '\n'])) := by
    simp [assignment, hname]
  have hs : ∀ x ∈ [' ', ' ', ' ', ' '], isSpace x = true := by decide
  have hn : isSpace '\n' = true := by decide
  have hq : isSpace '"' = false := by decide
  rw [e, strip, stripBy, List.dropWhile_append_of_pos hs, List.dropWhile_cons_of_neg (by simp [hc])]
  have e2 : (c :: (n ++ " = \"".toList ++ v ++ ['"', '\n'])).reverse =
      '\n' :: '"' :: (c :: (n ++ " = \"".toList ++ v)).reverse := by simp
  rw [e2, List.dropWhile_cons_of_pos hn, List.dropWhile_cons_of_neg (by simp [hq]), hname]
  simp

private theorem step_other (kw : Keywords) (l : Str) (h : ∀ p ∈ ["git_refnames =", "git_full =", "git_date ="],
    startsWith (strip l) p.toList = false) : keywordStep kw l = kw := by
  have h1 := h "git_refnames =" (by simp)
  have h2 := h "git_full =" (by simp)
  have h3 := h "git_date =" (by simp)
  simp only [keywordStep, h1, h2, h3, Bool.false_eq_true, if_false]

private theorem fold_other (ls : List Str) (kw : Keywords) (h : ∀ l ∈ ls, ∀ p ∈ ["git_refnames =", "git_full =", "git_date ="],
    startsWith (strip l) p.toList = false) : ls.foldl keywordStep kw = kw := by
  induction ls generalizing kw with
  | nil => rfl
  | cons l ls ih =>
    rw [List.foldl_cons, step_other kw l (h l (by simp))]
    exact ih kw fun x hx => h x (by simp [hx])

private theorem step_refnames (kw : Keywords) (v : Str) (h : '\n' ∉ v) :
    keywordStep kw (assignment "git_refnames" v) = { kw with refnames := some v } := by
  have hs := strip_file "git_refnames" 'g' _ rfl (by decide) v
  have hq := quotedGo_file "git_refnames" (by decide) v h
  have h1 : startsWith (strip (assignment "git_refnames" v)) "git_refnames =".toList = true := by rw [hs]; rfl
  have h2 : startsWith (strip (assignment "git_refnames" v)) "git_full =".toList = false := by rw [hs]; rfl
  have h3 : startsWith (strip (assignment "git_refnames" v)) "git_date =".toList = false := by rw [hs]; rfl
  simp only [keywordStep, h1, h2, h3, hq, Bool.false_eq_true, if_false, if_true, Option.some_or]

private theorem step_full (kw : Keywords) (v : Str) (h : '\n' ∉ v) :
    keywordStep kw (assignment "git_full" v) = { kw with full := some v } := by
  have hs := strip_file "git_full" 'g' _ rfl (by decide) v
  have hq := quotedGo_file "git_full" (by decide) v h
  have h1 : startsWith (strip (assignment "git_full" v)) "git_refnames =".toList = false := by rw [hs]; rfl
  have h2 : startsWith (strip (assignment "git_full" v)) "git_full =".toList = true := by rw [hs]; rfl
  have h3 : startsWith (strip (assignment "git_full" v)) "git_date =".toList = false := by rw [hs]; rfl
  simp only [keywordStep, h1, h2, h3, hq, Bool.false_eq_true, if_false, if_true, Option.some_or]

private theorem step_date (kw : Keywords) (v : Str) (h : '\n' ∉ v) :
    keywordStep kw (assignment "git_date" v) = { kw with date := some v } := by
  have hs := strip_file "git_date" 'g' _ rfl (by decide) v
  have hq := quotedGo_file "git_date" (by decide) v h
  have h1 : startsWith (strip (assignment "git_date" v)) "git_refnames =".toList = false := by rw [hs]; rfl
  have h2 : startsWith (strip (assignment "git_date" v)) "git_full =".toList = false := by rw [hs]; rfl
  have h3 : startsWith (strip (assignment "git_date" v)) "git_date =".toList = true := by rw [hs]; rfl
  simp only [keywordStep, h1, h2, h3, hq, Bool.false_eq_true, if_false, if_true, Option.some_or]

/-- Reading the keywords from the file finds the three strings, whatever they are and whatever else is in the file. -/
theorem C81_keywords (a b c d : List Str) (refnames full date : Str) (h1 : '\n' ∉ refnames) (h2 : '\n' ∉ full)
    (h3 : '\n' ∉ date)
    (ho : ∀ l ∈ a ++ b ++ c ++ d, ∀ p ∈ ["git_refnames =", "git_full =", "git_date ="],
      startsWith (strip l) p.toList = false) :
    getKeywords (some (a ++ assignment "git_refnames" refnames :: (b ++ assignment "git_full" full ::
      (c ++ assignment "git_date" date :: d)))) = ⟨some refnames, some full, some date⟩ := by
  have o : ∀ (ls : List Str) (kw : Keywords), (∀ l ∈ ls, l ∈ a ++ b ++ c ++ d) → ls.foldl keywordStep kw = kw :=
    fun ls kw h => fold_other ls kw fun l hl => ho l (h l hl)
  unfold getKeywords
  simp only [Option.getD_some, List.foldl_append, List.foldl_cons]
  rw [o a _ (fun l hl => by simp [hl]), step_refnames _ _ h1, o b _ (fun l hl => by simp [hl]), step_full _ _ h2,
    o c _ (fun l hl => by simp [hl]), step_date _ _ h3, o d _ (fun l hl => by simp [hl])]

/-- A file that cannot be opened has no keywords, and then there is no version from keywords. -/
theorem C81_no_file (ext : DigitTable) (pre : Str) : versionsFromKeywords ext (getKeywords none) pre = .error .notThisMethod := rfl

/-- The lines of the file itself: in the working tree, reading it gives what `get_keywords` returns there. -/
example : getKeywords (some ["def get_keywords():\n".toList,
    "    \"\"\"Get the keywords needed to look up the version information.\"\"\"\n".toList,
    "    git_refnames = \"$Format:%d$\"\n".toList, "    git_full = \"$Format:%H$\"\n".toList,
    "    git_date = \"$Format:%ci$\"\n".toList,
    "    keywords = {\"refnames\": git_refnames, \"full\": git_full, \"date\": git_date}\n".toList,
    "    return keywords\n".toList]) = keywordsInTree := by
  decide

/-! ## Names of directories -/

private theorem basename_cut (a b : Str) (h : '/' ∉ b) : basename (a ++ '/' :: b) = b := by
  have hp : ∀ x ∈ b.reverse, decide (x ≠ '/') = true := fun x hx => by
    simpa using fun e : x = '/' => h (e ▸ List.mem_reverse.1 hx)
  have e : (a ++ '/' :: b).reverse = b.reverse ++ '/' :: a.reverse := by simp
  rw [basename, e, List.takeWhile_append_of_pos hp, List.takeWhile_cons_of_neg (by simp)]
  simp

private theorem dirname_cut (a b : Str) (h : '/' ∉ b) (ha : a ≠ [] ∧ a.getLast? ≠ some '/') : dirname (a ++ '/' :: b) = a := by
  have hp : ∀ x ∈ b.reverse, decide (x ≠ '/') = true := fun x hx => by
    simpa using fun e : x = '/' => h (e ▸ List.mem_reverse.1 hx)
  have e : (a ++ '/' :: b).reverse = b.reverse ++ '/' :: a.reverse := by simp
  obtain ⟨as, x, rfl⟩ : ∃ as x, a = as ++ [x] := ⟨a.dropLast, a.getLast ha.1, (List.dropLast_append_getLast ha.1).symm⟩
  have hx : x ≠ '/' := by simpa using ha.2
  rw [dirname, e, List.dropWhile_append_of_pos hp, List.dropWhile_cons_of_neg (by simp)]
  simp [hx]

/-- The version number is what follows the prefix in the name of the first of three directories, from the innermost, whose
name begins with the prefix; if none does, there is no version. -/
theorem C81_parentdir (pre top d2 d1 d0 : Str) (h0 : '/' ∉ d0) (h1 : '/' ∉ d1) (h2 : '/' ∉ d2)
    (hd1 : d1 ≠ []) (hd2 : d2 ≠ []) :
    let root := top ++ '/' :: d2 ++ '/' :: d1 ++ '/' :: d0
    (∀ v, d0 = pre ++ v → versionsFromParentdir pre root = .ok ⟨v, none, some false, none, none⟩) ∧
    (∀ v, ¬ pre <+: d0 → d1 = pre ++ v → versionsFromParentdir pre root = .ok ⟨v, none, some false, none, none⟩) ∧
    (∀ v, ¬ pre <+: d0 → ¬ pre <+: d1 → d2 = pre ++ v →
      versionsFromParentdir pre root = .ok ⟨v, none, some false, none, none⟩) ∧
    (¬ pre <+: d0 → ¬ pre <+: d1 → ¬ pre <+: d2 → versionsFromParentdir pre root = .error .notThisMethod) := by
  intro root
  have hlast : ∀ (a d : Str), '/' ∉ d → d ≠ [] → (a ++ '/' :: d) ≠ [] ∧ (a ++ '/' :: d).getLast? ≠ some '/' := by
    intro a d hs hd
    refine ⟨by simp, ?_⟩
    rw [List.getLast?_append_of_ne_nil _ (by simp), List.getLast?_cons_of_ne_nil hd]
    exact fun hm => hs (List.mem_of_getLast? hm)
  have b0 : basename root = d0 := basename_cut _ _ h0
  have p0 : dirname root = top ++ '/' :: d2 ++ '/' :: d1 := dirname_cut _ _ h0 (hlast _ _ h1 hd1)
  have b1 : basename (top ++ '/' :: d2 ++ '/' :: d1) = d1 := basename_cut _ _ h1
  have p1 : dirname (top ++ '/' :: d2 ++ '/' :: d1) = top ++ '/' :: d2 := dirname_cut _ _ h1 (hlast _ _ h2 hd2)
  have b2 : basename (top ++ '/' :: d2) = d2 := basename_cut _ _ h2
  have yes : ∀ v, startsWith (pre ++ v) pre = true := fun v => (startsWith_iff _ _).2 ⟨v, rfl⟩
  have no : ∀ d, ¬ pre <+: d → startsWith d pre = false := fun d hd => by
    rw [Bool.eq_false_iff]
    intro h
    obtain ⟨t, ht⟩ := (startsWith_iff _ _).1 h
    exact hd ⟨t, ht⟩
  simp only [versionsFromParentdir, parentdirGo, b0, p0, b1, p1, b2]
  refine ⟨?_, ?_, ?_, ?_⟩
  · rintro v rfl
    rw [if_pos (yes v)]
    simp
  · rintro v n0 rfl
    rw [no _ n0, if_neg (by simp), if_pos (yes v)]
    simp
  · rintro v n0 n1 rfl
    rw [no _ n0, if_neg (by simp), no _ n1, if_neg (by simp), if_pos (yes v)]
    simp
  · intro n0 n1 n2
    rw [no _ n0, if_neg (by simp), no _ n1, if_neg (by simp), no _ n2, if_neg (by simp)]

example : versionsFromParentdir "snompy-".toList "/tmp/snompy-0.1/snompy".toList =
    .ok ⟨"0.1".toList, none, some false, none, none⟩ := by decide

end Snompy.Props
