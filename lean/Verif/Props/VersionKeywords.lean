import Verif.Lemmas.Version
import Mathlib.Data.List.Sort
import Mathlib.Order.Lex
import Mathlib.Data.List.Lex

/-!
# C77: version numbers of archives
-/

namespace Snompy.Props

open Snompy.Version

private theorem strLe_refl (a : Str) : strLe a a = true := by
  induction a with
  | nil => rfl
  | cons c cs ih => simp [strLe, ih]

private theorem strLe_total (a b : Str) : strLe a b = true ∨ strLe b a = true := by
  induction a generalizing b with
  | nil => left; simp [strLe]
  | cons c cs ih =>
    cases b with
    | nil => right; simp [strLe]
    | cons d ds =>
      simp only [strLe]
      rcases lt_trichotomy c.toNat d.toNat with h | h | h
      · left; simp [h]
      · simpa [h] using ih ds
      · right; simp [h]

private theorem strLe_trans {a b c : Str} (h1 : strLe a b = true) (h2 : strLe b c = true) : strLe a c = true := by
  induction a generalizing b c with
  | nil => simp [strLe]
  | cons x xs ih =>
    cases b with
    | nil => simp [strLe] at h1
    | cons y ys =>
      cases c with
      | nil => simp [strLe] at h2
      | cons z zs =>
        simp only [strLe] at h1 h2 ⊢
        rcases lt_trichotomy x.toNat y.toNat with hxy | hxy | hxy
        · rcases lt_trichotomy y.toNat z.toNat with hyz | hyz | hyz
          · simp [hxy.trans hyz]
          · simp [hyz ▸ hxy]
          · simp [hyz, hyz.not_gt] at h2
        · rcases lt_trichotomy y.toNat z.toNat with hyz | hyz | hyz
          · simp [hxy, hyz]
          · simp only [hxy, hyz, lt_irrefl, if_false] at h1 h2 ⊢
            exact ih h1 h2
          · simp [hyz, hyz.not_gt] at h2
        · simp [hxy, hxy.not_gt] at h1

/-- The order of `sorted` is the lexicographic order of lists of characters. -/
private theorem strLe_iff (a b : Str) : strLe a b = true ↔ a ≤ b := by
  induction a generalizing b with
  | nil => simp [strLe]
  | cons c cs ih =>
    cases b with
    | nil => simp [strLe]
    | cons d ds =>
      rw [List.cons_le_cons_iff]
      have hlt : ∀ a b : Char, a < b ↔ a.toNat < b.toNat := fun a b => by
        rw [Char.lt_def, UInt32.lt_iff_toNat_lt]; rfl
      simp only [strLe, hlt]
      rcases lt_trichotomy c.toNat d.toNat with h | h | h
      · simp [h]
      · have : c = d := Char.toNat_inj.1 h
        subst this
        simp [ih]
      · simp only [h, h.not_gt, if_false, if_true, Bool.false_eq_true, false_or, false_iff, not_and]
        rintro rfl
        exact absurd h (lt_irrefl _)

private theorem append_le (a b c : Str) : strLe (a ++ b) (a ++ c) = strLe b c := by
  induction a with
  | nil => rfl
  | cons x xs ih => simp [strLe, ih]

/-! ## Parsing the references -/

private theorem strip_ref {s : Str} (h : CleanRef s) : strip s = s := by
  apply stripBy_eq_self
  · obtain ⟨c, cs, rfl, h1, -⟩ := h.first
    simpa using h1
  · obtain ⟨cs, c, rfl, h1, -⟩ := h.last
    simpa using h1

private theorem strip_space_ref {s : Str} (h : CleanRef s) : strip (' ' :: s) = s := by
  have h1 := strip_ref h
  rw [strip, stripBy] at h1 ⊢
  rw [List.dropWhile_cons_of_pos (by decide)]
  exact h1

private theorem stripBy_cons (p : Char → Bool) (c : Char) (s : Str) (hc : p c = true) : stripBy p (c :: s) = stripBy p s := by
  rw [stripBy, stripBy, List.dropWhile_cons_of_pos hc]

private theorem stripBy_concat (p : Char → Bool) (c : Char) (s : Str) (hc : p c = true) (hs : ∃ x xs, s = x :: xs ∧ p x = false) :
    stripBy p (s ++ [c]) = stripBy p s := by
  obtain ⟨x, xs, rfl, hx⟩ := hs
  rw [stripBy, stripBy, List.cons_append, List.dropWhile_cons_of_neg (by simp [hx]),
    List.dropWhile_cons_of_neg (by simp [hx]), ← List.cons_append, List.reverse_append, List.reverse_singleton,
    List.singleton_append, List.dropWhile_cons_of_pos hc]

/-- The references joined by commas. -/
private def joined (r : Str) (rs : List Str) : Str := r ++ (rs.map (", ".toList ++ ·)).flatten

private theorem joined_last (r : Str) (rs : List Str) (h : ∀ x ∈ r :: rs, CleanRef x) :
    ∃ cs c, joined r rs = cs ++ [c] ∧ isSpace c = false ∧ c ≠ '(' ∧ c ≠ ')' := by
  rcases List.eq_nil_or_concat rs with rfl | ⟨l, x, rfl⟩
  · obtain ⟨cs, c, e, h'⟩ := (h r (by simp)).last
    exact ⟨cs, c, by simp [joined, e], h'⟩
  · obtain ⟨cs, c, e, h'⟩ := (h x (by simp)).last
    refine ⟨r ++ (l.map (", ".toList ++ ·)).flatten ++ ", ".toList ++ cs, c, ?_, h'⟩
    simp only [joined, e, List.concat_eq_append, List.map_append, List.map_cons, List.map_nil,
      List.flatten_append, List.flatten_cons, List.flatten_nil, List.append_nil, List.append_assoc]

private theorem refs_of_decoration (r : Str) (rs : List Str) (h : ∀ x ∈ r :: rs, CleanRef x) :
    (split (stripBy (fun c => c = '(' || c = ')') (strip (decoration r rs))) [',']).map strip = r :: rs := by
  obtain ⟨c0, cs0, e0, s0, p0, q0⟩ := (h r (by simp)).first
  obtain ⟨cs1, c1, e1, s1, p1, q1⟩ := joined_last r rs h
  have hj : ∃ x xs, joined r rs = x :: xs ∧ x = c0 := ⟨c0, _, by rw [joined, e0, List.cons_append], rfl⟩
  have h1 : strip (decoration r rs) = '(' :: (joined r rs ++ [')']) := by
    have e : decoration r rs = ' ' :: '(' :: (joined r rs ++ [')']) := by simp [decoration, joined]
    rw [e, strip, stripBy_cons _ _ _ (by decide)]
    apply stripBy_eq_self
    · simp; decide
    · rw [← List.cons_append, List.getLast?_concat]
      simp; decide
  have h2 : stripBy (fun c => c = '(' || c = ')') ('(' :: (joined r rs ++ [')'])) = joined r rs := by
    obtain ⟨x, xs, e, rfl⟩ := hj
    have hx : (fun c : Char => decide (c = '(') || decide (c = ')')) x = false := by simp [p0, q0]
    rw [stripBy_cons _ _ _ (by simp), stripBy_concat _ _ _ (by simp) ⟨x, xs, e, hx⟩]
    apply stripBy_eq_self
    · rw [e]; intro c hc; simp at hc; subst hc; exact hx
    · rw [e1, List.getLast?_concat]; intro c hc; simp at hc; subst hc; simp [p1, q1]
  have h3 : split (joined r rs) [','] = r :: rs.map (' ' :: ·) := by
    have e : joined r rs = r ++ ((rs.map (' ' :: ·)).map (',' :: ·)).flatten := by
      rw [joined, List.map_map]; rfl
    rw [e]
    apply split_join
    intro x hx
    rcases List.mem_cons.1 hx with rfl | hx
    · exact (h x (by simp)).comma
    · obtain ⟨y, hy, rfl⟩ := List.mem_map.1 hx
      have := (h y (by simp [hy])).comma
      simpa using this
  rw [h1, h2, h3, List.map_cons, strip_ref (h r (by simp)), List.map_map]
  congr 1
  conv_rhs => rw [← List.map_id rs]
  apply List.map_congr_left
  intro x hx
  exact strip_space_ref (h x (by simp [hx]))

private theorem mem_likelyTags (ext : DigitTable) (r : Str) (rs : List Str) (h : ∀ x ∈ r :: rs, CleanRef x) (t : Str) :
    t ∈ likelyTags ext (strip (decoration r rs)) ↔
      ("tag: ".toList ++ t ∈ r :: rs ∨
        (¬ ∃ t, "tag: ".toList ++ t ∈ r :: rs) ∧ t ∈ r :: rs ∧ t.any (isDigit ext) = true) := by
  have hmem : ∀ t, t ∈ (((r :: rs).dedup.filter (startsWith · "tag: ".toList)).map (·.drop "tag: ".toList.length)).dedup ↔
      "tag: ".toList ++ t ∈ r :: rs := by
    intro t
    rw [List.mem_dedup, List.mem_map]
    constructor
    · rintro ⟨x, hx, rfl⟩
      rw [List.mem_filter, List.mem_dedup] at hx
      obtain ⟨y, rfl⟩ := (startsWith_iff _ _).1 hx.2
      rw [List.drop_left]
      exact hx.1
    · intro ht
      refine ⟨_, ?_, List.drop_left⟩
      rw [List.mem_filter, List.mem_dedup]
      exact ⟨ht, (startsWith_iff _ _).2 ⟨t, rfl⟩⟩
  unfold likelyTags
  simp only [refs_of_decoration r rs h]
  by_cases hex : ∃ t, "tag: ".toList ++ t ∈ r :: rs
  · obtain ⟨u, hu⟩ := hex
    rw [if_neg, hmem]
    · exact ⟨.inl, fun h => h.resolve_right fun h' => h'.1 ⟨u, hu⟩⟩
    · rw [List.isEmpty_iff]
      intro he
      have := (hmem u).2 hu
      rw [he] at this
      simp at this
  · rw [if_pos]
    · rw [List.mem_filter, List.mem_dedup]
      exact ⟨fun h => .inr ⟨hex, h⟩, fun h => (h.resolve_left fun h' => hex ⟨t, h'⟩).2⟩
    · rw [List.isEmpty_iff, List.eq_nil_iff_forall_not_mem]
      exact fun t ht => hex ⟨t, (hmem t).1 ht⟩

/-- The first suitable element of the sorted list. -/
private theorem find_sorted (l : List Str) (P : Str → Bool) :
    (∃ t, (l.mergeSort strLe).find? P = some t ∧ t ∈ l ∧ P t = true ∧ ∀ u ∈ l, P u = true → strLe t u = true) ∨
      ((l.mergeSort strLe).find? P = none ∧ ∀ u ∈ l, P u = false) := by
  have hp := List.mergeSort_perm l strLe
  have hs : (l.mergeSort strLe).Pairwise fun a b => strLe a b = true :=
    List.pairwise_mergeSort (le := strLe) (fun _ _ _ h1 h2 => strLe_trans h1 h2)
      (fun a b => (Bool.or_eq_true _ _).mpr (strLe_total a b)) l
  cases hf : (l.mergeSort strLe).find? P with
  | none =>
    right
    refine ⟨rfl, fun u hu => ?_⟩
    have := List.find?_eq_none.1 hf u (hp.mem_iff.2 hu)
    simpa using this
  | some t =>
    left
    refine ⟨t, rfl, hp.mem_iff.1 (List.mem_of_find?_eq_some hf), List.find?_some hf, fun u hu hPu => ?_⟩
    obtain ⟨-, as, bs, e, hno⟩ := List.find?_eq_some_iff_append.1 hf
    have hu' := hp.mem_iff.2 hu
    rw [e, List.mem_append] at hu'
    rcases hu' with hu' | hu'
    · have := hno u hu'
      simp [hPu] at this
    · rcases List.mem_cons.1 hu' with rfl | hu'
      · exact strLe_refl u
      · rw [e, List.pairwise_append] at hs
        exact (List.pairwise_cons.1 hs.2.1).1 u hu'

private theorem candidate_iff (ext : DigitTable) (r : Str) (rs : List Str) (h : ∀ x ∈ r :: rs, CleanRef x) (pre v : Str) :
    Candidate ext (r :: rs) pre v ↔ pre ++ v ∈ likelyTags ext (strip (decoration r rs)) ∧
      (startsWith (pre ++ v) pre && digitFirst ext ((pre ++ v).drop pre.length)) = true := by
  rw [mem_likelyTags ext r rs h, Candidate, Bool.and_eq_true, startsWith_iff, List.drop_left]
  have hd : digitFirst ext v = true ↔ ∃ c cs, v = c :: cs ∧ isDigit ext c = true := by
    cases v <;> simp [digitFirst]
  rw [hd]
  constructor
  · rintro ⟨⟨c, cs, rfl, hc⟩, h2⟩
    refine ⟨?_, ⟨_, rfl⟩, c, cs, rfl, hc⟩
    exact h2.imp id fun h2 => ⟨h2.1, h2.2, by simp [hc]⟩
  · rintro ⟨h2, -, hd⟩
    exact ⟨hd, h2.imp id fun h2 => ⟨h2.1, h2.2.1⟩⟩

/-- In an archive the version number is the first candidate in the order of the characters, without uncommitted changes, with the
full hash and the date of the commit; without a candidate it is `0+unknown`. -/
theorem C77_pick (ext : DigitTable) (kw : Keywords) (pre r full sig day time zone : Str) (rs : List Str)
    (hr : ∀ x ∈ r :: rs, CleanRef x) (hw : Word day ∧ Word time ∧ Word zone)
    (hsig : sig = [] ∨ ∃ g, sig = g ++ "\n".toList)
    (hrefs : kw.refnames = some (decoration r rs)) (hfull : kw.full = some full)
    (hdate : kw.date = some (sig ++ day ++ " ".toList ++ time ++ " ".toList ++ zone)) :
    (∃ v, Candidate ext (r :: rs) pre v ∧ (∀ w, Candidate ext (r :: rs) pre w → v ≤ w) ∧
      versionsFromKeywords ext kw pre =
        .ok ⟨v, some (strip full), some false, none, some (day ++ "T".toList ++ time ++ zone)⟩) ∨
    ((∀ v, ¬ Candidate ext (r :: rs) pre v) ∧
      versionsFromKeywords ext kw pre =
        .ok ⟨"0+unknown".toList, some (strip full), some false, some "no suitable tags".toList, none⟩) := by
  have hf : startsWith (strip (decoration r rs)) "$Format".toList = false := by
    have e : ∃ u, strip (decoration r rs) = '(' :: u := by
      have e : decoration r rs = ' ' :: '(' :: (joined r rs ++ [')']) := by simp [decoration, joined]
      refine ⟨joined r rs ++ [')'], ?_⟩
      rw [e, strip, stripBy_cons _ _ _ (by decide)]
      apply stripBy_eq_self
      · simp; decide
      · rw [← List.cons_append, List.getLast?_concat]
        simp; decide
    obtain ⟨u, e⟩ := e
    rw [Bool.eq_false_iff, Ne, startsWith_iff, e]
    rintro ⟨t, ht⟩
    have := congrArg List.head? ht
    simp at this
  simp only [versionsFromKeywords, keywordsDate, hrefs, hdate, isoDate_words _ _ _ _ hsig hw.1 hw.2.1 hw.2.2, hf, bind, Except.bind, pure,
    Except.pure, Bool.false_eq_true, if_false, hfull, key]
  rcases find_sorted (likelyTags ext (strip (decoration r rs)))
      (fun ref => startsWith ref pre && digitFirst ext (ref.drop pre.length)) with ⟨t, h1, h2, h3, h4⟩ | ⟨h1, h2⟩
  · left
    obtain ⟨v, rfl⟩ := (startsWith_iff _ _).1 (Bool.and_eq_true_iff.1 h3).1
    refine ⟨v, (candidate_iff ext r rs hr pre v).2 ⟨h2, h3⟩, fun w hw => ?_, ?_⟩
    · obtain ⟨hw1, hw2⟩ := (candidate_iff ext r rs hr pre w).1 hw
      rw [← strLe_iff, ← append_le pre]
      exact h4 _ hw1 hw2
    · rw [pickRef, h1]
      simp only [List.drop_left]
  · right
    refine ⟨fun v hv => ?_, ?_⟩
    · obtain ⟨hv1, hv2⟩ := (candidate_iff ext r rs hr pre v).1 hv
      rw [h2 _ hv1] at hv2
      simp at hv2
    · rw [pickRef, h1]

/-- The order in which git lists the references, and repetitions, do not matter. -/
theorem C77_order (ext : DigitTable) (kw kw' : Keywords) (pre r r' full sig day time zone : Str) (rs rs' : List Str)
    (hr : ∀ x ∈ r :: rs, CleanRef x) (hsame : ∀ x, x ∈ r :: rs ↔ x ∈ r' :: rs') (hw : Word day ∧ Word time ∧ Word zone)
    (hsig : sig = [] ∨ ∃ g, sig = g ++ "\n".toList)
    (hrefs : kw.refnames = some (decoration r rs)) (hrefs' : kw'.refnames = some (decoration r' rs'))
    (hfull : kw.full = some full) (hfull' : kw'.full = some full)
    (hdate : kw.date = some (sig ++ day ++ " ".toList ++ time ++ " ".toList ++ zone))
    (hdate' : kw'.date = some (sig ++ day ++ " ".toList ++ time ++ " ".toList ++ zone)) :
    versionsFromKeywords ext kw pre = versionsFromKeywords ext kw' pre := by
  have hc : ∀ v, Candidate ext (r :: rs) pre v ↔ Candidate ext (r' :: rs') pre v := by
    intro v
    unfold Candidate
    simp only [hsame]
  rcases C77_pick ext kw pre r full sig day time zone rs hr hw hsig hrefs hfull hdate with ⟨v, h1, h2, h3⟩ | ⟨h1, h2⟩ <;>
  rcases C77_pick ext kw' pre r' full sig day time zone rs' (fun x hx => hr x ((hsame x).2 hx)) hw hsig hrefs' hfull' hdate' with
    ⟨v', h1', h2', h3'⟩ | ⟨h1', h2'⟩
  · have : v = v' := List.le_antisymm (h2 v' ((hc v').2 h1')) (h2' v ((hc v).1 h1))
    rw [h3, h3', this]
  · exact absurd ((hc v).1 h1) (h1' v)
  · exact absurd ((hc v').2 h1') (h1 v')
  · rw [h2, h2']

/-- Whatever the keywords are, a version number from keywords begins with a digit or is `0+unknown`. -/
theorem C77_digit (ext : DigitTable) (kw : Keywords) (pre : Str) (i : Info) (h : versionsFromKeywords ext kw pre = .ok i) :
    (∃ c cs, i.version = c :: cs ∧ isDigit ext c = true) ∨
      (i.version = "0+unknown".toList ∧ i.error = some "no suitable tags".toList) := by
  unfold versionsFromKeywords at h
  split at h
  · simp at h
  · cases hd : keywordsDate kw.date with
    | error e => rw [hd] at h; simp [bind, Except.bind] at h
    | ok date =>
      rw [hd] at h
      simp only [bind, Except.bind] at h
      split at h
      · simp at h
      · split at h
        · rename_i ref hf
          left
          rw [pickRef] at hf
          have := List.find?_some hf
          rw [Bool.and_eq_true] at this
          replace this := this.2
          cases hk : key "full" kw.full with
          | error e => rw [hk] at h; simp at h
          | ok f =>
            rw [hk] at h
            simp only [pure, Except.pure, Except.ok.injEq] at h
            rw [← h]
            revert this
            cases ref.drop pre.length with
            | nil => intro h; simp [digitFirst] at h
            | cons c cs => intro h; exact ⟨c, cs, rfl, h⟩
        · right
          cases hk : key "full" kw.full with
          | error e => rw [hk] at h; simp at h
          | ok f =>
            rw [hk] at h
            simp only [pure, Except.pure, Except.ok.injEq] at h
            rw [← h]
            exact ⟨rfl, rfl⟩

/-- An empty date makes the function raise `IndexError`, whatever the references are. -/
theorem C77_empty_date (ext : DigitTable) (kw : Keywords) (pre : Str) (h : kw.refnames ≠ none) (hd : kw.date = some []) :
    versionsFromKeywords ext kw pre = .error .indexError := by
  obtain ⟨x, hx⟩ := Option.ne_none_iff_exists'.1 h
  simp only [versionsFromKeywords, hx, hd]
  rfl

/-- References must not end with a parenthesis: of the only tag `1(a)` the closing one is lost. -/
theorem C77_paren : versionsFromKeywords (fun _ => none)
    ⟨some " (tag: 1(a))".toList, some "abc".toList, some "2022-01-01 10:00:00 +0100".toList⟩ [] =
      .ok ⟨"1(a".toList, some "abc".toList, some false, none, some "2022-01-01T10:00:00+0100".toList⟩ := by
  have h1 : isoDate "2022-01-01 10:00:00 +0100".toList = .ok "2022-01-01T10:00:00+0100".toList := by decide
  have h2 : strip " (tag: 1(a))".toList = "(tag: 1(a))".toList := by decide
  have h3 : stripBy (fun c => c = '(' || c = ')') "(tag: 1(a))".toList = "tag: 1(a".toList := by decide
  have h4 : split "tag: 1(a".toList [','] = ["tag: 1(a".toList] := split_char_none _ _ (by decide)
  have h5 : likelyTags (fun _ => none) "(tag: 1(a))".toList = ["1(a".toList] := by
    simp only [likelyTags, h3, h4]
    decide
  have h6 : pickRef (fun _ => none) ["1(a".toList] [] = some "1(a".toList := by
    rw [pickRef, List.mergeSort_singleton]
    decide
  simp only [versionsFromKeywords, keywordsDate, h1, h2, h5, h6, key, bind, Except.bind, pure, Except.pure]
  decide

/-- The hypotheses of `C77_pick` and `C77_order` can be met. -/
example : ∃ (kw : Keywords) (r full sig day time zone : Str) (rs : List Str), (∀ x ∈ r :: rs, CleanRef x) ∧
    (Word day ∧ Word time ∧ Word zone) ∧ (sig = [] ∨ ∃ g, sig = g ++ "\n".toList) ∧ kw.refnames = some (decoration r rs) ∧ kw.full = some full ∧
    kw.date = some (sig ++ day ++ " ".toList ++ time ++ " ".toList ++ zone) ∧
    Candidate (fun _ => none) (r :: rs) [] "1.0".toList := by
  refine ⟨⟨some (decoration "HEAD -> master".toList ["tag: 1.0".toList]), some "abc".toList,
    some ("gpg\n".toList ++ "2022-01-01".toList ++ " ".toList ++ "10:00:00".toList ++ " ".toList ++ "+0100".toList)⟩, "HEAD -> master".toList,
    "abc".toList, "gpg\n".toList, "2022-01-01".toList, "10:00:00".toList, "+0100".toList, ["tag: 1.0".toList], ?_, ?_,
    .inr ⟨"gpg".toList, by decide⟩, rfl, rfl, rfl, ?_⟩
  · intro x hx
    rcases List.mem_cons.1 hx with rfl | hx
    · exact ⟨by decide, ⟨'H', "EAD -> master".toList, by decide, by decide, by decide, by decide⟩,
        ⟨"HEAD -> maste".toList, 'r', by decide, by decide, by decide, by decide⟩⟩
    · rw [List.mem_singleton] at hx
      subst hx
      exact ⟨by decide, ⟨'t', "ag: 1.0".toList, by decide, by decide, by decide, by decide⟩,
        ⟨"tag: 1.".toList, '0', by decide, by decide, by decide, by decide⟩⟩
  · refine ⟨⟨?_, ?_⟩, ⟨?_, ?_⟩, ⟨?_, ?_⟩⟩ <;> decide
  · exact ⟨⟨'1', ".0".toList, by decide, by decide⟩, .inl (by decide)⟩

end Snompy.Props
