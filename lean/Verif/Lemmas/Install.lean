import Verif.Model.Install
import Verif.Spec.Install

/-!
# Lemmas about the installer: lines, fields and the reader of `setup.cfg`
-/

namespace Snompy.Version

/-! ## Reading text -/

theorem readText_append (a b : Str) (h : a.getLast? = some '\r' → b.head? ≠ some '\n') :
    readText (a ++ b) = readText a ++ readText b := by
  induction a using readText.induct with
  | case1 t ih =>
    rw [List.cons_append, List.cons_append, readText, ih, readText, List.cons_append]
    rcases t with _ | ⟨c, t⟩
    · simp
    · simpa [List.getLast?_cons_cons] using h
  | case2 t h' ih =>
    rcases t with _ | ⟨c, t⟩
    · rcases b with _ | ⟨d, b⟩
      · simp [readText]
      · have hd : d ≠ '\n' := by simpa using h
        rw [List.cons_append, List.nil_append, readText]
        · simp [readText]
        · intro t' e; exact hd (by injection e)
    · have hc : c ≠ '\n' := fun e => h' t (by rw [e])
      rw [List.cons_append, List.cons_append, readText, readText, ← List.cons_append, ih]
      · simp
      · simpa [List.getLast?_cons_cons] using h
      · intro t' e; exact hc (by injection e)
      · intro t' e; exact hc (by injection e)
  | case3 c t h1 h2 ih =>
    rw [List.cons_append, readText, readText, ih]
    · simp
    · rcases t with _ | ⟨d, t⟩
      · simp
      · simpa [List.getLast?_cons_cons] using h
    all_goals first | exact h1 | exact h2 | exact fun _ e => absurd e h2
  | case4 => simp [readText]

/-- The newline that completes a carriage return at the end of a text. -/
theorem readText_crlf (a b : Str) (h : a.getLast? = some '\r') : readText (a ++ '\n' :: b) = readText a ++ readText b := by
  obtain ⟨u, rfl⟩ : ∃ u, a = u ++ ['\r'] := by
    rw [List.getLast?_eq_some_iff] at h; exact h
  rw [List.append_assoc, readText_append u _ (by simp), readText_append u ['\r'] (by simp)]
  simp [readText]

theorem getLast_readText (a : Str) : (readText a).getLast? = a.getLast?.map fun c => if c = '\r' then '\n' else c := by
  rcases List.eq_nil_or_concat a with rfl | ⟨u, c, rfl⟩
  · simp [readText]
  · by_cases hu : u.getLast? = some '\r' ∧ c = '\n'
    · obtain ⟨hu, rfl⟩ := hu
      rw [List.concat_eq_append, readText_crlf u [] hu]
      obtain ⟨v, rfl⟩ := List.getLast?_eq_some_iff.1 hu
      rw [readText_append v ['\r'] (by simp)]
      simp [readText]
    · rw [List.concat_eq_append, readText_append u [c] (by simpa using hu)]
      by_cases hc : c = '\r'
      · subst hc; simp [readText]
      · simp [readText, hc]

theorem complete_readText {a : Str} (h : Complete a) : readText a = [] ∨ (readText a).getLast? = some '\n' := by
  rcases ha : a.getLast? with _ | c
  · left; rw [List.getLast?_eq_none_iff] at ha; subst ha; simp [readText]
  · right
    rw [getLast_readText, ha]
    rcases h c (by simp [ha]) with rfl | rfl <;> simp

/-! ## Lines -/

theorem linesOf_ne_nil (acc s : Str) (l : Str) (h : l ∈ linesOf acc s) : l ≠ [] := by
  induction s generalizing acc with
  | nil =>
    unfold linesOf at h
    split at h
    · simp at h
    · rename_i h'; simp at h; subst h; simpa using h'
  | cons c t ih =>
    unfold linesOf at h
    split at h
    · rcases List.mem_cons.1 h with rfl | h
      · simp
      · exact ih _ h
    · exact ih _ h

theorem linesOf_append (acc a b : Str) (h : (acc.reverse ++ a) = [] ∨ (a.getLast? = some '\n')) :
    linesOf acc (a ++ b) = linesOf acc a ++ linesOf [] b := by
  induction a generalizing acc with
  | nil =>
    rcases h with h | h
    · have : acc = [] := by simpa using h
      subst this; simp [linesOf]
    · simp at h
  | cons c t ih =>
    have h' : (c :: t).getLast? = some '\n' := by
      rcases h with h | h
      · simp at h
      · exact h
    rw [List.cons_append]
    by_cases hc : c = '\n'
    · rw [linesOf, linesOf, if_pos hc, if_pos hc, ih, List.cons_append]
      rcases t with _ | ⟨d, t⟩
      · simp
      · right; simpa [List.getLast?_cons_cons] using h'
    · rw [linesOf, linesOf, if_neg hc, if_neg hc, ih]
      rcases t with _ | ⟨d, t⟩
      · exact absurd (by simpa using h') hc
      · right; simpa [List.getLast?_cons_cons] using h'

theorem linesOf_cut (acc l b : Str) (h : ∀ c ∈ l, c ≠ '\n') :
    linesOf acc (l ++ '\n' :: b) = (acc.reverse ++ l ++ ['\n']) :: linesOf [] b := by
  induction l generalizing acc with
  | nil => simp [linesOf]
  | cons c t ih =>
    rw [List.cons_append, linesOf, if_neg (h c (by simp)), ih _ fun c hc => h c (by simp [hc])]
    simp

/-- A text whose last line is not complete. -/
theorem linesOf_last (acc a : Str) (h : (acc.reverse ++ a) ≠ []) (ha : a.getLast? ≠ some '\n') (hacc : '\n' ∉ acc) :
    ∃ ls l, linesOf acc a = ls ++ [l] ∧ l ≠ [] ∧ (∀ b, linesOf acc (a ++ '\n' :: b) = ls ++ (l ++ ['\n']) :: linesOf [] b) := by
  induction a generalizing acc with
  | nil =>
    refine ⟨[], acc.reverse, ?_, by simpa using h, fun b => ?_⟩
    · have : acc ≠ [] := by simpa using h
      simp [linesOf, this]
    · simp [linesOf]
  | cons c t ih =>
    by_cases hc : c = '\n'
    · subst hc
      have ht : t ≠ [] := by rintro rfl; simp at ha
      obtain ⟨ls, l, h1, h2, h3⟩ := ih [] (by simpa using ht)
        (by rcases t with _ | ⟨d, t⟩
            · simp
            · simpa [List.getLast?_cons_cons] using ha) (by simp)
      refine ⟨(acc.reverse ++ ['\n']) :: ls, l, by simp [linesOf, h1], h2, fun b => by simp [linesOf, h3]⟩
    · obtain ⟨ls, l, h1, h2, h3⟩ := ih (c :: acc) (by simp)
        (by rcases t with _ | ⟨d, t⟩
            · simp
            · simpa [List.getLast?_cons_cons] using ha) (by simp [hacc, Ne.symm hc])
      exact ⟨ls, l, by rw [linesOf, if_neg hc, h1], h2, fun b => by rw [List.cons_append, linesOf, if_neg hc, h3]⟩

theorem readText_split (t a r : Str) (h : readText t = a ++ r) :
    ∃ a' r', t = a' ++ r' ∧ readText a' = a ∧ readText r' = r := by
  induction t using readText.induct generalizing a with
  | case1 t ih =>
    rcases a with _ | ⟨x, a⟩
    · exact ⟨[], _, rfl, by simp [readText], h⟩
    · rw [readText, List.cons_append, List.cons.injEq] at h
      obtain ⟨a', r', rfl, h1, h2⟩ := ih a h.2
      exact ⟨'\r' :: '\n' :: a', r', rfl, by rw [readText, h1, h.1], h2⟩
  | case2 t h' ih =>
    rcases a with _ | ⟨x, a⟩
    · exact ⟨[], _, rfl, by simp [readText], h⟩
    · rw [readText.eq_2 _ h', List.cons_append, List.cons.injEq] at h
      obtain ⟨a', r', rfl, h1, h2⟩ := ih a h.2
      refine ⟨'\r' :: a', r', rfl, ?_, h2⟩
      rw [readText, h1, h.1]
      intro t' e; exact h' (t' ++ r') (by rw [e]; rfl)
  | case3 c t h1 h2 ih =>
    rcases a with _ | ⟨x, a⟩
    · exact ⟨[], _, rfl, by simp [readText], h⟩
    · rw [readText.eq_3 _ _ h1 h2, List.cons_append, List.cons.injEq] at h
      obtain ⟨a', r', rfl, h3, h4⟩ := ih a h.2
      refine ⟨c :: a', r', rfl, ?_, h4⟩
      rw [readText, h3, h.1]
      · exact fun _ e => absurd e h2
      · exact h2
  | case4 =>
    have : a = [] ∧ r = [] := by simpa [readText] using h
    obtain ⟨rfl, rfl⟩ := this
    exact ⟨[], [], rfl, by simp [readText], by simp [readText]⟩

theorem readText_plain_id (t : Str) (h : '\n' ∉ readText t) : readText t = t ∧ ∀ c ∈ t, ¬ IsEol c := by
  induction t using readText.induct with
  | case1 t ih => simp [readText] at h
  | case2 t h' ih => rw [readText.eq_2 _ h'] at h; simp at h
  | case3 c t h1 h2 ih =>
    rw [readText.eq_3 _ _ h1 h2] at h ⊢
    have h' : '\n' ≠ c ∧ '\n' ∉ readText t := by simpa using h
    refine ⟨by rw [(ih h'.2).1], fun d hd => ?_⟩
    rcases List.mem_cons.1 hd with rfl | hd
    · rintro (e | e)
      · exact h'.1 e.symm
      · exact h2 e
    · exact (ih h'.2).2 d hd
  | case4 => simp [readText]

theorem head_readText (t : Str) (c : Char) (h : c ∈ t.head?) (hn : ∀ d ∈ (readText t).head?, d = '\n') : IsEol c := by
  rcases t with _ | ⟨d, t⟩
  · simp at h
  · have hd : d = c := by simpa using h
    subst hd
    by_cases hr : d = '\r'
    · exact .inr hr
    · rw [readText.eq_3 _ _ (fun _ e => absurd e hr) hr] at hn
      exact .inl (hn d (by simp))

theorem mem_linesOf (acc s l : Str) (h : l ∈ linesOf acc s) (hacc : '\n' ∉ acc) :
    ∃ a body b, acc.reverse ++ s = a ++ body ++ b ∧ (l = body ∨ l = body ++ ['\n']) ∧ '\n' ∉ body ∧
      (∀ c ∈ a.getLast?, c = '\n') ∧ ∀ c ∈ b.head?, c = '\n' := by
  induction s generalizing acc with
  | nil =>
    unfold linesOf at h
    split at h
    · simp at h
    · have : l = acc.reverse := by simpa using h
      exact ⟨[], acc.reverse, [], by simp, .inl this, by simpa using hacc, by simp, by simp⟩
  | cons c t ih =>
    unfold linesOf at h
    split at h
    · rename_i hc
      subst hc
      rcases List.mem_cons.1 h with rfl | h
      · exact ⟨[], acc.reverse, '\n' :: t, by simp, .inr (by simp), by simpa using hacc, by simp, by simp⟩
      · obtain ⟨a, body, b, h1, h2, h3, h4, h5⟩ := ih [] h (by simp)
        refine ⟨acc.reverse ++ '\n' :: a, body, b, by simpa using h1, h2, h3, fun c hc => ?_, h5⟩
        rcases a with _ | ⟨d, a⟩
        · simpa [eq_comm] using hc
        · refine h4 c ?_
          simpa [List.getLast?_append, List.getLast?_cons_cons] using hc
    · rename_i hc
      obtain ⟨a, body, b, h1, h2⟩ := ih (c :: acc) h (by simp [hacc, Ne.symm hc])
      exact ⟨a, body, b, by simpa using h1, h2⟩

/-- The lines that Python reads are lines of the file. -/
theorem isLine_of_mem (t l : Str) (h : l ∈ linesOf [] (readText t)) :
    ∃ body, IsLine t body ∧ (l = body ∨ l = body ++ ['\n']) := by
  obtain ⟨a, body, b, h1, h2, h3, h4, h5⟩ := mem_linesOf [] _ l h (by simp)
  rw [List.reverse_nil, List.nil_append, List.append_assoc] at h1
  obtain ⟨a', r', rfl, ha, hr⟩ := readText_split t a _ h1
  obtain ⟨body', b', rfl, hb, hb'⟩ := readText_split r' body b hr
  obtain ⟨e1, e2⟩ := readText_plain_id body' (by rw [hb]; exact h3)
  have e3 : body' = body := e1.symm.trans hb
  subst e3
  refine ⟨body', ⟨a', b', by simp, e2, fun c hc => ?_, fun c hc => head_readText b' c hc (by rw [hb']; exact h5)⟩, h2⟩
  have := h4 (if c = '\r' then '\n' else c) (by rw [← ha, getLast_readText]; simp at hc; simp [hc])
  by_cases e : c = '\r'
  · exact .inr e
  · exact .inl (by simpa [e] using this)

/-! ## Fields -/

theorem mem_wordsGo (acc s w : Str) (h : w ∈ wordsGo acc s) (hacc : ∀ c ∈ acc, isSpace c = false) :
    ∃ a b, acc.reverse ++ s = a ++ w ++ b ∧ w ≠ [] ∧ (∀ c ∈ w, isSpace c = false) ∧ (∀ c ∈ a.getLast?, isSpace c = true) ∧
      ∀ c ∈ b.head?, isSpace c = true := by
  induction s generalizing acc with
  | nil =>
    unfold wordsGo at h
    split at h
    · simp at h
    · rename_i hn
      have : w = acc.reverse := by simpa using h
      subst this
      exact ⟨[], [], by simp, by simpa using hn, by simpa using hacc, by simp, by simp⟩
  | cons c t ih =>
    have key : w ∈ wordsGo [] t → isSpace c = true → ∃ a b, acc.reverse ++ c :: t = a ++ w ++ b ∧ w ≠ [] ∧
        (∀ c ∈ w, isSpace c = false) ∧ (∀ c ∈ a.getLast?, isSpace c = true) ∧ ∀ c ∈ b.head?, isSpace c = true := by
      intro hw hc
      obtain ⟨a, b, h1, h2, h3, h4, h5⟩ := ih [] hw (by simp)
      refine ⟨acc.reverse ++ c :: a, b, by simpa using h1, h2, h3, fun d hd => ?_, h5⟩
      rcases a with _ | ⟨e, a⟩
      · have : c = d := by simpa using hd
        exact this ▸ hc
      · refine h4 d ?_
        simpa [List.getLast?_append, List.getLast?_cons_cons] using hd
    unfold wordsGo at h
    split at h
    · rename_i hc
      split at h
      · exact key h hc
      · rename_i hn
        rcases List.mem_cons.1 h with rfl | h
        · exact ⟨[], c :: t, by simp, by simpa using hn, by simpa using hacc, by simp, by simpa using hc⟩
        · exact key h hc
    · rename_i hc
      obtain ⟨a, b, h1, h2⟩ := ih (c :: acc) h (by simpa using ⟨by simpa using hc, hacc⟩)
      exact ⟨a, b, by simpa using h1, h2⟩

theorem isField_of_mem {l w : Str} (h : w ∈ words l) : IsField l w := by
  obtain ⟨a, b, h1, h2⟩ := mem_wordsGo [] l w h (by simp)
  exact ⟨a, b, by simpa using h1, h2⟩

theorem wordsGo_append (acc w b : Str) (hw : ∀ c ∈ w, isSpace c = false) :
    wordsGo acc (w ++ b) = wordsGo (w.reverse ++ acc) b := by
  induction w generalizing acc with
  | nil => simp
  | cons c t ih =>
    rw [List.cons_append, wordsGo, if_neg (by simp [hw c (by simp)]), ih _ fun c hc => hw c (by simp [hc])]
    simp

/-- The first field. -/
theorem words_cons (w b : Str) (c : Char) (hw : PlainName w) (hc : isSpace c = true) : words (w ++ c :: b) = w :: words b := by
  have hn : w ≠ [] := hw.1
  rw [words, wordsGo_append _ _ _ hw.2, wordsGo, if_pos hc]
  simp [hn, words]

theorem words_single (w : Str) (hw : PlainName w) : words w = [w] := by
  have hn : w ≠ [] := hw.1
  have := wordsGo_append [] w [] hw.2
  rw [List.append_nil] at this
  rw [words, this, wordsGo]
  simp [hn]

theorem mem_takeWhile_imp {α : Type*} {p : α → Bool} {l : List α} {x : α} (h : x ∈ l.takeWhile p) : p x = true := by
  induction l with
  | nil => simp at h
  | cons y t ih =>
    rw [List.takeWhile_cons] at h
    split at h
    · rcases List.mem_cons.1 h with rfl | h
      · assumption
      · exact ih h
    · simp at h

theorem dropWhile_nil_iff {α : Type*} {p : α → Bool} {l : List α} : l.dropWhile p = [] ↔ ∀ x ∈ l, p x = true := by
  induction l with
  | nil => simp
  | cons y t ih =>
    rw [List.dropWhile_cons]
    split <;> simp_all

theorem wordsGo_space (acc b : Str) (c : Char) (hc : isSpace c = true) : wordsGo acc (b ++ [c]) = wordsGo acc b := by
  induction b generalizing acc with
  | nil =>
    rcases acc with _ | ⟨d, acc⟩ <;> simp [wordsGo, hc]
  | cons d t ih =>
    rw [List.cons_append, wordsGo, wordsGo, ih, ih]

theorem words_spaces (b s : Str) (hs : ∀ c ∈ s, isSpace c = true) : words (b ++ s) = words b := by
  induction s generalizing b with
  | nil => simp
  | cons c t ih =>
    have := ih (b ++ [c]) fun d hd => hs d (by simp [hd])
    rw [List.append_assoc] at this
    exact this.trans (wordsGo_space [] b c (hs c (by simp)))

theorem words_lead (s b : Str) (hs : ∀ c ∈ s, isSpace c = true) : words (s ++ b) = words b := by
  induction s with
  | nil => simp
  | cons c t ih =>
    rw [List.cons_append, words, wordsGo, if_pos (hs c (by simp))]
    simpa [words] using ih fun d hd => hs d (by simp [hd])

theorem strip_spec (s : Str) : ∃ a b, s = a ++ strip s ++ b ∧ (∀ c ∈ a, isSpace c = true) ∧ ∀ c ∈ b, isSpace c = true := by
  refine ⟨s.takeWhile isSpace, (((s.dropWhile isSpace).reverse.takeWhile isSpace)).reverse, ?_, fun c hc => ?_, fun c hc => ?_⟩
  · have h1 := List.takeWhile_append_dropWhile (p := isSpace) (l := s)
    have h2 := List.takeWhile_append_dropWhile (p := isSpace) (l := (s.dropWhile isSpace).reverse)
    have h3 := congrArg List.reverse h2
    rw [List.reverse_append, List.reverse_reverse] at h3
    rw [strip, stripBy, List.append_assoc, h3, h1]
  · exact mem_takeWhile_imp hc
  · exact mem_takeWhile_imp (List.mem_reverse.1 hc)

theorem words_strip (s : Str) : words (strip s) = words s := by
  obtain ⟨a, b, h, ha, hb⟩ := strip_spec s
  conv_rhs => rw [h, words_spaces _ _ hb, words_lead _ _ ha]

/-- What a field is when the text begins with a given piece. -/
theorem words_prefix (p r : Str) (hp : PlainName p) : ∃ q b, r = q ++ b ∧ (∀ c ∈ q, isSpace c = false) ∧
    (∀ c ∈ b.head?, isSpace c = true) ∧ words (p ++ r) = (p ++ q) :: words b := by
  refine ⟨r.takeWhile fun c => !isSpace c, r.dropWhile fun c => !isSpace c, (List.takeWhile_append_dropWhile).symm,
    fun c hc => by simpa using mem_takeWhile_imp hc, fun c hc => ?_, ?_⟩
  · have := List.head?_dropWhile_not (fun c => !isSpace c) r
    simp only [Option.mem_def] at hc
    rw [hc] at this
    simpa using this
  · have e : p ++ r = (p ++ r.takeWhile fun c => !isSpace c) ++ r.dropWhile fun c => !isSpace c := by
      rw [List.append_assoc, List.takeWhile_append_dropWhile]
    have hpl : PlainName (p ++ r.takeWhile fun c => !isSpace c) :=
      ⟨by simp [hp.1], fun c hc => by
        rcases List.mem_append.1 hc with hc | hc
        · exact hp.2 c hc
        · simpa using mem_takeWhile_imp hc⟩
    rw [e]
    rcases hb : r.dropWhile fun c => !isSpace c with _ | ⟨c, b⟩
    · rw [List.append_nil, words_single _ hpl]; simp [words, wordsGo]
    · have hc : isSpace c = true := by
        have := List.head?_dropWhile_not (fun c => !isSpace c) r
        rw [hb] at this; simpa using this
      rw [words_cons _ _ _ hpl hc]
      congr 1
      exact (words_lead [c] b (by simpa using hc)).symm

/-! ## `MANIFEST.in` and `.gitattributes` -/

theorem eol_space {c : Char} (h : IsEol c) : isSpace c = true := by
  rcases h with rfl | rfl <;> decide

theorem plain_eol {f : Str} (h : PlainName f) : ∀ c ∈ f, ¬ IsEol c := fun c hc e => by
  have := h.2 c hc
  rw [eol_space e] at this; cases this

theorem plain_include : PlainName "include".toList := ⟨by decide, by decide⟩
theorem plain_export : PlainName exportSubst := ⟨by decide, by decide⟩
theorem plain_versioneer : PlainName versioneerPy := ⟨by decide, by decide⟩

theorem includes_of_mem {t f : Str} (h : f ∈ simpleIncludes (some t)) : Includes t f := by
  rw [simpleIncludes, List.mem_flatMap] at h
  obtain ⟨l, hl, hf⟩ := h
  rw [List.mem_filter] at hl
  obtain ⟨body, hb, hlb⟩ := isLine_of_mem t l hl.1
  have hw : words l = words body := by
    rcases hlb with rfl | rfl
    · rfl
    · exact wordsGo_space [] _ _ (by decide)
  have hpre : "include ".toList <+: l := by simpa [startsWith] using hl.2
  obtain ⟨r, hr⟩ := hpre
  have hbody : ∃ r, body = "include".toList ++ ' ' :: r := by
    rcases hlb with rfl | rfl
    · exact ⟨r, by rw [← hr]; rfl⟩
    · rcases List.eq_nil_or_concat r with rfl | ⟨r', c, rfl⟩
      · have := congrArg List.getLast? hr; simp at this
      · refine ⟨r', ?_⟩
        rw [List.concat_eq_append, ← List.append_assoc] at hr
        exact (List.append_inj_left' hr (by simp)).symm
  obtain ⟨r, rfl⟩ := hbody
  refine ⟨_, hb, ⟨[], ' ' :: r, by simp, by decide, by decide, by simp, by simp; decide⟩, isField_of_mem ?_⟩
  rw [← hw]; exact List.mem_of_mem_drop hf

theorem includeLine_def (f : Str) : includeLine f = ("include ".toList ++ f) ++ ['\n'] := by unfold includeLine; exact rfl

theorem includes_append {t f : Str} (ht : Complete t) (hf : PlainName f) (u : Str) : Includes (t ++ includeLine f ++ u) f := by
  refine ⟨"include ".toList ++ f, ⟨t, '\n' :: u, by rw [includeLine_def, ← List.append_assoc, List.append_assoc _ ['\n'] u]; exact rfl, fun c hc => ?_, ht,
    fun c hc => .inl (Option.some.inj hc).symm⟩,
    ⟨[], ' ' :: f, by rfl, by decide, by decide, by simp, by simp; decide⟩,
    ⟨"include ".toList, [], by simp, hf.1, hf.2, by simp; decide, by simp⟩⟩
  rcases List.mem_append.1 hc with hc | hc
  · have : ∀ c ∈ "include ".toList, c ≠ '\n' ∧ c ≠ '\r' := by decide
    exact fun e => e.elim (this c hc).1 (this c hc).2
  · exact plain_eol hf c hc

theorem complete_line (t l : Str) : Complete (t ++ l ++ ['\n']) := by
  intro c hc; simp at hc; exact .inl hc.symm

/-- The lines of a file after a line has been appended to it. -/
theorem lines_append {t l : Str} (ht : Complete t) (hl : ∀ c ∈ l, ¬ IsEol c) (hn : l ≠ []) :
    linesOf [] (readText (t ++ (l ++ ['\n']))) = linesOf [] (readText t) ++ [l ++ ['\n']] := by
  have h0 : (l ++ ['\n']).head? ≠ some '\n' := by
    rcases l with _ | ⟨c, l⟩
    · exact absurd rfl hn
    · simp; exact fun e => hl c (by simp) (.inl e)
  have h1 : readText l = l := by
    clear h0 hn
    induction l with
    | nil => simp [readText]
    | cons c l ih =>
      have : c ≠ '\r' := fun e => hl c (by simp) (.inr e)
      rw [readText.eq_3 _ _ (fun _ e => absurd e this) this, ih fun d hd => hl d (by simp [hd])]
  have h2 : readText (l ++ ['\n']) = l ++ ['\n'] := by
    rw [readText_append l _, h1]
    · simp [readText]
    · intro e
      obtain ⟨u, rfl⟩ := List.getLast?_eq_some_iff.1 e
      exact absurd (.inr rfl) (hl '\r' (by simp))
  rw [readText_append _ _ fun _ => h0, h2, linesOf_append [] _ _ (by simpa using complete_readText ht)]
  congr 1
  have := linesOf_cut [] l [] fun c hc e => hl c hc (.inl e)
  simpa [linesOf] using this

theorem simpleIncludes_append {t f : Str} (ht : Complete t) (hf : PlainName f) :
    simpleIncludes (some (t ++ includeLine f)) = simpleIncludes (some t) ++ [f] := by
  have h := lines_append (l := "include ".toList ++ f) ht (fun c hc => by
    rcases List.mem_append.1 hc with hc | hc
    · have : ∀ c ∈ "include ".toList, c ≠ '\n' ∧ c ≠ '\r' := by decide
      exact fun e => e.elim (this c hc).1 (this c hc).2
    · exact plain_eol hf c hc) (fun e => by have := congrArg List.length e; rw [List.length_append] at this; exact absurd this (by simp))
  have e : t ++ includeLine f = t ++ (("include ".toList ++ f) ++ ['\n']) := congrArg _ (includeLine_def f)
  have hw : words ("include ".toList ++ f ++ ['\n']) = ["include".toList, f] := by
    rw [words_spaces _ ['\n'] (by decide)]
    have := words_cons "include".toList f ' ' plain_include (by decide)
    rw [words_single f hf] at this
    exact this
  rw [simpleIncludes, simpleIncludes, Option.getD_some, Option.getD_some, e, h, List.filter_append, List.flatMap_append]
  congr 1
  have hs : startsWith ("include ".toList ++ f ++ ['\n']) "include ".toList = true := by
    simp only [startsWith, List.isPrefixOf_iff_prefix]
    exact ⟨f ++ ['\n'], by simp⟩
  rw [List.filter_cons_of_pos (by exact hs)]
  simp only [List.filter_nil, List.flatMap_cons, List.flatMap_nil, hw]
  rfl

theorem strip_space (b : Str) (c : Char) (hc : isSpace c = true) : strip (b ++ [c]) = strip b := by
  unfold strip stripBy
  by_cases h : ∀ d ∈ b, isSpace d = true
  · have h1 : (b ++ [c]).dropWhile isSpace = [] := by
      rw [dropWhile_nil_iff]; intro d hd
      rcases List.mem_append.1 hd with hd | hd
      · exact h d hd
      · rwa [List.mem_singleton.1 hd]
    have h2 : b.dropWhile isSpace = [] := by rw [dropWhile_nil_iff]; exact h
    rw [h1, h2]
  · have h2 : b.dropWhile isSpace ≠ [] := by rw [Ne, dropWhile_nil_iff]; exact h
    rw [List.dropWhile_append, if_neg (by simpa using h2), List.reverse_append]
    simp [hc]

theorem marks_of_present {t src : Str} (hs : PlainName src) (h : attrPresent src (some t) = true)
    (hlook : ∀ l w, IsLine t l → IsField l w → src <+: w → w = src) : Marks t src := by
  rw [attrPresent, List.any_eq_true] at h
  obtain ⟨l, hl, h⟩ := h
  rw [Bool.and_eq_true, decide_eq_true_eq, words_strip] at h
  obtain ⟨body, hb, hlb⟩ := isLine_of_mem t l hl
  have hw : words l = words body := by
    rcases hlb with rfl | rfl
    · rfl
    · exact wordsGo_space [] _ _ (by decide)
  have hstrip : strip l = strip body := by
    rcases hlb with rfl | rfl
    · rfl
    · exact strip_space _ _ (by decide)
  rw [hstrip] at h
  obtain ⟨r, hr⟩ : src <+: strip body := by simpa [startsWith] using h.1
  obtain ⟨q, b, hqb, hq, hbs, hwords⟩ := words_prefix src r hs
  rw [hr, words_strip] at hwords
  have e1 := hlook body (src ++ q) hb (isField_of_mem (by rw [hwords]; simp)) ⟨q, rfl⟩
  have hq0 : q = [] := by simpa using e1
  subst hq0
  obtain ⟨s1, s2, e2, hs1, hs2⟩ := strip_spec body
  refine ⟨body, hb, ⟨s1, b ++ s2, ?_, hs.1, hs.2, hs1, ?_⟩, isField_of_mem ?_⟩
  · rw [← hr, hqb] at e2; rw [e2]; simp
  · rcases b with _ | ⟨c, b⟩
    · intro c hc; exact hs2 c (List.mem_of_mem_head? (by simpa using hc))
    · simpa using hbs
  · rw [← hw]; exact List.mem_of_mem_drop h.2

theorem strip_id {s : Str} (h1 : ∀ c ∈ s.head?, isSpace c = false) (h2 : ∀ c ∈ s.getLast?, isSpace c = false) :
    strip s = s := by
  have e1 : s.dropWhile isSpace = s := by
    rcases s with _ | ⟨c, s⟩
    · rfl
    · exact List.dropWhile_cons_of_neg (by simp [h1 c (by simp)])
  rw [strip, stripBy, e1]
  rcases List.eq_nil_or_concat s with rfl | ⟨t, c, rfl⟩
  · rfl
  · rw [List.concat_eq_append] at h2 ⊢
    rw [List.reverse_append, List.reverse_singleton, List.singleton_append,
      List.dropWhile_cons_of_neg (by simp [h2 c (by simp)])]
    simp

theorem attrLine_def (src : Str) : attrLine src = (src ++ ' ' :: exportSubst) ++ ['\n'] := by
  rw [attrLine, List.append_assoc]; rfl

theorem present_append {t src : Str} (ht : Complete t) (hs : PlainName src) :
    attrPresent src (some (t ++ attrLine src)) = true := by
  have hne : ∀ c ∈ src ++ ' ' :: exportSubst, ¬ IsEol c := fun c hc => by
    rcases List.mem_append.1 hc with hc | hc
    · exact plain_eol hs c hc
    · have : ∀ c ∈ ' ' :: exportSubst, c ≠ '\n' ∧ c ≠ '\r' := by decide
      exact fun e => e.elim (this c hc).1 (this c hc).2
  have h := lines_append ht hne (by simp)
  rw [attrPresent, Option.getD_some, attrLine_def, h, List.any_append, Bool.or_eq_true]
  right
  have hst : strip (src ++ ' ' :: exportSubst ++ ['\n']) = src ++ ' ' :: exportSubst := by
    rw [strip_space _ _ (by decide)]
    refine strip_id (fun c hc => ?_) fun c hc => ?_
    · rcases hsrc : src with _ | ⟨d, src'⟩
      · exact absurd hsrc hs.1
      · rw [hsrc] at hc
        rw [List.cons_append, List.head?_cons] at hc
        exact hs.2 c (by rw [hsrc, ← Option.some.inj hc]; simp)
    · rw [List.getLast?_append, show (' ' :: exportSubst).getLast? = some 't' by decide] at hc
      rw [← Option.some.inj hc]; decide
  have hw : words (src ++ ' ' :: exportSubst) = [src, exportSubst] := by
    rw [words_cons _ _ _ hs (by decide), words_single _ plain_export]
  rw [List.any_cons, hst, hw, Bool.or_eq_true]
  left
  rw [Bool.and_eq_true]
  exact ⟨by simp [startsWith], by simp⟩

theorem marks_append {t src : Str} (ht : Complete t) (hs : PlainName src) : Marks (t ++ attrLine src) src := by
  refine ⟨src ++ " export-subst".toList, ⟨t, ['\n'], by simp [attrLine], fun c hc => ?_, ht, by simp [IsEol]⟩,
    ⟨[], " export-subst".toList, by simp, hs.1, hs.2, by simp, by simp; decide⟩,
    ⟨src ++ [' '], [], by simp, by decide, by decide, by simp; decide, by simp⟩⟩
  rcases List.mem_append.1 hc with hc | hc
  · exact plain_eol hs c hc
  · have : ∀ c ∈ " export-subst".toList, c ≠ '\n' ∧ c ≠ '\r' := by decide
    exact fun e => e.elim (this c hc).1 (this c hc).2

/-- The lines of a file are still there when something has been appended to it. -/
theorem isLine_append {t l : Str} (ht : Complete t) (hl : l ≠ []) (h : IsLine t l) (u : Str) : IsLine (t ++ u) l := by
  obtain ⟨a, b, e, h1, h2, h3⟩ := h
  refine ⟨a, b ++ u, by rw [e]; simp, h1, h2, ?_⟩
  rcases b with _ | ⟨c, b⟩
  · exfalso
    obtain ⟨k, c, rfl⟩ : ∃ k c, l = k ++ [c] := ⟨l.dropLast, l.getLast hl, (List.dropLast_append_getLast hl).symm⟩
    refine h1 c (by simp) (ht c ?_)
    rw [e]; simp
  · simpa using h3

/-! ## What the files mean, as computations -/

theorem linesOf_single (acc l : Str) (h : ∀ c ∈ l, c ≠ '\n') (hl : acc.reverse ++ l ≠ []) : linesOf acc l = [acc.reverse ++ l] := by
  induction l generalizing acc with
  | nil => rw [linesOf, if_neg (by simpa using hl), List.append_nil]
  | cons c l ih =>
    rw [linesOf, if_neg (h c (by simp)), ih _ (fun d hd => h d (by simp [hd])) (by simp)]
    simp

theorem linesOf_first (l b : Str) (h : ∀ c ∈ l, ¬ IsEol c) (hl : l ≠ []) (hb : b = [] ∨ b.head? = some '\n') :
    ∃ m ∈ linesOf [] (l ++ b), m = l ∨ m = l ++ ['\n'] := by
  rcases hb with rfl | hb
  · refine ⟨l, ?_, .inl rfl⟩
    rw [List.append_nil, linesOf_single [] l (fun c hc e => h c hc (.inl e)) (by simpa using hl)]
    simp
  · rcases b with _ | ⟨c, b⟩
    · simp at hb
    · have : c = '\n' := by simpa using hb
      subst this
      have := linesOf_cut [] l b fun c hc e => h c hc (.inl e)
      exact ⟨l ++ ['\n'], by rw [this]; simp, .inr rfl⟩

theorem readText_no_eol {l : Str} (h : ∀ c ∈ l, ¬ IsEol c) : readText l = l := by
  induction l with
  | nil => simp [readText]
  | cons c l ih =>
    have h1 : c ≠ '\r' := fun e => h c (by simp) (.inr e)
    rw [readText.eq_3 _ _ (fun _ e => absurd e h1) h1, ih fun d hd => h d (by simp [hd])]

theorem mem_of_isLine {t l : Str} (h : IsLine t l) (hl : l ≠ []) :
    ∃ m ∈ linesOf [] (readText t), m = l ∨ m = l ++ ['\n'] := by
  obtain ⟨a, b, rfl, h1, h2, h3⟩ := h
  have e1 : readText (a ++ l ++ b) = readText (a ++ l) ++ readText b := readText_append _ _ fun e => by
    obtain ⟨k, c, rfl⟩ : ∃ k c, l = k ++ [c] := ⟨l.dropLast, l.getLast hl, (List.dropLast_append_getLast hl).symm⟩
    rw [← List.append_assoc, List.getLast?_concat] at e
    exact absurd (.inr (Option.some.inj e)) (h1 c (by simp))
  have e2 : readText (a ++ l) = readText a ++ l := by
    rw [readText_append a l, readText_no_eol h1]
    intro _ e
    exact h1 '\n' (List.mem_of_mem_head? (by rw [e]; rfl)) (.inl rfl)
  have hb : readText b = [] ∨ (readText b).head? = some '\n' := by
    rcases b with _ | ⟨c, b⟩
    · exact .inl (by simp [readText])
    · right
      rcases h3 c (by simp) with rfl | rfl
      · rw [readText.eq_3 _ _ (fun _ e => absurd e (by decide)) (by decide)]; rfl
      · rcases b with _ | ⟨d, b⟩
        · rfl
        · by_cases hd : d = '\n'
          · subst hd; rfl
          · rw [readText.eq_2 _ fun r e => hd (by simpa using (List.cons.inj e).1)]; rfl
  rw [e1, e2, List.append_assoc, linesOf_append [] _ _ (by simpa using complete_readText h2)]
  obtain ⟨m, hm, e⟩ := linesOf_first l (readText b) h1 hl hb
  exact ⟨m, List.mem_append_right _ hm, e⟩

theorem wordsGo_cut (acc a b : Str) (c : Char) (hc : isSpace c = true) : wordsGo acc (a ++ c :: b) = wordsGo acc a ++ wordsGo [] b := by
  induction a generalizing acc with
  | nil => rcases acc with _ | ⟨d, acc⟩ <;> simp [wordsGo, hc]
  | cons d a ih =>
    simp only [List.cons_append, wordsGo]
    split
    · split <;> rw [ih]; rfl
    · exact ih _

theorem words_field (w b : Str) (hw : PlainName w) (hb : ∀ c ∈ b.head?, isSpace c = true) : ∃ r, words (w ++ b) = w :: r := by
  rcases b with _ | ⟨c, b⟩
  · exact ⟨[], by rw [List.append_nil, words_single w hw]⟩
  · exact ⟨_, words_cons w b c hw (hb c (by simp))⟩

theorem mem_of_isField {l w : Str} (h : IsField l w) : w ∈ words l := by
  obtain ⟨a, b, rfl, h1, h2, h3, h4⟩ := h
  obtain ⟨r, hr⟩ := words_field w b ⟨h1, h2⟩ h4
  rcases List.eq_nil_or_concat a with rfl | ⟨a, c, rfl⟩
  · rw [List.nil_append, hr]; simp
  · rw [List.concat_eq_append] at h3 ⊢
    have : a ++ [c] ++ w ++ b = a ++ c :: (w ++ b) := by simp
    have e := wordsGo_cut [] a (w ++ b) c (h3 c (by simp))
    rw [this, words, e]
    refine List.mem_append_right _ ?_
    rw [← words, hr]; simp

theorem head_of_firstField {l w : Str} (h : FirstField l w) : (words l).head? = some w := by
  obtain ⟨a, b, rfl, h1, h2, h3, h4⟩ := h
  obtain ⟨r, hr⟩ := words_field w b ⟨h1, h2⟩ h4
  rw [List.append_assoc, words_lead _ _ h3, hr]; rfl

private theorem words_eol {l m : Str} (h : m = l ∨ m = l ++ ['\n']) : words m = words l := by
  rcases h with rfl | rfl
  · rfl
  · exact wordsGo_space [] _ _ (by decide)

theorem includes_imp {t f : Str} (h : Includes t f) :
    ∃ m ∈ linesOf [] (readText t), (words m).head? = some "include".toList ∧ f ∈ words m := by
  obtain ⟨l, h1, h2, h3⟩ := h
  have hl : l ≠ [] := fun e => by
    have := head_of_firstField h2
    rw [e] at this; simp [words, wordsGo] at this
  obtain ⟨m, hm, e⟩ := mem_of_isLine h1 hl
  exact ⟨m, hm, by rw [words_eol e]; exact head_of_firstField h2, by rw [words_eol e]; exact mem_of_isField h3⟩

theorem marks_imp {t f : Str} (h : Marks t f) :
    ∃ m ∈ linesOf [] (readText t), (words m).head? = some f ∧ exportSubst ∈ words m := by
  obtain ⟨l, h1, h2, h3⟩ := h
  have hl : l ≠ [] := fun e => by
    have := head_of_firstField h2
    rw [e] at this; simp [words, wordsGo] at this
  obtain ⟨m, hm, e⟩ := mem_of_isLine h1 hl
  exact ⟨m, hm, by rw [words_eol e]; exact head_of_firstField h2, by rw [words_eol e]; exact mem_of_isField h3⟩

end Snompy.Version
