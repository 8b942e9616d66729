import Verif.Lemmas.InstallSteps

/-!
# Lemmas about the installer: `setup.cfg` with the sample configuration
-/

namespace Snompy.Version

theorem strip_nil {s : Str} (h : ∀ c ∈ s, isSpace c = true) : strip s = [] := by
  unfold strip stripBy
  rw [dropWhile_nil_iff.2 h]; rfl

theorem iniStep_eol (st : IniState) (l : Str) : iniStep st (l ++ ['\n']) = iniStep st l := by
  have h := strip_space l '\n' (by decide)
  by_cases hl : strip l = []
  · simp only [iniStep, isComment, h, hl, if_true]
  · have hk : (l ++ ['\n']).takeWhile isSpace = l.takeWhile isSpace := by
      have : ¬ ∀ c ∈ l, isSpace c = true := fun e => hl (strip_nil e)
      push Not at this
      obtain ⟨c, hc, hcs⟩ := this
      obtain ⟨a, b, rfl⟩ := List.append_of_mem hc
      clear hc h hl
      induction a with
      | nil => simp [hcs]
      | cons d a ih => simp only [List.cons_append, List.takeWhile_cons]; split <;> [rw [ih]; rfl]
    unfold iniStep isComment
    rw [h, hk]

theorem fold_incomplete (st : IniState) (acc u r : Str) (h : acc.reverse ++ u ≠ []) (hu : u.getLast? ≠ some '\n') :
    (linesOf acc (u ++ '\n' :: r)).foldlM iniStep st =
      (linesOf acc u).foldlM iniStep st >>= fun st => (linesOf [] r).foldlM iniStep st := by
  induction u generalizing acc st with
  | nil =>
    have ha : acc ≠ [] := by simpa using h
    have h1 : linesOf acc ('\n' :: r) = (acc.reverse ++ ['\n']) :: linesOf [] r := by rw [linesOf, if_pos rfl, List.reverse_cons]
    have h2 : linesOf acc [] = [acc.reverse] := by rw [linesOf, if_neg (by simpa using ha)]
    rw [List.nil_append, h1, h2, List.foldlM_cons, iniStep_eol]
    simp
  | cons c u ih =>
    rw [List.cons_append, linesOf, linesOf]
    have hu' : u.getLast? ≠ some '\n' := fun e => hu (by
      rcases u with _ | ⟨d, u⟩
      · simp at e
      · rw [List.getLast?_cons_cons]; exact e)
    by_cases hc : c = '\n'
    · rw [if_pos hc, if_pos hc, List.foldlM_cons, List.foldlM_cons]
      have hn : u ≠ [] := fun e => hu (by rw [e, hc]; rfl)
      rcases iniStep st (c :: acc).reverse with _ | st'
      · rfl
      · exact ih st' [] (by simpa using hn) hu'
    · rw [if_neg hc, if_neg hc]
      exact ih st (c :: acc) (by simp) hu'

/-- `setup.cfg` without its first newline when the sample configuration has been appended. -/
def sampleRest : Str := sampleLines.flatten

theorem sampleConfig_eq : sampleConfig = '\n' :: sampleRest := rfl

theorem cr_rest : '\r' ∉ sampleRest := by decide +kernel

theorem sampleRest_lines : linesOf [] sampleRest = sampleLines := by decide +kernel

seal sampleConfig sampleRest

/-- What an empty line does. -/
def blankStep (st : IniState) : IniState :=
  match st.cur, st.opt with
  | some s, some o => updateOpts st s (appendLine o [])
  | _, _ => st

theorem iniStep_blank (st : IniState) : iniStep st ['\n'] = some (blankStep st) := by
  have h : strip ['\n'] = [] := by decide
  unfold iniStep blankStep
  rw [if_neg (by decide), if_pos h]
  rcases st.cur with _ | s <;> rcases st.opt with _ | o <;> rfl

/-- Reading a file to which a newline and a text have been appended: the file, and then, perhaps after an empty line, the
text. -/
theorem readIni_append (t r : Str) (h : '\r' ∉ r) :
    readIni (t ++ '\n' :: r) = (readIni t >>= fun st => (linesOf [] r).foldlM iniStep st) ∨
    readIni (t ++ '\n' :: r) = (readIni t >>= fun st => (linesOf [] r).foldlM iniStep (blankStep st)) := by
  unfold readIni
  have hr' : readText ('\n' :: r) = '\n' :: r := readText_id (by simpa using h)
  by_cases hr : t.getLast? = some '\r'
  · left
    have hc : Complete t := fun c hc => by rw [hr] at hc; exact .inr (Option.some.inj hc).symm
    rw [readText_crlf _ _ hr, readText_id h, linesOf_append [] _ _ (by simpa using complete_readText hc), List.foldlM_append]
  · by_cases hc : readText t = [] ∨ (readText t).getLast? = some '\n'
    · right
      rw [readText_append _ _ fun e => absurd e hr, hr', linesOf_append [] _ _ (by simpa using hc), List.foldlM_append]
      have : linesOf [] ('\n' :: r) = ['\n'] :: linesOf [] r := by rw [linesOf, if_pos rfl]; rfl
      rw [this]
      congr 1; funext st
      rw [List.foldlM_cons, iniStep_blank]; rfl
    · left
      push Not at hc
      rw [readText_append _ _ fun e => absurd e hr, hr']
      exact fold_incomplete _ [] _ _ (by simpa using hc.1) hc.2

theorem readIni_append_some (t r : Str) (st : IniState) (h : '\r' ∉ r) (ht : readIni t = some st) :
    readIni (t ++ '\n' :: r) = (linesOf [] r).foldlM iniStep st ∨
    readIni (t ++ '\n' :: r) = (linesOf [] r).foldlM iniStep (blankStep st) := by
  have hr := readIni_append t r h
  rw [ht] at hr
  exact hr

theorem lookup_map {o : List (Str × α)} {k : Str} (g : Str × α → Str × α) (hg : ∀ p, (g p).1 = p.1) (h : o.lookup k = none) :
    (o.map g).lookup k = none := by
  rw [List.lookup_eq_none_iff] at h ⊢
  intro p hp
  obtain ⟨q, hq, rfl⟩ := List.mem_map.1 hp
  rw [hg]; exact h q hq

theorem updateOpts_sections (st : IniState) (s : Str) (f : IniOpts → IniOpts) (k : Str) (h : st.sections.lookup k = none) :
    (updateOpts st s f).sections.lookup k = none := by
  unfold updateOpts
  split
  · exact h
  · exact lookup_map _ (fun p => by split <;> rfl) h

theorem updateOpts_append_defaults (st : IniState) (s o v : Str) (k : Str) (h : st.defaults.lookup k = none) :
    (updateOpts st s (appendLine o v)).defaults.lookup k = none := by
  unfold updateOpts
  split
  · exact lookup_map _ (fun p => by split <;> rfl) h
  · exact h

theorem blank_sections (st : IniState) (k : Str) (h : st.sections.lookup k = none) : (blankStep st).sections.lookup k = none := by
  unfold blankStep
  split
  · exact updateOpts_sections _ _ _ _ h
  · exact h

theorem blank_defaults (st : IniState) (k : Str) (h : st.defaults.lookup k = none) : (blankStep st).defaults.lookup k = none := by
  unfold blankStep
  split
  · exact updateOpts_append_defaults _ _ _ _ _ h
  · exact h

theorem iniStep_comment (st : IniState) (l : Str) (h : isComment l = true) : iniStep st l = some st := by
  rw [iniStep, if_pos h]

/-- What the line `[versioneer]` does. -/
def addSection (st : IniState) : IniState :=
  ⟨st.sections ++ [(versioneerSection, [])], st.defaults, some versioneerSection, none, 0⟩

theorem iniStep_section (st : IniState) (h : st.sections.lookup versioneerSection = none) :
    iniStep st "[versioneer]\n".toList =
      some (addSection st) := by
  have h1 : isComment "[versioneer]\n".toList = false := by decide
  have h2 : strip "[versioneer]\n".toList = "[versioneer]".toList := by decide
  have h3 : ("[versioneer]\n".toList.takeWhile isSpace).length = 0 := by decide
  have h4 : matchHeader "[versioneer]".toList = some versioneerSection := by decide
  have h5 : headerStep st "[versioneer]".toList 0 =
      some (addSection st) := by
    unfold headerStep
    rw [h4]
    simp only [h, Option.isSome_none, Bool.false_eq_true, if_false]
    rw [if_neg (by decide)]
    rfl
  unfold iniStep
  rw [h1, h2, h3, if_neg (by decide), if_neg (by decide), h5]
  split <;> simp

theorem fold_comments (st : IniState) (ls : List Str) (h : ∀ l ∈ ls, isComment l = true) : ls.foldlM iniStep st = some st := by
  induction ls with
  | nil => rfl
  | cons l ls ih =>
    rw [List.foldlM_cons, iniStep_comment st l (h l (by simp))]
    exact ih fun l hl => h l (by simp [hl])

theorem sampleLines_eq : sampleLines = sampleLines.take 3 ++ (['\n'] :: "[versioneer]\n".toList :: ((sampleLines.drop 5).take 6 ++ [['\n']])) := by
  decide +kernel

theorem fold_sample (st : IniState) (h : st.sections.lookup versioneerSection = none) :
    (linesOf [] sampleRest).foldlM iniStep st = some (addSection (blankStep st)) := by
  rw [sampleRest_lines, sampleLines_eq, List.foldlM_append, fold_comments st _ (by decide +kernel)]
  have h1 := iniStep_section _ (blank_sections st _ h)
  have h2 := fold_comments (addSection (blankStep st)) ((sampleLines.drop 5).take 6) (by decide +kernel)
  simp only [Option.bind_eq_bind, Option.bind_some, List.foldlM_cons, iniStep_blank, h1, List.foldlM_append, h2, List.foldlM_nil]
  rfl

theorem addSection_lookup (st : IniState) (h : st.sections.lookup versioneerSection = none) :
    (addSection st).sections.lookup versioneerSection = some [] := by
  unfold addSection
  generalize versioneerSection = v at h ⊢
  rw [List.lookup_append, h, List.lookup_cons_self]; rfl

theorem addSection_defaults (st : IniState) : (addSection st).defaults = st.defaults := rfl

/-- The state after a text with the sample configuration has been read. -/
theorem readIni_sample (t : Str) (st : IniState) (ht : readIni t = some st) (hs : st.sections.lookup versioneerSection = none)
    (hd : st.defaults.lookup "vcs".toList = none) : ∃ st', readIni (t ++ '\n' :: sampleRest) = some st' ∧
      st'.sections.lookup versioneerSection = some [] ∧ st'.defaults.lookup "vcs".toList = none := by
  have hb := blank_sections st _ hs
  have hb' := blank_defaults st _ hd
  have f1 := fold_sample st hs
  have f2 := fold_sample _ hb
  have hr := readIni_append_some t _ st cr_rest ht
  rw [f1, f2] at hr
  rcases hr with e | e
  · exact ⟨_, e, addSection_lookup _ hb, by rw [addSection_defaults]; exact hb'⟩
  · exact ⟨_, e, addSection_lookup _ (blank_sections _ _ hb), by rw [addSection_defaults]; exact blank_defaults _ _ hb'⟩

/-- After the sample configuration has been appended there is a section without `VCS`. -/
theorem sample_again (h : Host) (t : Str) (st : IniState) (ht : readIni t = some st) (hs : st.sections.lookup versioneerSection = none)
    (hd : st.defaults.lookup "vcs".toList = none) : getConfigFromRoot h (some (t ++ sampleConfig)) = .error .noOption := by
  obtain ⟨st', h1, h2, h3⟩ := readIni_sample t st ht hs hd
  have h4 : iniGet h st' versioneerSection "VCS".toList = .error .noOption := by
    unfold iniGet optsOf
    rw [if_neg (by decide), h2]
    have : optionxform "VCS".toList = "vcs".toList := by decide
    simp only [this, h3]
    rfl
  rw [sampleConfig_eq, getConfigFromRoot, h1]
  simp only [h4]
  rfl

/-! ## Sections that a file does not have -/

theorem header_infix {v h : Str} (e : matchHeader v = some h) : '[' :: h ++ [']'] <:+: v := by
  unfold matchHeader at e
  split at e
  · rename_i t
    rcases hr : rsplit ']' t with _ | ⟨_ | ⟨c, a⟩, b⟩
    · rw [hr] at e; simp at e
    · rw [hr] at e; simp at e
    · rw [hr] at e
      simp only [Option.some.injEq] at e
      obtain ⟨rfl, -⟩ := (rsplit_iff _ _ _ _).1 hr
      exact ⟨[], b, by rw [← e]; simp⟩
  · simp at e

/-- There is neither `[versioneer]` nor `[DEFAULT]` in the lines so far. -/
structure Bare (st : IniState) : Prop where
  sections : st.sections.lookup versioneerSection = none
  defaults : st.defaults = []
  cur : st.cur ≠ some defaultSection

theorem bare_update {st : IniState} (h : Bare st) {s : Str} (hs : st.cur = some s) (f : IniOpts → IniOpts) : Bare (updateOpts st s f) := by
  have h0 : s ≠ defaultSection := fun e => h.cur (by rw [hs, e])
  refine ⟨updateOpts_sections _ _ _ _ h.sections, ?_, ?_⟩
  · unfold updateOpts; rw [if_neg h0]; exact h.defaults
  · unfold updateOpts; rw [if_neg h0]; exact h.cur

theorem bare_header {st st' : IniState} (h : Bare st) {v : Str} {k : ℕ} (hv : ¬ "[versioneer]".toList <:+: v)
    (hd : ¬ "[DEFAULT]".toList <:+: v) (e : headerStep st v k = some st') : Bare st' := by
  unfold headerStep at e
  split at e
  · rename_i s hm
    have hi := header_infix hm
    have h1 : s ≠ defaultSection := fun e => hd (by rw [e] at hi; exact hi)
    have h2 : s ≠ versioneerSection := fun e => hv (by rw [e] at hi; exact hi)
    rw [if_neg h1] at e
    split at e
    · cases e
    · cases Option.some.inj e
      refine ⟨?_, h.defaults, fun e => h1 (Option.some.inj e)⟩
      simp only [List.lookup_append, h.sections]
      rw [List.lookup_cons, beq_false_of_ne (Ne.symm h2)]; rfl
  · split at e
    · cases e
    · rename_i s hs
      split at e
      · cases e
      · rename_i nm vl _
        simp only at e
        split at e
        · cases e
        · cases Option.some.inj e
          have := bare_update h hs (fun x => x ++ [(optionxform (rstrip nm), [strip vl])])
          exact ⟨this.sections, this.defaults, this.cur⟩

theorem bare_step {st st' : IniState} (h : Bare st) {l : Str} (hv : ¬ "[versioneer]".toList <:+: l)
    (hd : ¬ "[DEFAULT]".toList <:+: l) (e : iniStep st l = some st') : Bare st' := by
  obtain ⟨a, b, hl, -, -⟩ := strip_spec l
  have hi : strip l <:+: l := ⟨a, b, hl.symm⟩
  have hv' : ¬ "[versioneer]".toList <:+: strip l := fun e => hv (e.trans hi)
  have hd' : ¬ "[DEFAULT]".toList <:+: strip l := fun e => hd (e.trans hi)
  unfold iniStep at e
  split at e
  · cases Option.some.inj e; exact h
  · split at e
    · split at e
      · rename_i hc _
        cases Option.some.inj e; exact bare_update h hc _
      · cases Option.some.inj e; exact h
    · split at e
      · rename_i hc _
        split at e
        · cases Option.some.inj e; exact bare_update h hc _
        · exact bare_header h hv' hd' e
      · exact bare_header h hv' hd' e

theorem bare_fold {st st' : IniState} (h : Bare st) {ls : List Str} (hv : ∀ l ∈ ls, ¬ "[versioneer]".toList <:+: l)
    (hd : ∀ l ∈ ls, ¬ "[DEFAULT]".toList <:+: l) (e : ls.foldlM iniStep st = some st') : Bare st' := by
  induction ls generalizing st with
  | nil => cases Option.some.inj e; exact h
  | cons l ls ih =>
    rw [List.foldlM_cons] at e
    rcases hs : iniStep st l with _ | st1
    · rw [hs] at e; cases e
    · rw [hs] at e
      exact ih (bare_step h (hv l (by simp)) (hd l (by simp)) hs) (fun l hl => hv l (by simp [hl])) (fun l hl => hd l (by simp [hl])) e

/-- A text without newlines that is in a line of a file is in the file. -/
theorem infix_of_line {t l p : Str} (hl : l ∈ linesOf [] (readText t)) (hp : p ≠ []) (hn : p.getLast? ≠ some '\n') (h : p <:+: l) :
    p <:+: t := by
  obtain ⟨body, ⟨a, b, ht, -, -, -⟩, hlb⟩ := isLine_of_mem t l hl
  have hb : body <:+: t := ⟨a, b, ht.symm⟩
  rcases hlb with rfl | rfl
  · exact h.trans hb
  · refine List.IsInfix.trans ?_ hb
    obtain ⟨x, y, e⟩ := h
    rcases List.eq_nil_or_concat y with rfl | ⟨y', c, rfl⟩
    · exfalso
      rw [List.append_nil] at e
      have := congrArg List.getLast? e
      rw [List.getLast?_append_of_ne_nil _ hp] at this
      exact hn (by rw [this]; simp)
    · rw [List.concat_eq_append, ← List.append_assoc] at e
      exact ⟨x, y', (List.append_inj_left' e rfl)⟩

theorem bare_readIni {t : Str} {st : IniState} (hv : ¬ "[versioneer]".toList <:+: t) (hd : ¬ "[DEFAULT]".toList <:+: t)
    (e : readIni t = some st) : Bare st :=
  bare_fold ⟨rfl, rfl, by simp⟩ (fun _ hl h => hv (infix_of_line hl (by decide) (by decide) h))
    (fun _ hl h => hd (infix_of_line hl (by decide) (by decide) h)) e

end Snompy.Version
