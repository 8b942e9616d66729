import Verif.Lemmas.Install
import Verif.Lemmas.Version

/-!
# Lemmas about the installer: its steps
-/

namespace Snompy.Version

/-! ## Paths -/

theorem getLast_pathJoin (d f : Str) (hf : f ≠ []) : (pathJoin d f).getLast? = f.getLast? := by
  rw [pathJoin]
  obtain ⟨g, c, rfl⟩ : ∃ g c, f = g ++ [c] := by
    rcases List.eq_nil_or_concat f with rfl | ⟨g, c, rfl⟩
    · exact absurd rfl hf
    · exact ⟨g, c, List.concat_eq_append⟩
  split
  · rfl
  · split
    · rw [← List.append_assoc]; simp
    · rw [← List.cons_append, ← List.append_assoc]; simp only [List.getLast?_singleton, List.getLast?_append, Option.some_or]

theorem pathJoin_ne {d e f g : Str} (hf : f ≠ []) (hg : g ≠ []) (h : f.getLast? ≠ g.getLast?) : pathJoin d f ≠ pathJoin e g :=
  fun he => h (by rw [← getLast_pathJoin d f hf, he, getLast_pathJoin e g hg])

/-! ## The steps -/

/-- What `__init__.py` becomes. -/
def initText (src old : Str) : Str :=
  match newInit src old with
  | some (t, true) => t
  | some (t, false) => old ++ t
  | none => old

/-- What `MANIFEST.in` becomes. -/
def manifestText (src : Str) (o : Option Str) : Option Str :=
  if versioneerPy ∈ simpleIncludes o ∧ src ∈ simpleIncludes o then o
  else some (o.getD [] ++ (if versioneerPy ∈ simpleIncludes o then [] else includeLine versioneerPy) ++
    if src ∈ simpleIncludes o then [] else includeLine src)

/-- What `.gitattributes` becomes. -/
def attrText (src : Str) (o : Option Str) : Option Str :=
  if attrPresent src o = true then o else some (o.getD [] ++ attrLine src)

theorem installInit_eq (h : Host) (src : Str) (fs : FS) (hw : ∀ p, h.writable p = true) :
    installInit h src fs =
      some (Function.update fs (h.path (initPath src)) ((fs (h.path (initPath src))).map (initText src))) := by
  rw [installInit]
  rcases ho : fs (h.path (initPath src)) with _ | old
  · simp only [Option.map_none]; rw [← ho, Function.update_eq_self]
  · simp only [Option.map_some, initText]
    rcases newInit src old with _ | ⟨t, _ | _⟩
    · simp only; rw [← ho, Function.update_eq_self]
    · simp only [Host.append, Host.write, hw, if_true, ho, Option.getD_some]
    · simp only [Host.write, hw, if_true]

theorem installManifest_eq (h : Host) (root src : Str) (fs : FS) (hw : ∀ p, h.writable p = true) :
    installManifest h root src fs =
      some (Function.update fs (pathJoin root "MANIFEST.in".toList) (manifestText src (fs (pathJoin root "MANIFEST.in".toList)))) := by
  unfold installManifest manifestText
  generalize pathJoin root "MANIFEST.in".toList = p
  by_cases h1 : versioneerPy ∈ simpleIncludes (fs p) <;> by_cases h2 : src ∈ simpleIncludes (fs p) <;>
    simp [h1, h2, Host.append, Host.write, hw]

theorem doVcsInstall_eq (h : Host) (root src : Str) (ipy : Option Str) (fs : FS) (hw : ∀ p, h.writable p = true)
    (hd : Decodes h.sys) : doVcsInstall h root src ipy fs =
      (Function.update fs (h.path ".gitattributes".toList) (attrText src (fs (h.path ".gitattributes".toList))), .ok ()) := by
  unfold doVcsInstall attrText
  generalize h.path ".gitattributes".toList = p
  have run : ∀ args, ∃ r, runCommand h.sys ["git"] args h.cwd h.sys.environ false = .ok r := by
    intro args
    unfold runCommand
    rcases h.sys.popen "git" args h.cwd h.sys.environ false with ⟨out, rc⟩ | (_ | _)
    · obtain ⟨s, hs⟩ := Option.isSome_iff_exists.1 (hd (bytesStrip out))
      simp only [hs]
      split <;> exact ⟨_, rfl⟩
    · exact ⟨_, rfl⟩
    · exact ⟨_, by simp only [runCommand]; rfl⟩
  by_cases h1 : attrPresent src (fs p) = true
  · obtain ⟨r, hr⟩ := run ((["add", "--"] : List String) ++ ([pathJoin root "MANIFEST.in".toList, src] ++ ipy.toList ++ [h.versioneerFile] ++
      []).map String.ofList)
    simp only [h1, if_true] at hr ⊢
    rw [hr, Function.update_eq_self]
  · obtain ⟨r, hr⟩ := run ((["add", "--"] : List String) ++ ([pathJoin root "MANIFEST.in".toList, src] ++ ipy.toList ++ [h.versioneerFile] ++
      [".gitattributes".toList]).map String.ofList)
    simp only [h1, Host.append, Host.write, hw, if_true] at hr ⊢
    simp only [Bool.false_eq_true, if_false]
    rw [hr]

/-! ## `__init__.py` -/

theorem splitGo_ne_nil (sep acc s : Str) : splitGo sep acc s ≠ [] := by
  induction h : s.length using Nat.strong_induction_on generalizing acc s with
  | _ n ih =>
    rcases s with _ | ⟨c, cs⟩
    · rw [splitGo]; simp
    · rw [splitGo]
      split
      · simp
      · exact ih cs.length (by simp [← h]) _ _ rfl

theorem splitGo_mem (sep acc s p : Str) (c : Char) (hp : p ∈ splitGo sep acc s) (hc : c ∈ p) : c ∈ acc ∨ c ∈ s := by
  induction h : s.length using Nat.strong_induction_on generalizing acc s with
  | _ n ih =>
    rcases s with _ | ⟨d, ds⟩
    · rw [splitGo, List.mem_singleton] at hp
      rw [hp] at hc; exact .inl (List.mem_reverse.1 hc)
    · rw [splitGo] at hp
      split at hp
      · rcases List.mem_cons.1 hp with rfl | hp
        · exact .inl (List.mem_reverse.1 hc)
        · rcases ih _ (by simp [← h]) _ _ hp rfl with hm | hm
          · simp at hm
          · exact .inr (List.mem_cons_of_mem _ (List.mem_of_mem_drop hm))
      · rcases ih ds.length (by simp [← h]) _ _ hp rfl with hm | hm
        · rcases List.mem_cons.1 hm with rfl | hm
          · exact .inr (by simp)
          · exact .inl hm
        · exact .inr (List.mem_cons_of_mem _ hm)

theorem splitGo_two (sep acc s : Str) (hs : sep ≠ []) (h : sep <:+: s) : ∃ x y l, splitGo sep acc s = x :: y :: l := by
  induction s generalizing acc with
  | nil => exact absurd (List.infix_nil.1 h) hs
  | cons c cs ih =>
    rw [splitGo]
    split
    · rcases hl : splitGo sep [] (cs.drop (sep.length - 1)) with _ | ⟨y, l⟩
      · exact absurd hl (splitGo_ne_nil _ _ _)
      · exact ⟨_, y, l, rfl⟩
    · rename_i hp
      rcases List.infix_cons_iff.1 h with h | h
      · exact absurd (List.isPrefixOf_iff_prefix.2 h) hp
      · exact ih _ h

theorem replaceAll_infix (old new s : Str) (hs : old ≠ []) (h : old <:+: s) : new <:+: replaceAll old new s := by
  obtain ⟨x, y, l, e⟩ := splitGo_two old [] s hs h
  rw [replaceAll, split, e, List.intercalate_cons_cons]
  exact ⟨x, List.intercalate new (y :: l), by simp⟩

theorem mem_intercalate {new : Str} {l : List Str} {c : Char} (h : c ∈ List.intercalate new l) : c ∈ new ∨ ∃ p ∈ l, c ∈ p := by
  induction l with
  | nil => simp at h
  | cons x l ih =>
    rcases l with _ | ⟨y, l⟩
    · exact .inr ⟨x, by simp, by simpa using h⟩
    · rw [List.intercalate_cons_cons, List.mem_append, List.mem_append] at h
      rcases h with (h | h) | h
      · exact .inr ⟨x, by simp, h⟩
      · exact .inl h
      · rcases ih h with h | ⟨p, hp, h⟩
        · exact .inl h
        · exact .inr ⟨p, by simp [hp], h⟩

theorem cr_readText (t : Str) : '\r' ∉ readText t := by
  induction h : t.length using Nat.strong_induction_on generalizing t with
  | _ n ih =>
    unfold readText
    split
    · simp only [List.mem_cons, not_or]; exact ⟨by decide, ih _ (by subst h; simp) _ rfl⟩
    · simp only [List.mem_cons, not_or]; exact ⟨by decide, ih _ (by subst h; simp) _ rfl⟩
    · rename_i c t h1 h2
      simp only [List.mem_cons, not_or]; exact ⟨fun e => h2 e.symm, ih _ (by subst h; simp) _ rfl⟩
    · simp

theorem readText_id {t : Str} (h : '\r' ∉ t) : readText t = t := by
  induction t with
  | nil => simp [readText]
  | cons c t ih =>
    have h1 : c ≠ '\r' := fun e => h (by simp [e])
    rw [readText.eq_3 _ _ (fun _ e => absurd e h1) h1, ih fun e => h (by simp [e])]

theorem mem_splitextRoot {p : Str} {c : Char} (h : c ∈ splitextRoot p) : c ∈ p := by
  rw [splitextRoot] at h
  rcases hr : rsplit '.' p with _ | ⟨a, b⟩
  · rw [hr] at h; exact h
  · rw [hr] at h
    simp only at h
    split at h
    · exact h
    · rw [((rsplit_iff _ _ _ _).1 hr).1]; exact List.mem_append_left _ h

theorem mem_basename {p : Str} {c : Char} (h : c ∈ basename p) : c ∈ p := by
  rw [basename, List.mem_reverse] at h
  exact List.mem_reverse.1 (List.takeWhile_sublist _ |>.subset h)

/-- The name of the module of the version file. -/
theorem module_eol {src : Str} (hs : PlainName src) : ∀ c ∈ splitextRoot (basename src), ¬ IsEol c :=
  fun c hc => plain_eol hs c (mem_basename (mem_splitextRoot hc))

theorem snippet_cr {m : Str} (hm : ∀ c ∈ m, ¬ IsEol c) : '\r' ∉ initSnippet m := by
  have h : '\r' ∉ m := fun e => hm _ e (.inr rfl)
  unfold initSnippet
  simp only [List.mem_append, not_or]
  exact ⟨⟨⟨⟨by decide, h⟩, by decide⟩, h⟩, by decide⟩

/-- The text of `__init__.py` after the snippet has been appended. -/
theorem readText_snippet (old : Str) {m : Str} (hm : ∀ c ∈ m, ¬ IsEol c) :
    ∃ w, readText (old ++ initSnippet m) = w ++ initSnippet m ∧ (w = readText old ∨ w ++ ['\n'] = readText old) := by
  have e : ∃ r, initSnippet m = '\n' :: r := ⟨"from . import ".toList ++ m ++ "\n__version__ = ".toList ++ m ++ ".get_versions()['version']\n".toList, rfl⟩
  obtain ⟨r, hr⟩ := e
  have hcr := snippet_cr hm
  by_cases hl : old.getLast? = some '\r'
  · rw [hr] at hcr ⊢
    obtain ⟨w, hw⟩ := List.getLast?_eq_some_iff.1 ((getLast_readText old).trans (by rw [hl]; rfl))
    refine ⟨w, ?_, .inr hw.symm⟩
    rw [readText_crlf _ _ hl, readText_id (t := r) (fun e => hcr (by simp [e])), hw]
    simp
  · exact ⟨readText old, by rw [readText_append _ _ fun e => absurd e hl, readText_id hcr], .inl rfl⟩

theorem snippet_mem (src old : Str) (hs : PlainName src) :
    initSnippet (splitextRoot (basename src)) <:+: readText (initText src old) := by
  have hm := module_eol hs
  unfold initText newInit
  generalize splitextRoot (basename src) = m at hm ⊢
  simp only
  split_ifs with h1 h2
  · simp only
    rw [readText_id]
    · exact replaceAll_infix _ _ _ (by decide) h1
    · intro hc
      rcases mem_intercalate hc with hc | ⟨p, hp, hc⟩
      · exact snippet_cr hm hc
      · rcases splitGo_mem _ _ _ _ _ hp hc with hc | hc
        · simp at hc
        · exact cr_readText _ hc
  · simpa using h2
  · simp only
    obtain ⟨w, hw, -⟩ := readText_snippet old hm
    rw [hw]; exact ⟨w, [], by simp⟩

theorem old_not_mem {w m : Str} (hm : ∀ c ∈ m, ¬ IsEol c) (h : oldSnippet <:+: w ++ initSnippet m) :
    oldSnippet <:+: w ++ ['\n'] := by
  obtain ⟨a, b, e⟩ := h
  obtain ⟨r, hr⟩ : ∃ r, initSnippet m = '\n' :: 'f' :: r :=
    ⟨"rom . import ".toList ++ m ++ "\n__version__ = ".toList ++ m ++ ".get_versions()['version']\n".toList, rfl⟩
  have hcount : (initSnippet m).count '\n' < oldSnippet.count '\n' := by
    have h0 : m.count '\n' = 0 := List.count_eq_zero.2 fun e => hm _ e (.inl rfl)
    unfold initSnippet
    rw [List.count_append, List.count_append, List.count_append, List.count_append, h0]
    decide
  rcases List.append_eq_append_iff.1 e with ⟨c, hc, -⟩ | ⟨c, hc, hd⟩
  · exact ⟨a, c ++ ['\n'], by rw [hc]; simp⟩
  · rcases List.append_eq_append_iff.1 hc with ⟨d, rfl, hod⟩ | ⟨d, rfl, rfl⟩
    · clear hc
      rename' hod => hc
      rcases c with _ | ⟨c1, _ | ⟨c2, c⟩⟩
      · rw [List.append_nil] at hc
        exact ⟨a, ['\n'], by rw [hc]⟩
      · have : c1 = '\n' := by rw [hr] at hd; simpa using (congrArg List.head? hd).symm
        subst this
        exact ⟨a, [], by rw [hc]; simp⟩
      · exfalso
        have h12 : c1 = '\n' ∧ c2 = 'f' := by
          rw [hr] at hd
          simp only [List.cons_append, List.cons.injEq] at hd
          exact ⟨hd.1.symm, hd.2.1.symm⟩
        obtain ⟨rfl, rfl⟩ := h12
        by_cases hd0 : d = []
        · rw [hd0, List.nil_append] at hc
          rw [← hc] at hd
          have := congrArg (List.count '\n') hd
          rw [List.count_append] at this; omega
        · have key : ∀ k, k < oldSnippet.length → k ≠ 0 → (oldSnippet.drop k).take 2 ≠ ['\n', 'f'] := by decide
          refine key d.length (by rw [hc]; simp) (by simpa using hd0) ?_
          rw [hc]; simp
    · exfalso
      have := congrArg (List.count '\n') hd
      rw [List.count_append, List.count_append] at this; omega

theorem initText_again (src old : Str) (hs : PlainName src) (ho : ¬ oldSnippet <:+: readText old ++ ['\n']) :
    initText src (initText src old) = initText src old := by
  have hm := module_eol hs
  have h1 : ¬ oldSnippet <:+: readText old := fun h => ho (h.trans (List.prefix_append _ _).isInfix)
  have h2 := snippet_mem src old hs
  have key : ¬ oldSnippet <:+: readText (initText src old) := by
    have e : initText src old = old ∨ initText src old = old ++ initSnippet (splitextRoot (basename src)) := by
      unfold initText newInit
      simp only [h1, if_false]
      split_ifs
      · exact .inl rfl
      · exact .inr rfl
    rcases e with e | e
    · rwa [e]
    · rw [e]
      obtain ⟨w, hw, hw'⟩ := readText_snippet old hm
      rw [hw]
      intro h
      have h3 := old_not_mem hm h
      rcases hw' with rfl | hw'
      · exact ho h3
      · rw [hw'] at h3; exact h1 h3
  generalize initText src old = t at h2 key ⊢
  unfold initText newInit
  simp only [key, if_false, h2, not_true_eq_false]

/-! ## `MANIFEST.in` and `.gitattributes` -/

theorem complete_include (t f : Str) : Complete (t ++ includeLine f) := by
  rw [includeLine_def, ← List.append_assoc]; exact complete_line _ _

theorem simpleIncludes_getD (o : Option Str) : simpleIncludes o = simpleIncludes (some (o.getD [])) := rfl

theorem manifest_mem (src : Str) (o : Option Str) (hs : PlainName src) (hc : Complete (o.getD [])) :
    versioneerPy ∈ simpleIncludes (manifestText src o) ∧ src ∈ simpleIncludes (manifestText src o) := by
  unfold manifestText
  by_cases h1 : versioneerPy ∈ simpleIncludes o <;> by_cases h2 : src ∈ simpleIncludes o
  · simp [h1, h2]
  · simp only [h1, h2, and_false, if_false, if_true, List.append_nil]
    rw [simpleIncludes_append hc hs, ← simpleIncludes_getD]
    exact ⟨List.mem_append_left _ h1, by simp⟩
  · simp only [h1, h2, false_and, if_false, if_true, List.append_nil]
    rw [simpleIncludes_append hc plain_versioneer, ← simpleIncludes_getD]
    exact ⟨by simp, List.mem_append_left _ h2⟩
  · simp only [h1, h2, false_and, if_false]
    rw [simpleIncludes_append (complete_include _ _) hs, simpleIncludes_append hc plain_versioneer, ← simpleIncludes_getD]
    exact ⟨by simp, by simp⟩

theorem manifest_again (src : Str) (o : Option Str) (hs : PlainName src) (hc : Complete (o.getD [])) :
    manifestText src (manifestText src o) = manifestText src o := by
  conv_lhs => unfold manifestText
  exact if_pos (manifest_mem src o hs hc)

theorem attr_present (src : Str) (o : Option Str) (hs : PlainName src) (hc : Complete (o.getD [])) :
    attrPresent src (attrText src o) = true := by
  unfold attrText
  split_ifs with h
  · exact h
  · exact present_append hc hs

theorem attr_again (src : Str) (o : Option Str) (hs : PlainName src) (hc : Complete (o.getD [])) :
    attrText src (attrText src o) = attrText src o := by
  conv_lhs => unfold attrText
  exact if_pos (attr_present src o hs hc)

end Snompy.Version
