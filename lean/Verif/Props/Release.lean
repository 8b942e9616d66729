import Verif.Lemmas.VersionFile
import Verif.Props.Version

/-!
# C96–C98: the version of a distribution
-/

namespace Snompy.Props

open Snompy.Version

/-! ## C96: source distributions -/

/-- Whatever a version dictionary contains, the file that `write_to_version_file` writes for it gives it back: any strings,
on Windows and elsewhere. -/
theorem C96_file (win32 : Bool) (d : PyDict) (hk : (d.map Prod.fst).Nodup) :
    ∃ d', versionsFromFile (some (writeVersionFile win32 d)) = .ok d' ∧ d'.Perm d :=
  ⟨_, versionsFromFile_file win32 d hk, sortKeys_perm d⟩

example : ((infoDict ⟨"1.0\"'''\\\n  # END VERSION_JSON\n☃𝔘".toList, none, some true, none, none⟩).map Prod.fst).Nodup := by
  decide

/-- The file is ASCII, whatever the version is. -/
theorem C96_ascii (win32 : Bool) (d : PyDict) (c : Char) (hc : c ∈ writeVersionFile win32 d) : c.toNat < 128 := by
  have h : ∀ c, Plain c → c.toNat < 128 := by
    rintro c (h | rfl)
    · exact lt_of_le_of_lt h.2 (by norm_num)
    · decide
  unfold writeVersionFile writeText at hc
  split at hc
  · rw [List.mem_flatMap] at hc
    obtain ⟨x, hx, hc⟩ := hc
    split at hc
    · revert c; decide
    · rw [List.mem_singleton] at hc
      exact hc ▸ h x (shortVersionPy_plain d x hx)
  · exact h c (shortVersionPy_plain d c hc)

/-- The version of an unpacked source distribution is the one with which it was made, wherever it is unpacked: neither git nor
the names of the directories matter. -/
theorem C96_sdist (sys : Sys) (cfg : Config) (root : Str) (win32 : Bool) (d : PyDict) (hk : (d.map Prod.fst).Nodup) :
    ∃ d', setupVersions sys cfg root (some (writeVersionFile win32 d)) = .ok d' ∧ d'.Perm d := by
  refine ⟨sortKeys d, ?_, sortKeys_perm d⟩
  unfold setupVersions
  rw [short_keywords, versionsFromKeywords, versionsFromFile_file win32 d hk]
  rfl

/-- What is built from an unpacked source distribution has the same version file, character for character (on the same kind of
system). -/
theorem C96_rebuild (sys sys' : Sys) (cfg cfg' : Config) (root root' : Str) (file : Option Str) (text : Str)
    (hsys : sys'.win32 = sys.win32) (h : releaseFile sys cfg root file = .ok text) :
    releaseFile sys' cfg' root' (some text) = .ok text := by
  cases hv : setupVersions sys cfg root file with
  | error e => rw [releaseFile, hv] at h; simp [bind, Except.bind] at h
  | ok d =>
    have ht : text = writeVersionFile sys.win32 d := by
      rw [releaseFile, hv] at h
      simpa [bind, Except.bind, pure, Except.pure] using h.symm
    subst ht
    have h1 : setupVersions sys' cfg' root' (some (writeVersionFile sys.win32 d)) = .ok (sortKeys d) := by
      unfold setupVersions
      rw [short_keywords, versionsFromKeywords, versionsFromFile_file sys.win32 d (setupVersions_nodup sys cfg root file d hv)]
      rfl
    have h2 : writeVersionFile sys.win32 (sortKeys d) = writeVersionFile sys.win32 d := by
      rw [writeVersionFile, writeVersionFile, jsonDumps_eq, jsonDumps_eq, sortKeys_idem]
    rw [releaseFile, h1]
    simp only [bind, Except.bind, pure, Except.pure, hsys, h2]

/-! ## C97: the package and `setup.py` agree -/

/-- In a source tree with the long version file, `setup.py` finds the version that the package reports when it is imported
there: in a git repository, in an archive of git, and elsewhere; also the failures are the same. -/
theorem C97_agree (sys : Sys) (cfg : Config) (root f text : Str) (hf : sys.file = some f)
    (hroot : root = (split cfg.versionfileSource ['/']).foldl (fun r _ => dirname r) f)
    (hlong : ¬ "version_json = '''".toList <:+: readText text) :
    setupVersions sys cfg root (some text) =
      (getVersionsWith sys (getKeywords (some (linesOf [] (readText text)))) cfg).map infoDict := by
  have hfile : versionsFromFile (some text) = .error .notThisMethod := by
    rw [versionsFromFile, searchBetween_none, searchBetween_none]
    · rfl
    · exact fun h => hlong (List.IsInfix.trans ⟨[], "\r\n".toList, by decide⟩ h)
    · exact fun h => hlong (List.IsInfix.trans ⟨[], "\n".toList, by decide⟩ h)
  have key : ∀ (x : VM Info) (r : VM PyDict) (r' : VM Info), r = r'.map infoDict →
      orElseDict (x.map infoDict) r = (orElse x r').map infoDict := by
    rintro x r r' rfl
    rcases x with (_ | _ | _ | _ | _ | _ | _) | x <;> rfl
  unfold setupVersions getVersionsWith
  rw [Option.map_some, hfile, hf]
  apply key
  dsimp only
  rw [← hroot]
  refine Eq.trans (b := orElseDict _ _) rfl (key _ _ _ ?_)
  split
  · exact (key (.error .notThisMethod) _ _ rfl)
  · exact key _ _ _ rfl

/-! ## C98: installed packages -/

/-- A string without quotes, backslashes, control characters and characters outside the basic multilingual plane, and without
three apostrophes in a row. -/
def Survives (s : Str) : Prop :=
  (∀ c ∈ s, c ≠ '"' ∧ c ≠ '\\' ∧ 32 ≤ c.toNat ∧ c.toNat < 0x10000) ∧ ¬ "'''".toList <:+: s

private theorem Survives.safe {s : Str} (h : Survives s) : Safe s :=
  ⟨h.1, runs_of_infix (by decide) (by simpa using h.2)⟩

private theorem survives_sub {s : Str} (h : ∀ c ∈ s, SafeChar c ∧ c ≠ '\'') : Safe s :=
  ⟨fun c hc => (h c hc).1, Runs.of_not_mem fun hm => (h _ hm).2 rfl⟩

private theorem import_safe (win32 : Bool) (v : Info) (h1 : Safe v.version) (h2 : ∀ s ∈ v.fullRevisionid, Safe s)
    (h3 : ∀ s ∈ v.error, Safe s) (h4 : ∀ s ∈ v.date, Safe s) :
    ∃ d, importFile (writeVersionFile win32 (infoDict v)) = .result (.ok d) ∧ d.Perm (infoDict v) := by
  have ho : ∀ o : Option Str, (∀ s ∈ o, Safe s) → (optStr o).Safe := by
    rintro (_ | s) h
    · trivial
    · exact h s rfl
  have hk : ∀ k ∈ (infoDict v).map Prod.fst, Safe k := by
    intro k hk
    apply survives_sub
    simp only [infoDict, List.map_cons, List.map_nil, List.mem_cons, List.not_mem_nil, or_false] at hk
    rcases hk with rfl | rfl | rfl | rfl | rfl <;> decide
  refine ⟨_, importFile_safe win32 (infoDict v) (infoDict_nodup v) fun kv hkv => ⟨hk _ (List.mem_map_of_mem hkv), ?_⟩,
    sortKeys_perm _⟩
  simp only [infoDict, List.mem_cons, List.not_mem_nil, or_false] at hkv
  rcases hkv with rfl | rfl | rfl | rfl | rfl
  · exact h1
  · exact ho _ h2
  · rcases v.dirty with _ | _ <;> trivial
  · exact ho _ h3
  · exact ho _ h4

/-- The version of an installed package is the one with which it was built, if its strings need no escapes.  (Missing: other
strings, for which this is false, `C98_false`.) -/
theorem C98_partial (win32 : Bool) (v : Info) (h1 : Survives v.version) (h2 : ∀ s ∈ v.fullRevisionid, Survives s)
    (h3 : ∀ s ∈ v.error, Survives s) (h4 : ∀ s ∈ v.date, Survives s) :
    ∃ d, importFile (writeVersionFile win32 (infoDict v)) = .result (.ok d) ∧ d.Perm (infoDict v) :=
  import_safe win32 v h1.safe (fun s hs => (h2 s hs).safe) (fun s hs => (h3 s hs).safe) fun s hs => (h4 s hs).safe

example : Survives "0.1'α''+4.g1f2e3d4.dirty".toList := by unfold Survives; decide

private theorem hex_char {c : Char} (h : isHex c = true) : SafeChar c ∧ c ≠ '\'' := by
  have h' : (48 ≤ c.toNat ∧ c.toNat ≤ 57) ∨ (97 ≤ c.toNat ∧ c.toNat ≤ 102) := by simpa [isHex] using h
  refine ⟨⟨?_, ?_, by omega, by omega⟩, ?_⟩ <;> rintro rfl <;> revert h' <;> decide

private theorem date_char {c : Char} (h : '+' ≤ c ∧ c ≤ ':') : SafeChar c ∧ c ≠ '\'' := by
  have h1 : 43 ≤ c.toNat := h.1
  have h2 : c.toNat ≤ 58 := h.2
  refine ⟨⟨?_, ?_, by omega, by omega⟩, ?_⟩ <;> rintro rfl <;> revert h1 h2 <;> decide

private theorem dec_char (n : ℕ) : ∀ c ∈ dec n, SafeChar c ∧ c ≠ '\'' := by
  intro c hc
  rw [dec_eq] at hc
  have h : 48 ≤ c.toNat ∧ c.toNat ≤ 57 := by
    have := natStr_digit n c hc
    omega
  refine ⟨⟨?_, ?_, by omega, by omega⟩, ?_⟩ <;> rintro rfl <;> revert h <;> decide

private theorem safe_append {a b : Str} (ha : Safe a) (hb : ∀ c ∈ b, SafeChar c ∧ c ≠ '\'') : Safe (a ++ b) := by
  refine ⟨fun c hc => ?_, ?_⟩
  · rcases List.mem_append.1 hc with hc | hc
    · exact ha.chars c hc
    · exact (hb c hc).1
  · cases b with
    | nil => simpa using ha.runs
    | cons x b =>
      exact Runs.append (hb x (by simp)).2 ha.runs (Runs.of_not_mem fun hm => (hb _ (by simp [hm])).2 rfl)

private theorem pep440_safe (r : Repo) (hr : r.Ok) (ht : ∀ t ∈ r.tag, Survives t) : Safe r.pep440 := by
  have hhash : ∀ c ∈ r.hash, isHex c = true := by
    unfold Repo.hash
    split
    · exact fun c hc => hr.full.2 c (List.mem_of_mem_take hc)
    · exact hr.short.2
  have hrest : ∀ c ∈ dec r.distance ++ ".g".toList ++ r.hash ++ (if r.dirty then ".dirty".toList else []),
      SafeChar c ∧ c ≠ '\'' := by
    intro c hc
    simp only [List.mem_append] at hc
    rcases hc with ((hc | hc) | hc) | hc
    · exact dec_char _ c hc
    · revert c; decide
    · exact hex_char (hhash c hc)
    · split at hc
      · revert c; decide
      · simp at hc
  unfold Repo.pep440
  dsimp only
  generalize dec r.distance ++ ".g".toList ++ r.hash ++ (if r.dirty then ".dirty".toList else []) = rest at hrest ⊢
  cases htag : r.tag with
  | none =>
    exact safe_append (survives_sub (by decide)) hrest
  | some t =>
    have hs := (ht t htag).safe
    dsimp only
    split_ifs
    · exact hs
    · exact safe_append (safe_append hs (by decide)) hrest
    · exact safe_append (safe_append hs (by decide)) hrest

/-- What is built in a git repository, also by way of a source distribution, reports after its installation the version that the
documentation promises for the repository, if the tag needs no escapes. -/
theorem C98_repo_partial (sys : Sys) (root tree : Str) (r : Repo) (hr : r.Ok)
    (hroot : root ≠ [] ∧ root.getLast? ≠ some '/') (hfile : sys.file = some (root ++ "/snompy/_version.py".toList))
    (hrun : r.Answers [] fun args hide => runCommand sys (if sys.win32 then ["git.cmd", "git.exe"] else ["git"]) args root
      (sys.environ.filter fun kv => kv.1 ≠ "GIT_DIR".toList) hide)
    (hkw : getKeywords (some (linesOf [] (readText tree))) = keywordsInTree)
    (hlong : ¬ "version_json = '''".toList <:+: readText tree)
    (htag : ∀ t ∈ r.tag, Survives t) (hdate : ∀ c ∈ r.day ++ r.time ++ r.zone, '+' ≤ c ∧ c ≤ ':') :
    ∃ text d, releaseFile sys {} root (some tree) = .ok text ∧
      (∀ sys' cfg' root', sys'.win32 = sys.win32 → releaseFile sys' cfg' root' (some text) = .ok text) ∧
      importFile text = .result (.ok d) ∧
      d.Perm [("version".toList, .str r.pep440), ("full-revisionid".toList, .str r.full),
        ("dirty".toList, .bool r.dirty), ("error".toList, .null), ("date".toList, .str r.isoDate)] := by
  have hv : setupVersions sys {} root (some tree) =
      .ok (infoDict ⟨r.pep440, some r.full, some r.dirty, none, some r.isoDate⟩) := by
    rw [C97_agree sys {} root _ tree hfile (root_of_file root hroot.1 hroot.2).symm hlong, hkw]
    have := C75_version sys root r hr hroot hfile hrun
    rw [getVersions] at this
    rw [this]
    rfl
  have hrel : releaseFile sys {} root (some tree) =
      .ok (writeVersionFile sys.win32 (infoDict ⟨r.pep440, some r.full, some r.dirty, none, some r.isoDate⟩)) := by
    rw [releaseFile, hv]
    rfl
  obtain ⟨d, hd, hp⟩ := import_safe sys.win32 ⟨r.pep440, some r.full, some r.dirty, none, some r.isoDate⟩
    (pep440_safe r hr htag)
    (fun s hs => survives_sub fun c hc => by
      cases hs
      exact hex_char (hr.full.2 c hc))
    (fun s hs => by cases hs)
    (fun s hs => survives_sub fun c hc => by
      cases hs
      simp only [Repo.isoDate, List.mem_append] at hc
      simp only [List.mem_append] at hdate
      rcases hc with ((hc | hc) | hc) | hc
      · exact date_char (hdate c (by tauto))
      · revert c; decide
      · exact date_char (hdate c (by tauto))
      · exact date_char (hdate c (by tauto)))
  exact ⟨_, d, hrel, fun sys' cfg' root' h => C96_rebuild sys sys' {} cfg' root root' _ _ h hrel, hd, hp⟩

private def exampleTagged : Repo :=
  { tag := some "0.1'2''".toList
    distance := 3
    short := "1f2e3d4".toList
    full := "1f2e3d4c5b6a".toList
    dirty := true
    signature := []
    head := .branch "master".toList
    day := "2024-01-02".toList
    time := "03:04:05".toList
    zone := "+0100".toList }

/-- A computer on which git answers for a repository. -/
private def repoSys (r : Repo) : Sys :=
  { win32 := false
    environ := []
    popen := fun _ args _ _ _ =>
      match r.prints [] args with
      | some a => .done (a.map (fun c => UInt8.ofNat c.toNat) ++ [10]) 0
      | none => .done [] 1
    decode := fun b => some (b.map fun x => Char.ofNat x.toNat)
    digits := fun _ => none
    file := some "/src/snompy/_version.py".toList }

/-- The lines of `_version.py` that matter. -/
private def tree : Str :=
  ("def get_keywords():\n    git_refnames = \"$Format:%d$\"\n    git_full = \"$Format:%H$\"\n" ++
    "    git_date = \"$Format:%ci$\"\n").toList

/-- The hypotheses of `C98_repo_partial` can be met. -/
example : exampleTagged.Ok ∧ (repoSys exampleTagged).file = some ("/src".toList ++ "/snompy/_version.py".toList) ∧
    (exampleTagged.Answers [] fun args hide => runCommand (repoSys exampleTagged)
      (if (repoSys exampleTagged).win32 then ["git.cmd", "git.exe"] else ["git"]) args "/src".toList
      ((repoSys exampleTagged).environ.filter fun kv => kv.1 ≠ "GIT_DIR".toList) hide) ∧
    getKeywords (some (linesOf [] (readText tree))) = keywordsInTree ∧
    ¬ "version_json = '''".toList <:+: readText tree ∧ (∀ t ∈ exampleTagged.tag, Survives t) ∧
    ∀ c ∈ exampleTagged.day ++ exampleTagged.time ++ exampleTagged.zone, '+' ≤ c ∧ c ≤ ':' := by
  have w : ∀ s : Str, (s ≠ [] ∧ s.all (isSpace · = false) = true) → Word s := fun s h =>
    ⟨h.1, fun c hc => by simpa using List.all_eq_true.1 h.2 c hc⟩
  have x : ∀ s : Str, (s ≠ [] ∧ s.all isHex = true) → s ≠ [] ∧ ∀ c ∈ s, isHex c = true := fun s h =>
    ⟨h.1, fun c hc => List.all_eq_true.1 h.2 c hc⟩
  refine ⟨⟨?_, x _ (by decide), x _ (by decide), ?_, ?_, .inl rfl, w _ (by decide), w _ (by decide), w _ (by decide)⟩,
    by decide, fun args a h hide => ?_, by decide +kernel, by decide +kernel, ?_, by decide⟩
  · rintro t ht
    obtain rfl : "0.1'2''".toList = t := by simpa [exampleTagged] using ht
    exact w _ (by decide)
  · intro b hb
    obtain rfl := Head.branch.inj hb
    exact ⟨w _ (by decide), by decide⟩
  · intro d bs h; cases h
  · have e : (repoSys exampleTagged).popen "git" args "/src".toList
        ((repoSys exampleTagged).environ.filter fun kv => kv.1 ≠ "GIT_DIR".toList) hide =
          .done (a.map (fun c => UInt8.ofNat c.toNat) ++ [10]) 0 := by
      simp only [repoSys, h]
    show runCommand (repoSys exampleTagged) ["git"] args _ _ hide = _
    rw [runCommand, e]
    have hd : (repoSys exampleTagged).decode (bytesStrip (a.map (fun c => UInt8.ofNat c.toNat) ++ [10])) = some a := by
      unfold Repo.prints at h
      rw [if_pos (rfl : ([] : Str) = [])] at h
      split at h; · cases h; decide
      split at h; · cases h; decide
      split at h; · cases h; decide
      split at h; · cases h; decide
      split at h; · cases h
      split at h; · cases h; decide
      split at h; · cases h; decide
      cases h
    simp only [hd]
    rfl
  · intro t ht
    obtain rfl : "0.1'2''".toList = t := by simpa [exampleTagged] using ht
    unfold Survives
    decide

/-! The tag `1"` is a legal name of a tag. -/

private def quoteRepo : Repo :=
  { tag := some "1\"".toList
    distance := 0
    short := "1f2e3d4".toList
    full := "1f2e3d4c5b6a".toList
    dirty := false
    signature := []
    head := .branch "master".toList
    day := "2024-01-02".toList
    time := "03:04:05".toList
    zone := "+0100".toList }

/-- In a checkout of a commit with the tag `1"` the version is `1"`; but the package that is built there cannot be imported. -/
theorem C98_false : ∃ (sys : Sys) (root tree text : Str),
    getVersionsWith sys (getKeywords (some (linesOf [] (readText tree)))) {} =
      .ok ⟨"1\"".toList, some "1f2e3d4c5b6a".toList, some false, none, some "2024-01-02T03:04:05+0100".toList⟩ ∧
    releaseFile sys {} root (some tree) = .ok text ∧ importFile text = .result (.error .valueError) := by
  refine ⟨repoSys quoteRepo, "/src".toList, tree, writeVersionFile false (infoDict ⟨"1\"".toList, some "1f2e3d4c5b6a".toList,
    some false, none, some "2024-01-02T03:04:05+0100".toList⟩), ?_, ?_, ?_⟩
  · decide +kernel
  · decide +kernel
  · decide +kernel

end Snompy.Props
