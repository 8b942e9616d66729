import Verif.Lemmas.Version

/-!
# C78, C79: failures of git, and running commands
-/

namespace Snompy.Props

open Snompy.Version

/-! ## C79: running commands -/

/-- The first command that exists decides: what it prints, without whitespace around it, if it ends well; nothing if it
fails or cannot be started. -/
theorem C79_first (sys : Sys) (missing rest : List String) (c : String) (args : List String) (cwd : Str) (env : Environ)
    (hide : Bool) (hm : ∀ m ∈ missing, sys.popen m args cwd env hide = .osError true) :
    (∀ out s, sys.popen c args cwd env hide = .done out 0 → sys.decode (bytesStrip out) = some s →
      runCommand sys (missing ++ c :: rest) args cwd env hide = .ok (some s, some 0)) ∧
    (∀ out s rc, rc ≠ 0 → sys.popen c args cwd env hide = .done out rc → sys.decode (bytesStrip out) = some s →
      runCommand sys (missing ++ c :: rest) args cwd env hide = .ok (none, some rc)) ∧
    (sys.popen c args cwd env hide = .osError false →
      runCommand sys (missing ++ c :: rest) args cwd env hide = .ok (none, none)) := by
  have h0 : runCommand sys (missing ++ c :: rest) args cwd env hide = runCommand sys (c :: rest) args cwd env hide := by
    induction missing with
    | nil => rfl
    | cons m ms ih =>
      rw [List.cons_append, runCommand, hm m (by simp)]
      exact ih fun x hx => hm x (by simp [hx])
  rw [h0]
  refine ⟨fun out s h1 h2 => ?_, fun out s rc hrc h1 h2 => ?_, fun h1 => ?_⟩
  · simp [runCommand, h1, h2]
  · simp [runCommand, h1, h2, hrc]
  · simp [runCommand, h1]

/-- Without any of the commands there is neither output nor a return code. -/
theorem C79_missing (sys : Sys) (commands args : List String) (cwd : Str) (env : Environ) (hide : Bool)
    (hm : ∀ m ∈ commands, sys.popen m args cwd env hide = .osError true) :
    runCommand sys commands args cwd env hide = .ok (none, none) := by
  induction commands with
  | nil => rfl
  | cons m ms ih =>
    rw [runCommand, hm m (by simp)]
    exact ih fun x hx => hm x (by simp [hx])

/-- There is output exactly if the return code is 0. -/
theorem C79_output (sys : Sys) (commands args : List String) (cwd : Str) (env : Environ) (hide : Bool) (o : Option Str)
    (rc : Option ℤ) (h : runCommand sys commands args cwd env hide = .ok (o, rc)) : o.isSome = true ↔ rc = some 0 := by
  induction commands with
  | nil =>
    simp only [runCommand, Except.ok.injEq, Prod.mk.injEq] at h
    simp [← h.1, ← h.2]
  | cons m ms ih =>
    rw [runCommand] at h
    split at h
    · exact ih h
    · simp only [Except.ok.injEq, Prod.mk.injEq] at h
      simp [← h.1, ← h.2]
    · split at h
      · simp at h
      · split at h
        · rename_i hrc
          simp only [Except.ok.injEq, Prod.mk.injEq] at h
          simp [← h.1, ← h.2, hrc]
        · rename_i hrc
          simp only [Except.ok.injEq, Prod.mk.injEq] at h
          simp only [ne_eq, not_not] at hrc
          simp [← h.1, ← h.2, hrc]

/-- The only exception is that the output is not text. -/
theorem C79_raises (sys : Sys) (commands args : List String) (cwd : Str) (env : Environ) (hide : Bool) (e : VErr)
    (h : runCommand sys commands args cwd env hide = .error e) : e = .unicodeDecodeError := by
  induction commands with
  | nil => simp [runCommand] at h
  | cons m ms ih =>
    rw [runCommand] at h
    split at h
    · exact ih h
    · simp at h
    · split at h
      · simpa using h.symm
      · split at h <;> simp at h

/-- The environment variable `GIT_DIR` has no influence on the version number. -/
theorem C79_git_dir (sys : Sys) (kw : Keywords) (env : Environ)
    (h : env.filter (fun kv => kv.1 ≠ "GIT_DIR".toList) = sys.environ.filter fun kv => kv.1 ≠ "GIT_DIR".toList) :
    getVersions { sys with environ := env } kw = getVersions sys kw := by
  have hrun : ∀ commands args cwd e hide,
      runCommand { sys with environ := env } commands args cwd e hide = runCommand sys commands args cwd e hide := by
    intro commands args cwd e hide
    induction commands with
    | nil => rfl
    | cons m ms ih =>
      rw [runCommand, runCommand]
      simp only [ih]
  have hrun' : runCommand { sys with environ := env } = runCommand sys := by
    funext commands args cwd e hide
    exact hrun commands args cwd e hide
  have hp : ∀ pre root, piecesFromVcs { sys with environ := env } pre root (runCommand { sys with environ := env }) =
      piecesFromVcs sys pre root (runCommand sys) := by
    intro pre root
    rw [hrun']
    unfold piecesFromVcs
    rw [show gitEnviron env = gitEnviron sys.environ from h]
  unfold getVersions
  generalize ({} : Config) = cfg
  unfold getVersionsWith
  cases hf : sys.file with
  | none => rfl
  | some file =>
    refine congrArg (orElse _) ?_
    rw [hf] at hp
    dsimp only
    rw [hp]

/-! ## C78: failures -/

/-- The run of a command in the root of the source tree. -/
private abbrev run (sys : Sys) (root : Str) (args : List String) (hide : Bool) : VM (Option Str × Option ℤ) :=
  runCommand sys (if sys.win32 then ["git.cmd", "git.exe"] else ["git"]) args root
    (sys.environ.filter fun kv => kv.1 ≠ "GIT_DIR".toList) hide

/-- `NotThisMethod` never leaves `get_versions`. -/
theorem C78_caught (sys : Sys) (kw : Keywords) : getVersions sys kw ≠ .error .notThisMethod := by
  have ho : ∀ x rest, orElse x rest = .error .notThisMethod → rest = .error .notThisMethod := by
    intro x rest h
    unfold orElse at h
    split at h
    · exact h
    · rename_i hne
      exact absurd h hne
  intro h
  unfold getVersions getVersionsWith at h
  have h1 := ho _ _ h
  split at h1
  · simp at h1
  · simpa using ho _ _ (ho _ _ h1)

private theorem tree_keywords (ext : DigitTable) :
    versionsFromKeywords ext keywordsInTree [] = .error .notThisMethod := by
  have h1 : isoDate "$Format:%ci$".toList = .ok "$Format:%ci$".toList := by decide
  have h2 : startsWith (strip "$Format:%d$".toList) "$Format".toList = true := by decide
  simp only [versionsFromKeywords, keywordsInTree, keywordsDate, h1, bind, Except.bind, pure, Except.pure, h2, if_true]

/-- Without `__file__` the version number is `0+unknown`. -/
theorem C78_no_file (sys : Sys) (h : sys.file = none) :
    getVersions sys keywordsInTree =
      .ok ⟨"0+unknown".toList, none, none, some "unable to find root of source tree".toList, none⟩ := by
  simp only [getVersions, getVersionsWith, tree_keywords, orElse, h]

/-- If the source tree is not a git repository, or git is missing, or one of the first commands fails, then the version number
is `0+unknown`. -/
theorem C78_fallback (sys : Sys) (file root : Str) (hfile : sys.file = some file)
    (hroot : root = (split "snompy/_version.py".toList ['/']).foldl (fun r _ => dirname r) file)
    (hok : ∀ args hide, ∃ o rc, runCommand sys (if sys.win32 then ["git.cmd", "git.exe"] else ["git"]) args root
      (sys.environ.filter fun kv => kv.1 ≠ "GIT_DIR".toList) hide = .ok (o, rc))
    (hfail : ∃ args ∈ [["rev-parse", "--git-dir"], ["describe", "--tags", "--dirty", "--always", "--long"],
        ["rev-parse", "HEAD"], ["rev-parse", "--abbrev-ref", "HEAD"]], ∀ hide, ∃ rc,
      runCommand sys (if sys.win32 then ["git.cmd", "git.exe"] else ["git"]) args root
        (sys.environ.filter fun kv => kv.1 ≠ "GIT_DIR".toList) hide = .ok (none, rc)) :
    getVersions sys keywordsInTree =
      .ok ⟨"0+unknown".toList, none, none, some "unable to compute version".toList, none⟩ := by
  have hp : piecesFromVcs sys [] root (runCommand sys) = .error .notThisMethod := by
    obtain ⟨args, hargs, hf⟩ := hfail
    have hout := fun args hide o rc => C79_output sys (if sys.win32 then ["git.cmd", "git.exe"] else ["git"]) args root
      (sys.environ.filter fun kv => kv.1 ≠ "GIT_DIR".toList) hide o rc
    unfold piecesFromVcs gitEnviron
    generalize hrun : (fun args hide => runCommand sys (if sys.win32 then ["git.cmd", "git.exe"] else ["git"]) args root
      (sys.environ.filter fun kv => kv.1 ≠ "GIT_DIR".toList) hide) = run
    have hr : ∀ args hide, runCommand sys (if sys.win32 then ["git.cmd", "git.exe"] else ["git"]) args root
      (sys.environ.filter fun kv => kv.1 ≠ "GIT_DIR".toList) hide = run args hide := fun args hide => by rw [← hrun]
    simp only [hr] at hok hf hout
    clear hr hrun
    obtain ⟨o1, rc1, h1⟩ := hok ["rev-parse", "--git-dir"] true
    obtain ⟨o2, rc2, h2⟩ := hok ["describe", "--tags", "--dirty", "--always", "--long"] false
    obtain ⟨o3, rc3, h3⟩ := hok ["rev-parse", "HEAD"] false
    obtain ⟨o4, rc4, h4⟩ := hok ["rev-parse", "--abbrev-ref", "HEAD"] false
    simp only [piecesWith, h1, h2, h3, bind, Except.bind, List.isEmpty_nil, if_true, List.append_nil]
    by_cases hrc1 : rc1 = some 0
    · rw [if_neg (by simp [hrc1])]
      simp only [List.mem_cons, List.not_mem_nil, or_false] at hargs
      rcases hargs with rfl | rfl | rfl | rfl
      · obtain ⟨rc, hf⟩ := hf true
        rw [h1] at hf
        obtain ⟨rfl, -⟩ := Prod.mk.inj (Except.ok.inj hf)
        have := (hout _ _ _ _ h1).2 hrc1
        simp at this
      · obtain ⟨rc, hf⟩ := hf false
        rw [h2] at hf
        obtain ⟨rfl, -⟩ := Prod.mk.inj (Except.ok.inj hf)
        rfl
      · obtain ⟨rc, hf⟩ := hf false
        rw [h3] at hf
        obtain ⟨rfl, -⟩ := Prod.mk.inj (Except.ok.inj hf)
        cases o2 <;> rfl
      · obtain ⟨rc, hf⟩ := hf false
        have hb : headBranch run = .error .notThisMethod := by
          simp only [headBranch, hf, bind, Except.bind]
        rw [hb]
        cases o2 <;> cases o3 <;> rfl
    · rw [if_pos hrc1]
  simp only [getVersions, getVersionsWith, tree_keywords, orElse, hfile, ← hroot, hp, bind, Except.bind, List.isEmpty_nil,
    if_true]

private theorem intGo_all (ext : DigitTable) (cs : Str) (h : ∀ c ∈ cs, isDigit ext c = true) (v : ℕ) :
    ∃ n, intGo ext v cs = some n := by
  induction cs generalizing v with
  | nil => exact ⟨v, rfl⟩
  | cons c cs ih =>
    obtain ⟨d, hd⟩ := Option.isSome_iff_exists.1 (h c (by simp))
    rw [intGo.eq_def]
    simp only [hd]
    exact ih (fun c hc => h c (by simp [hc])) _

private theorem pyInt_all (ext : DigitTable) (hext : ∀ c, isSpace c = true → ext c = none) (s : Str) (hs : s ≠ [])
    (h : ∀ c ∈ s, isDigit ext c = true) : ∃ n, pyInt ext s = .ok n := by
  have hsp : ∀ c ∈ s, isSpace c = false := by
    intro c hc
    by_contra hcon
    rw [Bool.not_eq_false] at hcon
    have h1 := h c hc
    unfold isDigit digitVal at h1
    rw [hext c hcon] at h1
    split at h1
    · split at h1
      · rename_i h2
        rw [ascii_not_space h2] at hcon
        simp at hcon
      · simp at h1
    · simp at h1
  have hm : ∀ d, isDigit ext d = true → d ≠ '-' ∧ d ≠ '+' := by
    intro d hd
    constructor <;> rintro rfl <;> simp [isDigit, digitVal] at hd
  obtain ⟨c, cs, rfl⟩ := List.exists_cons_of_ne_nil hs
  obtain ⟨d, hd⟩ := Option.isSome_iff_exists.1 (h c (by simp))
  obtain ⟨n, hn⟩ := intGo_all ext cs (fun c hc => h c (by simp [hc])) d
  have hu : intUnsigned ext (c :: cs) = some n := by rw [intUnsigned, hd]; exact hn
  have hsig : intSigned ext (c :: cs) = some (n : ℤ) := by
    unfold intSigned
    split
    · rename_i heq
      rw [List.cons.injEq] at heq
      exact absurd heq.1 (hm c (h c (by simp))).1
    · rename_i heq
      rw [List.cons.injEq] at heq
      exact absurd heq.1 (hm c (h c (by simp))).2
    · rw [hu]; rfl
  exact ⟨n, by rw [pyInt, strip_eq_self _ hsp, hsig]⟩

private theorem linesGo_ne (acc s : Str) (h : acc ≠ [] ∨ s ≠ []) : linesGo acc s ≠ [] := by
  fun_induction linesGo acc s with
  | case1 acc ha => simp_all
  | case2 acc ha => simp
  | case3 acc cs => simp
  | case4 => simp
  | case5 acc c cs h1 h2 ih => exact ih (.inl (by simp))

private theorem isoDate_ok (s : Str) (h : s ≠ []) : ∃ d, isoDate s = .ok d := by
  obtain ⟨l, hl⟩ : ∃ l, last (splitLines s) = .ok l := by
    unfold last
    cases hx : (splitLines s).getLast? with
    | some l => exact ⟨l, rfl⟩
    | none => exact absurd (List.getLast?_eq_none_iff.1 hx) (linesGo_ne _ _ (.inr h))
  exact ⟨_, by simp only [isoDate, hl, bind, Except.bind, pure, Except.pure]; rfl⟩

private theorem strip_ne (s : Str) (h : ∃ c ∈ s, isSpace c = false) : strip s ≠ [] := by
  obtain ⟨c, hc, hs⟩ := h
  have hd : ∀ l : Str, c ∈ l → c ∈ l.dropWhile isSpace := by
    intro l hl
    have := List.takeWhile_append_dropWhile (p := isSpace) (l := l)
    rw [← this, List.mem_append] at hl
    rcases hl with hl | hl
    · have := List.all_eq_true.1 (List.all_takeWhile (l := l) (p := isSpace)) _ hl
      rw [hs] at this
      simp at this
    · exact hl
  have : c ∈ strip s := by
    unfold strip stripBy
    rw [List.mem_reverse]
    exact hd _ (List.mem_reverse.2 (hd _ hc))
  exact List.ne_nil_of_mem this

/-- Pieces from which every style that cannot fail makes a version number. -/
private def Complete (p : Pieces) : Prop :=
  (∃ c cs, p.error = some (some (c :: cs))) ∨
    (∃ long short branch dirty tag d date, p = ⟨some long, some short, some none, some branch, some dirty, some tag, some d,
      some date⟩)

private theorem render_complete (ext : DigitTable) (p : Pieces) (h : Complete p) : ∃ i, render ext p (some "pep440") = .ok i := by
  rcases h with ⟨c, cs, h⟩ | ⟨long, short, branch, dirty, tag, d, date, rfl⟩
  · exact ⟨_, by simp only [render, h, key, bind, Except.bind, pure, Except.pure]; rfl⟩
  · obtain ⟨v, hv⟩ : ∃ v, renderPep440 ⟨some long, some short, some none, some branch, some dirty, some tag, some d,
        some date⟩ = .ok v := by
      unfold renderPep440 truthyTag changed plusOrDot distStr shortStr ifDirty
      simp only [key, bind, Except.bind, pure, Except.pure]
      rcases tag with _ | (_ | ⟨c, cs⟩)
      · cases dirty <;> exact ⟨_, rfl⟩
      · cases dirty <;> exact ⟨_, rfl⟩
      · by_cases hd : d ≠ 0
        · simp only [if_pos hd]
          cases dirty <;> exact ⟨_, rfl⟩
        · simp only [if_neg hd]
          cases dirty <;> exact ⟨_, rfl⟩
    refine ⟨⟨v, some long, some dirty, none, some date⟩, ?_⟩
    simp only [render, renderStyle, hv, key, bind, Except.bind, pure, Except.pure, String.reduceEq, or_self, if_false, if_true]

/-- If every command can be started and its output read, git counts the commits and knows the date of the last one, then the
version number is found, whatever else git prints.  (Missing: that nothing of this is needed, which `C78_false` refutes.) -/
theorem C78_partial (sys : Sys) (file root : Str) (hfile : sys.file = some file)
    (hroot : root = (split "snompy/_version.py".toList ['/']).foldl (fun r _ => dirname r) file)
    (hdig : ∀ c, isSpace c = true → sys.digits c = none)
    (hok : ∀ args hide, ∃ o rc, runCommand sys (if sys.win32 then ["git.cmd", "git.exe"] else ["git"]) args root
      (sys.environ.filter fun kv => kv.1 ≠ "GIT_DIR".toList) hide = .ok (o, rc))
    (hcount : ∃ n rc, runCommand sys (if sys.win32 then ["git.cmd", "git.exe"] else ["git"]) ["rev-list", "HEAD", "--count"]
      root (sys.environ.filter fun kv => kv.1 ≠ "GIT_DIR".toList) false = .ok (some (dec n), rc))
    (hshow : ∃ s rc, runCommand sys (if sys.win32 then ["git.cmd", "git.exe"] else ["git"]) ["show", "-s", "--format=%ci", "HEAD"]
      root (sys.environ.filter fun kv => kv.1 ≠ "GIT_DIR".toList) false = .ok (some s, rc) ∧ ∃ c ∈ s, isSpace c = false) :
    ∃ i, getVersions sys keywordsInTree = .ok i := by
  have hp : piecesFromVcs sys [] root (runCommand sys) = .error .notThisMethod ∨
      ∃ p, piecesFromVcs sys [] root (runCommand sys) = .ok p ∧ Complete p := by
    unfold piecesFromVcs gitEnviron
    generalize hrun : (fun args hide => runCommand sys (if sys.win32 then ["git.cmd", "git.exe"] else ["git"]) args root
      (sys.environ.filter fun kv => kv.1 ≠ "GIT_DIR".toList) hide) = run
    have hr : ∀ args hide, runCommand sys (if sys.win32 then ["git.cmd", "git.exe"] else ["git"]) args root
      (sys.environ.filter fun kv => kv.1 ≠ "GIT_DIR".toList) hide = run args hide := fun args hide => by rw [← hrun]
    simp only [hr] at hok hcount hshow
    clear hr hrun
    obtain ⟨n, rcn, hn⟩ := hcount
    obtain ⟨s, rcs, hs, hss⟩ := hshow
    obtain ⟨date, hdate⟩ : ∃ d, commitDate run = .ok d := by
      obtain ⟨d, hd⟩ := isoDate_ok _ (strip_ne s hss)
      exact ⟨d, by simp only [commitDate, hs, bind, Except.bind, hd]⟩
    have hcnt : commitCount sys.digits run = .ok (n : ℤ) := by
      simp only [commitCount, hn, bind, Except.bind, dec_eq, pyInt_natStr]
    have hb : headBranch run = .error .notThisMethod ∨ ∃ b, headBranch run = .ok b := by
      obtain ⟨o4, rc4, h4⟩ := hok ["rev-parse", "--abbrev-ref", "HEAD"] false
      obtain ⟨o5, rc5, h5⟩ := hok ["branch", "--contains"] false
      simp only [headBranch, h4, h5, bind, Except.bind]
      split
      · split
        · split
          · exact .inr ⟨_, rfl⟩
          · exact .inl rfl
        · exact .inr ⟨_, rfl⟩
      · exact .inl rfl
    have hd : ∀ long short branch dirty out describe, ∃ p, describePieces sys.digits [] run
        { long := some long, short := some short, error := some none, branch := some branch, dirty := some dirty }
        out describe = .ok p ∧ Complete p := by
      intro long short branch dirty out describe
      unfold describePieces
      split
      · split
        · exact ⟨_, rfl, .inl ⟨_, _, rfl⟩⟩
        · rename_i tag num hex hmatch
          split
          · obtain ⟨-, -, -, -, ⟨h1, h2⟩, -⟩ := (matchDescribe_iff _ _ _ _ _).1 hmatch
            obtain ⟨m, hm⟩ := pyInt_all sys.digits hdig num h1 h2
            exact ⟨_, by simp only [hm, hdate, bind, Except.bind, pure, Except.pure]; rfl,
              .inr ⟨_, _, _, _, _, _, _, rfl⟩⟩
          · exact ⟨_, rfl, .inl ⟨_, _, rfl⟩⟩
      · exact ⟨_, by simp only [hcnt, hdate, bind, Except.bind, pure, Except.pure]; rfl,
          .inr ⟨_, _, _, _, _, _, _, rfl⟩⟩
    obtain ⟨o1, rc1, h1⟩ := hok ["rev-parse", "--git-dir"] true
    obtain ⟨o2, rc2, h2⟩ := hok ["describe", "--tags", "--dirty", "--always", "--long"] false
    obtain ⟨o3, rc3, h3⟩ := hok ["rev-parse", "HEAD"] false
    simp only [piecesWith, h1, h2, h3, bind, Except.bind, List.isEmpty_nil, if_true, List.append_nil]
    by_cases hrc1 : rc1 = some 0
    · rw [if_neg (by simp [hrc1])]
      rcases o2 with _ | o2
      · exact .inl rfl
      rcases o3 with _ | o3
      · exact .inl rfl
      rcases hb with hb | ⟨b, hb⟩
      · rw [hb]; exact .inl rfl
      · rw [hb]
        exact .inr (hd _ _ _ _ _ _)
    · rw [if_pos hrc1]
      exact .inl rfl
  rcases hp with hp | ⟨p, hp, hc⟩
  · exact ⟨_, by
      simp only [getVersions, getVersionsWith, tree_keywords, orElse, hfile, ← hroot, hp, bind, Except.bind, List.isEmpty_nil,
        if_true]
      rfl⟩
  · obtain ⟨i, hi⟩ := render_complete sys.digits p hc
    exact ⟨i, by
      simp only [getVersions, getVersionsWith, tree_keywords, orElse, hfile, ← hroot, hp, hi, bind, Except.bind]⟩

/-- The computation of the version number can fail: if `git show` fails, a method of `None` is called, and the package cannot
be imported. -/
theorem C78_false : ¬ ∀ sys : Sys, ∃ i, getVersions sys keywordsInTree = .ok i := by
  intro h
  let sys : Sys :=
    { win32 := false
      environ := []
      popen := fun _ args _ _ _ =>
        if args = ["show", "-s", "--format=%ci", "HEAD"] then .done [] 128
        else if args = ["rev-list", "HEAD", "--count"] then .done [49] 0
        else .done [97] 0
      decode := fun b => some (b.map fun x => Char.ofNat x.toNat)
      digits := fun _ => none
      file := some "/r/snompy/_version.py".toList }
  obtain ⟨i, hi⟩ := h sys
  have hp : ∀ root, piecesFromVcs sys [] root (runCommand sys) = .error .attributeError := by
    intro root
    rfl
  simp only [getVersions, getVersionsWith, tree_keywords, orElse, hp, sys, bind, Except.bind] at hi
  simp at hi

/-- A computer without git. -/
private def noGit : Sys :=
  { win32 := false
    environ := []
    popen := fun _ _ _ _ _ => .osError true
    decode := fun b => some (b.map fun x => Char.ofNat x.toNat)
    digits := fun _ => none
    file := some "/src/snompy/_version.py".toList }

example : (∀ args hide, ∃ o rc, runCommand noGit (if noGit.win32 then ["git.cmd", "git.exe"] else ["git"]) args "/src".toList
      (noGit.environ.filter fun kv => kv.1 ≠ "GIT_DIR".toList) hide = .ok (o, rc)) ∧
    (∃ args ∈ [["rev-parse", "--git-dir"], ["describe", "--tags", "--dirty", "--always", "--long"],
        ["rev-parse", "HEAD"], ["rev-parse", "--abbrev-ref", "HEAD"]], ∀ hide, ∃ rc,
      runCommand noGit (if noGit.win32 then ["git.cmd", "git.exe"] else ["git"]) args "/src".toList
        (noGit.environ.filter fun kv => kv.1 ≠ "GIT_DIR".toList) hide = .ok (none, rc)) :=
  ⟨fun _ _ => ⟨none, none, rfl⟩, ["rev-parse", "HEAD"], by simp, fun _ => ⟨none, rfl⟩⟩

/-- A computer on which every command prints `1`. -/
private def oneGit : Sys := { noGit with popen := fun _ _ _ _ _ => .done [49, 10] 0 }

example : (∀ c, isSpace c = true → oneGit.digits c = none) ∧
    (∀ args hide, ∃ o rc, runCommand oneGit (if oneGit.win32 then ["git.cmd", "git.exe"] else ["git"]) args "/src".toList
      (oneGit.environ.filter fun kv => kv.1 ≠ "GIT_DIR".toList) hide = .ok (o, rc)) ∧
    (∃ n rc, runCommand oneGit (if oneGit.win32 then ["git.cmd", "git.exe"] else ["git"]) ["rev-list", "HEAD", "--count"]
      "/src".toList (oneGit.environ.filter fun kv => kv.1 ≠ "GIT_DIR".toList) false = .ok (some (dec n), rc)) ∧
    (∃ s rc, runCommand oneGit (if oneGit.win32 then ["git.cmd", "git.exe"] else ["git"])
      ["show", "-s", "--format=%ci", "HEAD"] "/src".toList
      (oneGit.environ.filter fun kv => kv.1 ≠ "GIT_DIR".toList) false = .ok (some s, rc) ∧ ∃ c ∈ s, isSpace c = false) :=
  ⟨fun _ _ => rfl, fun _ _ => ⟨some ['1'], some 0, rfl⟩, ⟨1, some 0, rfl⟩, ['1'], some 0, rfl, '1', by simp, by decide⟩

end Snompy.Props
