import Verif.Lemmas.Version

/-!
# C74–C80: the version number
-/

namespace Snompy.Props

open Snompy.Version

/-! ## C74: the output of git is understood -/

private theorem prints_dir (r : Repo) (pre : Str) : r.prints pre (["rev-parse", "--git-dir"]) =
    some ".git".toList := by
  simp [Repo.prints]

private theorem prints_describe (r : Repo) (pre : Str) :
    r.prints pre (["describe", "--tags", "--dirty", "--always", "--long"] ++
      (if pre.isEmpty then [] else ["--match", String.ofList (pre ++ ['*'])])) = some r.describe := by
  cases pre <;> simp [Repo.prints]

private theorem prints_full (r : Repo) (pre : Str) : r.prints pre (["rev-parse", "HEAD"]) =
    some r.full := by
  simp [Repo.prints]

private theorem prints_head (r : Repo) (pre : Str) :
    r.prints pre (["rev-parse", "--abbrev-ref", "HEAD"]) = some r.abbrevRef := by
  simp [Repo.prints]

private theorem prints_contains (r : Repo) (pre : Str) :
    r.prints pre (["branch", "--contains"]) = r.contains := by
  simp [Repo.prints]

private theorem prints_count (r : Repo) (pre : Str) : r.prints pre (["rev-list", "HEAD", "--count"]) =
    some (dec r.distance) := by
  simp [Repo.prints]

private theorem prints_show (r : Repo) (pre : Str) :
    r.prints pre (["show", "-s", "--format=%ci", "HEAD"]) =
      some (r.signature ++ r.day ++ " ".toList ++ r.time ++ " ".toList ++ r.zone) := by
  simp [Repo.prints]

private theorem hex_not_space {c : Char} (h : isHex c = true) : isSpace c = false := by
  simp only [isHex, Bool.or_eq_true, Bool.and_eq_true, decide_eq_true_eq] at h
  simp only [isSpace, Bool.or_eq_false_iff, Bool.and_eq_false_iff, decide_eq_false_iff_not, beq_eq_false_iff_ne]
  omega

/-- The part of `git describe` before `-dirty`. -/
private def base (r : Repo) : Str :=
  match r.tag with
  | some t => t ++ "-".toList ++ dec r.distance ++ "-g".toList ++ r.short
  | none => r.short

private theorem full_word {r : Repo} (hr : r.Ok) : Word r.full :=
  ⟨hr.full.1, fun c hc => hex_not_space (hr.full.2 c hc)⟩

private theorem describe_word (r : Repo) (hr : r.Ok) : Word r.describe := by
  have hb : Word (base r) := by
    unfold base
    split
    · rename_i t ht
      have := hr.tag t ht
      refine ⟨by simp, fun c hc => ?_⟩
      simp only [List.mem_append] at hc
      rcases hc with (((h | h) | h) | h) | h
      · exact this.2 c h
      · simp at h; subst h; decide
      · rw [dec_eq] at h; exact ascii_not_space (natStr_digit _ c h)
      · simp at h; rcases h with rfl | rfl <;> decide
      · exact hex_not_space (hr.short.2 c h)
    · exact ⟨hr.short.1, fun c hc => hex_not_space (hr.short.2 c hc)⟩
  have e : r.describe = base r ++ (if r.dirty then "-dirty".toList else []) := by
    unfold Repo.describe base; rfl
  rw [e]
  refine ⟨by simp [hb.1], fun c hc => ?_⟩
  rcases List.mem_append.1 hc with h | h
  · exact hb.2 c h
  · split at h
    · simp at h; rcases h with rfl | rfl | rfl | rfl | rfl | rfl <;> decide
    · simp at h

private theorem strip_word {s : Str} (h : Word s) : strip s = s := strip_eq_self s h.2

private theorem base_not_dirty (r : Repo) (hr : r.Ok) : endsWith (base r) "-dirty".toList = false := by
  rw [Bool.eq_false_iff, Ne, endsWith_iff]
  rintro ⟨t, ht⟩
  have h1 : (base r).getLast? = some 'y' := by rw [← ht]; simp
  obtain ⟨x, c, hc⟩ := List.eq_nil_or_concat r.short |>.resolve_left hr.short.1
  have h2 : (base r).getLast? = some c := by
    unfold base
    split
    · rw [hc, List.concat_eq_append, ← List.append_assoc, List.getLast?_concat]
    · rw [hc, List.concat_eq_append, List.getLast?_concat]
  rw [h1] at h2
  obtain rfl := Option.some.inj h2
  exact absurd (hr.short.2 'y' (by simp [hc])) (by decide)

private theorem describe_dirty (r : Repo) (hr : r.Ok) : endsWith r.describe "-dirty".toList = r.dirty := by
  have e : r.describe = base r ++ (if r.dirty then "-dirty".toList else []) := by
    unfold Repo.describe base; rfl
  rw [e]
  cases r.dirty
  · simpa using base_not_dirty r hr
  · exact (endsWith_iff _ _).2 ⟨_, rfl⟩

private theorem describe_base (r : Repo) :
    (if r.dirty = true then r.describe.take (r.describe.length - 6) else r.describe) = base r := by
  have e : r.describe = base r ++ (if r.dirty then "-dirty".toList else []) := by
    unfold Repo.describe base; rfl
  rw [e]
  cases r.dirty <;> simp

private theorem base_hyphen (r : Repo) (hr : r.Ok) : '-' ∈ base r ↔ r.tag ≠ none := by
  unfold base
  split
  · rename_i t ht; simp [ht]
  · rename_i ht
    simp only [ht, ne_eq, not_true_eq_false, iff_false]
    intro h
    exact absurd (hr.short.2 _ h) (by decide)

private theorem base_match (ext : DigitTable) (r : Repo) (hr : r.Ok) (t : Str) (ht : r.tag = some t) :
    matchDescribe ext (base r) = some (t, dec r.distance, r.short) := by
  rw [matchDescribe_iff]
  have htag := hr.tag t ht
  refine ⟨[], .inl rfl, ?_, ⟨htag.1, fun h => ?_⟩, ⟨?_, fun c hc => ?_⟩, hr.short⟩
  · simp [base, ht]
  · exact absurd (htag.2 _ h) (by decide)
  · rw [dec_eq]; exact natStr_ne_nil _
  · rw [dec_eq] at hc
    exact isDigit_of_ascii ext (natStr_digit _ c hc)

/-- In every repository in which git works, `git_pieces_from_vcs` finds the closest tag without the prefix, the distance, the
hash, uncommitted changes, the branch and the date. -/
theorem C74_pieces (sys : Sys) (pre root : Str) (runner : Runner) (r : Repo) (hr : r.Ok)
    (ht : ∀ t ∈ r.tag, ∃ t', t = pre ++ t')
    (hrun : r.Answers pre fun args hide => runner
      (if sys.win32 then ["git.cmd", "git.exe"] else ["git"]) args root
      (sys.environ.filter fun kv => kv.1 ≠ "GIT_DIR".toList) hide) :
    piecesFromVcs sys pre root runner = .ok
      { long := some r.full
        short := some r.hash
        error := some none
        branch := some r.branchName
        dirty := some r.dirty
        closestTag := some (r.tag.map (·.drop pre.length))
        distance := some r.distance
        date := some r.isoDate } := by
  have a1 := hrun _ _ (prints_dir r pre)
  have a2 := hrun _ _ (prints_describe r pre)
  have a3 := hrun _ _ (prints_full r pre)
  have a4 := hrun _ _ (prints_head r pre)
  have a5 := fun a (h : r.contains = some a) => hrun _ a ((prints_contains r pre).trans h)
  have a6 := hrun _ _ (prints_count r pre)
  have a7 := hrun _ _ (prints_show r pre)
  have hdate : Version.isoDate (strip (r.signature ++ r.day ++ " ".toList ++ r.time ++ " ".toList ++ r.zone)) =
      .ok r.isoDate := by
    have := strip_words r.day r.zone (" ".toList ++ r.time ++ " ".toList) hr.day hr.zone
    obtain ⟨g, hg, he⟩ := strip_sig r.signature _ hr.signature this (by simp)
    have e1 : r.signature ++ r.day ++ " ".toList ++ r.time ++ " ".toList ++ r.zone =
      r.signature ++ (r.day ++ (" ".toList ++ r.time ++ " ".toList) ++ r.zone) := by simp
    have e2 : g ++ (r.day ++ (" ".toList ++ r.time ++ " ".toList) ++ r.zone) =
      g ++ r.day ++ " ".toList ++ r.time ++ " ".toList ++ r.zone := by simp
    rw [e1, he, e2]
    exact isoDate_words _ _ _ _ hg hr.day hr.time hr.zone
  have hint : pyInt sys.digits (dec r.distance) = .ok (r.distance : ℤ) := by
    rw [dec_eq]; exact pyInt_natStr _ _
  have hm : ∀ t, r.tag = some t → startsWith t pre = true := fun t h => by
    obtain ⟨t', rfl⟩ := ht t h
    exact (startsWith_iff _ _).2 ⟨t', rfl⟩
  have hbranch : headBranch (fun args hide => runner (if sys.win32 then ["git.cmd", "git.exe"] else ["git"]) args root
      (sys.environ.filter fun kv => kv.1 ≠ "GIT_DIR".toList) hide) = .ok r.branchName := by
    simp only [headBranch, a4, bind, Except.bind, decide_true]
    cases hh : r.head with
    | branch b =>
      obtain ⟨hb, hbH⟩ := hr.branch b hh
      have e1 : r.abbrevRef = b := by simp [Repo.abbrevRef, hh]
      have e2 : r.branchName = some b := by simp [Repo.branchName, hh]
      rw [e1, e2, strip_word hb, if_neg hbH]
    | detached d bs =>
      obtain ⟨hd, hbs⟩ := hr.detached d bs hh
      have e1 : r.abbrevRef = "HEAD".toList := by simp [Repo.abbrevRef, hh]
      have e2 : r.branchName = if "master".toList ∈ bs then some "master".toList else bs.head? := by
        simp [Repo.branchName, hh]
      have a5' := a5 ("* (".toList ++ d ++ ")".toList ++ (bs.map ("\n  ".toList ++ ·)).flatten) (by
        simp [Repo.contains, hh])
      have hH : strip "HEAD".toList = "HEAD".toList := by decide
      rw [e1, e2, ← pickBranch_detached d bs hd hbs, hH, if_pos rfl]
      simp only [a5', decide_true]
  have hdate' : commitDate (fun args hide => runner (if sys.win32 then ["git.cmd", "git.exe"] else ["git"]) args root
      (sys.environ.filter fun kv => kv.1 ≠ "GIT_DIR".toList) hide) = .ok r.isoDate := by
    simp only [commitDate, a7, bind, Except.bind, hdate]
  have hcount : commitCount sys.digits (fun args hide => runner (if sys.win32 then ["git.cmd", "git.exe"] else ["git"]) args
      root (sys.environ.filter fun kv => kv.1 ≠ "GIT_DIR".toList) hide) = .ok (r.distance : ℤ) := by
    simp only [commitCount, a6, bind, Except.bind, hint]
  simp only [piecesFromVcs, piecesWith, gitEnviron, a1, a2, a3, hbranch, bind, Except.bind, strip_word (describe_word r hr),
    strip_word (full_word hr), describe_dirty r hr, describe_base r]
  rw [if_neg (by simp)]
  simp only [describePieces, base_hyphen r hr]
  cases hcase : r.tag with
  | none =>
    rw [if_neg (by simp)]
    simp only [hcount, hdate', bind, Except.bind, pure, Except.pure, Repo.hash, hcase, if_true, Option.map_none]
  | some t =>
    rw [if_pos (by simp)]
    simp only [base_match sys.digits r hr t hcase, hm t hcase, hint, hdate', bind, Except.bind, pure, Except.pure, Repo.hash,
      hcase, if_true, Option.map_some, reduceCtorEq, if_false]

/-- If the output of `git describe` is not of the form `TAG-DISTANCE-gHEX`, or the tag does not begin with the prefix, then the
version number is `unknown` in every style, with a message. -/
theorem C74_unparsable (sys : Sys) (pre root : Str) (runner : Runner) (x full branch : Str) (dirty : Bool) (style : Option String)
    (hx : Word x) (hf : Word full) (hb : Word branch) (hb' : branch ≠ "HEAD".toList)
    (hd : ¬ "-dirty".toList <:+ x) (hm : '-' ∈ x)
    (hno : ∀ tag num hex, x = tag ++ "-".toList ++ num ++ "-g".toList ++ hex → (num ≠ [] ∧ ∀ c ∈ num, isDigit sys.digits c) →
      (hex ≠ [] ∧ ∀ c ∈ hex, isHex c) → tag ≠ [] → ¬ pre <+: tag)
    (h1 : runner (if sys.win32 then ["git.cmd", "git.exe"] else ["git"]) ["rev-parse", "--git-dir"] root
      (sys.environ.filter fun kv => kv.1 ≠ "GIT_DIR".toList) true = .ok (some ".git".toList, some 0))
    (h2 : runner (if sys.win32 then ["git.cmd", "git.exe"] else ["git"])
      (["describe", "--tags", "--dirty", "--always", "--long"] ++
        (if pre = [] then [] else ["--match", String.ofList (pre ++ "*".toList)])) root
      (sys.environ.filter fun kv => kv.1 ≠ "GIT_DIR".toList) false =
        .ok (some (x ++ if dirty then "-dirty".toList else []), some 0))
    (h3 : runner (if sys.win32 then ["git.cmd", "git.exe"] else ["git"]) ["rev-parse", "HEAD"] root
      (sys.environ.filter fun kv => kv.1 ≠ "GIT_DIR".toList) false = .ok (some full, some 0))
    (h4 : runner (if sys.win32 then ["git.cmd", "git.exe"] else ["git"]) ["rev-parse", "--abbrev-ref", "HEAD"] root
      (sys.environ.filter fun kv => kv.1 ≠ "GIT_DIR".toList) false = .ok (some branch, some 0)) :
    ∃ p e, piecesFromVcs sys pre root runner = .ok p ∧ e ≠ [] ∧
      render sys.digits p style = .ok ⟨"unknown".toList, some full, none, some e, none⟩ := by
  have h2' : runner (if sys.win32 then ["git.cmd", "git.exe"] else ["git"])
      (["describe", "--tags", "--dirty", "--always", "--long"] ++
        (if pre.isEmpty then [] else ["--match", String.ofList (pre ++ ['*'])])) root
      (sys.environ.filter fun kv => kv.1 ≠ "GIT_DIR".toList) false =
        .ok (some (x ++ if dirty then "-dirty".toList else []), some 0) := by
    rw [← h2]; cases pre <;> rfl
  have hbr : headBranch (fun args hide => runner (if sys.win32 then ["git.cmd", "git.exe"] else ["git"]) args root
      (sys.environ.filter fun kv => kv.1 ≠ "GIT_DIR".toList) hide) = .ok (some branch) := by
    simp only [headBranch, h4, bind, Except.bind, decide_true]
    rw [strip_word hb, if_neg hb']
  have hdx : endsWith x "-dirty".toList = false := by
    rw [Bool.eq_false_iff, Ne, endsWith_iff]
    exact hd
  have hw : strip (x ++ if dirty then "-dirty".toList else []) = x ++ if dirty then "-dirty".toList else [] := by
    apply strip_eq_self
    intro c hc
    rcases List.mem_append.1 hc with h | h
    · exact hx.2 c h
    · have : ∀ c ∈ "-dirty".toList, isSpace c = false := by decide
      split at h
      · exact this c h
      · simp at h
  have hdd : endsWith (x ++ if dirty then "-dirty".toList else []) "-dirty".toList = dirty := by
    cases dirty
    · simpa using hdx
    · exact (endsWith_iff _ _).2 ⟨_, rfl⟩
  have hdb : (if dirty = true then (x ++ if dirty then "-dirty".toList else []).take
      ((x ++ if dirty then "-dirty".toList else []).length - 6) else (x ++ if dirty then "-dirty".toList else [])) = x := by
    cases dirty <;> simp
  have fin : ∀ (p : Pieces) (e : Str), e ≠ [] → p.error = some (some e) → p.long = some full →
      render sys.digits p style = .ok ⟨"unknown".toList, some full, none, some e, none⟩ := by
    intro p e he h1 h2
    obtain ⟨c, cs, rfl⟩ := List.exists_cons_of_ne_nil he
    simp only [render, h1, h2, key, bind, Except.bind, pure, Except.pure]
  have ap : ∀ a b : Str, a ≠ [] → a ++ b ≠ [] := fun a b h => by simp [h]
  simp only [piecesFromVcs, piecesWith, gitEnviron, h1, h2', h3, hbr, bind, Except.bind, hw, strip_word hf, hdd, hdb]
  rw [if_neg (by simp)]
  simp only [describePieces, if_pos hm]
  cases hmd : matchDescribe sys.digits x with
  | none =>
    have he : "unable to parse git-describe output: '".toList ++ (x ++ if dirty = true then "-dirty".toList else []) ++ ['\''] ≠
      [] := ap _ _ (ap _ _ (by decide))
    exact ⟨_, _, rfl, he, fin _ _ he rfl rfl⟩
  | some m =>
    obtain ⟨tag, num, hex⟩ := m
    obtain ⟨tail, htail, he, ⟨ht, -⟩, hnum, hhex⟩ := (matchDescribe_iff _ _ _ _ _).1 hmd
    have htl : tail = [] := by
      rcases htail with h | rfl
      · exact h
      · exact absurd (hx.2 '\n' (by rw [he]; simp)) (by decide)
    have hp : startsWith tag pre = false := by
      rw [Bool.eq_false_iff, Ne, startsWith_iff]
      exact hno tag num hex (by rw [he, htl]; simp) hnum hhex ht
    simp only [hp, Bool.false_eq_true, if_false]
    have he : "tag '".toList ++ tag ++ "' doesn't start with prefix '".toList ++ pre ++ ['\''] ≠ [] := by simp
    exact ⟨_, _, rfl, he, fin _ _ he rfl rfl⟩

/-- The style `git-describe-long` prints again what git printed.  Without a tag git must abbreviate the hash to seven
characters, as the code does. -/
theorem C74_roundtrip (sys : Sys) (root : Str) (runner : Runner) (r : Repo) (hr : r.Ok)
    (hs : r.tag = none → r.short = r.full.take 7)
    (hrun : r.Answers [] fun args hide => runner (if sys.win32 then ["git.cmd", "git.exe"] else ["git"]) args root
      (sys.environ.filter fun kv => kv.1 ≠ "GIT_DIR".toList) hide) :
    ∃ p, piecesFromVcs sys [] root runner = .ok p ∧
      render sys.digits p (some "git-describe-long") =
        .ok ⟨r.describe, some r.full, some r.dirty, none, some r.isoDate⟩ := by
  refine ⟨_, C74_pieces sys [] root runner r hr (fun t _ => ⟨t, rfl⟩) hrun, ?_⟩
  cases hcase : r.tag with
  | none =>
    simp [render, key, renderStyle, renderGitDescribeLong, truthyTag, shortStr, ifDirty, bind, Except.bind, pure,
      Except.pure, Repo.describe, Repo.hash, hcase, hs hcase]
    cases r.dirty <;> simp
  | some t =>
    obtain ⟨c, cs, rfl⟩ := List.exists_cons_of_ne_nil (hr.tag t hcase).1
    simp [render, key, renderStyle, renderGitDescribeLong, truthyTag, shortStr, distStr, ifDirty, bind, Except.bind,
      pure, Except.pure, Repo.describe, Repo.hash, hcase, intStr_natCast, dec_eq]
    cases r.dirty <;> simp

/-! ## C75: the version number of a working tree -/

private theorem dirname_file (p name : Str) (hp : p ≠ []) (hl : p.getLast? ≠ some '/') (hn : '/' ∉ name) :
    dirname (p ++ '/' :: name) = p := by
  have h1 : (p ++ '/' :: name).reverse.dropWhile (· ≠ '/') = '/' :: p.reverse := by
    rw [List.reverse_append, List.reverse_cons, List.append_assoc, List.dropWhile_append_of_pos]
    · simp
    · intro c hc
      have : c ≠ '/' := fun e => hn (by simpa [e] using hc)
      simpa using this
  have h2 : (('/' :: p.reverse).dropWhile (· = '/')).reverse = p := by
    cases hr : p.reverse with
    | nil => simp at hr; exact absurd hr hp
    | cons c cs =>
      have hc : c ≠ '/' := by
        rintro rfl
        apply hl
        rw [← List.head?_reverse, hr]; rfl
      rw [List.dropWhile_cons_of_pos (by simp), List.dropWhile_cons_of_neg (by simpa using hc), ← hr,
        List.reverse_reverse]
  unfold dirname
  rw [h1]
  simp only
  rw [if_neg, List.reverse_reverse, h2]
  intro h
  rw [List.all_eq_true] at h
  obtain ⟨x, c, rfl⟩ := List.eq_nil_or_concat p |>.resolve_left hp
  apply hl
  have := h c (by simp)
  simp at this
  simp [this]

theorem root_of_file (root : Str) (hp : root ≠ []) (hl : root.getLast? ≠ some '/') :
    (split "snompy/_version.py".toList ['/']).foldl (fun r _ => dirname r) (root ++ "/snompy/_version.py".toList) =
      root := by
  have hs : split "snompy/_version.py".toList ['/'] = ["snompy".toList, "_version.py".toList] :=
    split_join '/' ["_version.py".toList] "snompy".toList (by simp)
  rw [hs]
  simp only [List.foldl_cons, List.foldl_nil]
  have h1 : dirname (root ++ "/snompy/_version.py".toList) = root ++ "/snompy".toList := by
    have := dirname_file (root ++ "/snompy".toList) "_version.py".toList (by simp) (by simp) (by simp)
    simpa using this
  rw [h1]
  exact dirname_file root "snompy".toList hp hl (by simp)

private theorem render_repo (ext : DigitTable) (r : Repo) (hr : r.Ok) :
    render ext
      { long := some r.full
        short := some r.hash
        error := some none
        branch := some r.branchName
        dirty := some r.dirty
        closestTag := some (r.tag.map (·.drop ([] : Str).length))
        distance := some r.distance
        date := some r.isoDate } (some "pep440") =
      .ok ⟨r.pep440, some r.full, some r.dirty, none, some r.isoDate⟩ := by
  cases hcase : r.tag with
  | none =>
    simp [render, key, renderStyle, renderPep440, truthyTag, shortStr, distStr, ifDirty, bind, Except.bind, pure,
      Except.pure, Repo.pep440, hcase, intStr_natCast, dec_eq]
    cases r.dirty <;> simp
  | some t =>
    obtain ⟨c, cs, rfl⟩ := List.exists_cons_of_ne_nil (hr.tag t hcase).1
    by_cases hd : r.distance = 0 ∧ r.dirty = false
    · simp [render, key, renderStyle, renderPep440, truthyTag, changed, bind, Except.bind, pure, Except.pure, Repo.pep440,
        hcase, hd]
    · have hch : (if (r.distance : ℤ) ≠ 0 then (Except.ok true : VM Bool) else .ok r.dirty) = .ok true := by
        by_cases h0 : r.distance = 0
        · have : r.dirty = true := by simpa [h0] using hd
          simp [this]
        · simp [h0]
      simp only [render, key, renderStyle, renderPep440, truthyTag, changed, plusOrDot, shortStr, distStr, ifDirty, bind,
        Except.bind, pure, Except.pure, Repo.pep440, hcase, hch, Option.map_some, List.length_nil, List.drop_zero, hd,
        if_false, intStr_natCast, dec_eq, if_true]
      by_cases hp : '+' ∈ c :: cs <;> cases r.dirty <;> simp [hp]

/-- In a working tree in which git works, `get_versions()` gives the version number that the documentation promises, the
full hash, whether there are uncommitted changes, and the date of the commit. -/
theorem C75_version (sys : Sys) (root : Str) (r : Repo) (hr : r.Ok)
    (hroot : root ≠ [] ∧ root.getLast? ≠ some '/') (hfile : sys.file = some (root ++ "/snompy/_version.py".toList))
    (hrun : r.Answers [] fun args hide => runCommand sys (if sys.win32 then ["git.cmd", "git.exe"] else ["git"]) args root
      (sys.environ.filter fun kv => kv.1 ≠ "GIT_DIR".toList) hide) :
    getVersions sys keywordsInTree = .ok ⟨r.pep440, some r.full, some r.dirty, none, some r.isoDate⟩ := by
  have hk : versionsFromKeywords sys.digits keywordsInTree [] = .error .notThisMethod := by
    have h1 : isoDate "$Format:%ci$".toList = .ok "$Format:%ci$".toList := by decide
    have h2 : startsWith (strip "$Format:%d$".toList) "$Format".toList = true := by decide
    simp only [versionsFromKeywords, keywordsInTree, keywordsDate, h1, bind, Except.bind, pure, Except.pure, h2, if_true]
  unfold getVersions getVersionsWith
  simp only [hk, orElse, hfile, root_of_file root hroot.1 hroot.2]
  rw [C74_pieces sys [] root (runCommand sys) r hr (fun t _ => ⟨t, rfl⟩) hrun]
  simp only [bind, Except.bind, render_repo sys.digits r hr]

/-- The version number is the tag exactly in a clean checkout of the tagged commit. -/
theorem C75_release (r : Repo) (t : Str) (ht : r.tag = some t) : r.pep440 = t ↔ r.distance = 0 ∧ r.dirty = false := by
  simp only [Repo.pep440, ht]
  constructor
  · intro h
    by_contra hc
    rw [if_neg hc] at h
    split at h <;>
    · have := congrArg List.length h
      simp at this
  · intro h
    rw [if_pos h]

private theorem dec_digit (n : ℕ) : ∀ c ∈ dec n, isAsciiDigit c := by
  rw [dec_eq]; exact natStr_digit n

private theorem dec_injective {a b : ℕ} (h : dec a = dec b) : a = b := by
  rw [dec_eq, dec_eq] at h; exact natStr_injective h

private theorem cut_unique {ch : Char} {a b a' b' : Str} (ha : ch ∉ a) (ha' : ch ∉ a') (h : a ++ ch :: b = a' ++ ch :: b') :
    a = a' ∧ b = b' := by
  induction a generalizing a' with
  | nil =>
    cases a' with
    | nil => simpa using h
    | cons c cs =>
      simp only [List.nil_append, List.cons_append, List.cons.injEq] at h
      exact absurd (by simp [h.1]) ha'
  | cons c cs ih =>
    cases a' with
    | nil =>
      simp only [List.nil_append, List.cons_append, List.cons.injEq] at h
      exact absurd (by simp [h.1]) ha
    | cons c' cs' =>
      simp only [List.cons_append, List.cons.injEq] at h
      obtain ⟨rfl, h⟩ := h
      obtain ⟨rfl, rfl⟩ := ih (fun hm => ha (by simp [hm])) (fun hm => ha' (by simp [hm])) h
      exact ⟨rfl, rfl⟩

private theorem hash_hex {r : Repo} (hr : r.Ok) : ∀ c ∈ r.hash, isHex c = true := by
  unfold Repo.hash
  split
  · exact fun c hc => hr.full.2 c (List.mem_of_mem_take hc)
  · exact hr.short.2

private theorem hash_ne_nil {r : Repo} (hr : r.Ok) : r.hash ≠ [] := by
  unfold Repo.hash
  split
  · simpa using hr.full.1
  · exact hr.short.1

/-- The part of the version number that says what was changed. -/
private def rest (r : Repo) : Str := dec r.distance ++ ".g".toList ++ r.hash ++ (if r.dirty then ".dirty".toList else [])

private theorem rest_injective {r r' : Repo} (hr : r.Ok) (hr' : r'.Ok) (h : rest r = rest r') :
    r.distance = r'.distance ∧ r.hash = r'.hash ∧ r.dirty = r'.dirty := by
  have hdot : ∀ n, '.' ∉ dec n := fun n hm => absurd (dec_digit n _ hm) (by decide)
  have e : ∀ r : Repo, rest r = dec r.distance ++ '.' :: ('g' :: (r.hash ++ (if r.dirty then ".dirty".toList else []))) := by
    intro r; simp [rest]
  rw [e, e] at h
  obtain ⟨h1, h2⟩ := cut_unique (hdot _) (hdot _) h
  rw [List.cons.injEq] at h2
  have hx : ∀ r : Repo, r.Ok → '.' ∉ r.hash := fun r hr hm => absurd (hash_hex hr _ hm) (by decide)
  refine ⟨dec_injective h1, ?_⟩
  have h3 := h2.2
  cases hd : r.dirty <;> cases hd' : r'.dirty <;> simp only [hd, hd', Bool.false_eq_true, if_false, if_true,
    List.append_nil] at h3
  · exact ⟨h3, rfl⟩
  · exact absurd (by rw [h3]; simp) (hx r hr)
  · exact absurd (by rw [← h3]; simp) (hx r' hr')
  · exact ⟨by simpa using h3, rfl⟩

/-- Two working trees whose tags have no `+` get the same version number only if they have the same tag, the same distance,
both or none of them uncommitted changes and, unless this is a clean checkout of the tag, the same hash. -/
theorem C75_injective (r r' : Repo) (hr : r.Ok) (hr' : r'.Ok) (ht : ∀ t ∈ r.tag, '+' ∉ t) (ht' : ∀ t ∈ r'.tag, '+' ∉ t)
    (h : r.pep440 = r'.pep440) :
    r.tag = r'.tag ∧ r.distance = r'.distance ∧ r.dirty = r'.dirty ∧
      (r.tag = none ∨ r.distance ≠ 0 ∨ r.dirty = true → r.hash = r'.hash) := by
  have form : ∀ r : Repo, (∀ t ∈ r.tag, '+' ∉ t) →
      (∃ t, r.tag = some t ∧ r.distance = 0 ∧ r.dirty = false ∧ r.pep440 = t ∧ '+' ∉ t) ∨
      (∃ t, r.tag = some t ∧ r.pep440 = t ++ '+' :: rest r ∧ '+' ∉ t) ∨
      (r.tag = none ∧ r.pep440 = ['0'] ++ '+' :: ("untagged.".toList ++ rest r)) := by
    intro r ht
    cases hc : r.tag with
    | none => right; right; simp [Repo.pep440, hc, rest]
    | some t =>
      have := ht t (by simp [hc])
      by_cases hd : r.distance = 0 ∧ r.dirty = false
      · left; exact ⟨t, rfl, hd.1, hd.2, by simp [Repo.pep440, hc, hd], this⟩
      · right; left
        refine ⟨t, rfl, ?_, this⟩
        simp only [Repo.pep440, hc, if_neg hd, if_neg this, rest]
        simp
  have hu : ∀ r s : Repo, rest r ≠ "untagged.".toList ++ rest s := by
    intro r s h
    have hne : dec r.distance ≠ [] := by rw [dec_eq]; exact natStr_ne_nil _
    obtain ⟨c, cs, hcs⟩ := List.exists_cons_of_ne_nil hne
    have hd := dec_digit r.distance c (by simp [hcs])
    rw [rest, hcs] at h
    have : c = 'u' := by
      have := congrArg List.head? h
      simpa using this
    subst this
    exact absurd hd (by decide)
  have hnil : '+' ∉ (['0'] : Str) := by decide
  rcases form r ht with ⟨t, h1, h2, h3, h4, h5⟩ | ⟨t, h1, h2, h3⟩ | ⟨h1, h2⟩ <;>
  rcases form r' ht' with ⟨t', h1', h2', h3', h4', h5'⟩ | ⟨t', h1', h2', h3'⟩ | ⟨h1', h2'⟩
  · rw [h4, h4'] at h
    subst h
    exact ⟨h1.trans h1'.symm, h2.trans h2'.symm, h3.trans h3'.symm, by simp [h1, h2, h3]⟩
  · rw [h4, h2'] at h
    exact absurd (by rw [h]; simp) h5
  · rw [h4, h2'] at h
    exact absurd (by rw [h]; simp) h5
  · rw [h2, h4'] at h
    exact absurd (by rw [← h]; simp) h5'
  · rw [h2, h2'] at h
    obtain ⟨rfl, hrest⟩ := cut_unique h3 h3' h
    obtain ⟨e1, e2, e3⟩ := rest_injective hr hr' hrest
    exact ⟨h1.trans h1'.symm, e1, e3, fun _ => e2⟩
  · rw [h2, h2'] at h
    exact absurd (cut_unique h3 hnil h).2 (hu r r')
  · rw [h2, h4'] at h
    exact absurd (by rw [← h]; simp) h5'
  · rw [h2, h2'] at h
    exact absurd (cut_unique hnil h3' h).2.symm (hu r' r)
  · rw [h2, h2'] at h
    obtain ⟨-, hrest⟩ := cut_unique hnil hnil h
    obtain ⟨e1, e2, e3⟩ := rest_injective hr hr' (List.append_cancel_left hrest)
    exact ⟨h1.trans h1'.symm, e1, e3, fun _ => e2⟩

private theorem localId_hex {w : Str} (hw : w ≠ []) (h : ∀ c ∈ w, isHex c = true ∨ c = 'g') : LocalId w := by
  refine .word w hw fun c hc => ?_
  rcases h c hc with h | rfl
  · simp only [isHex, Bool.or_eq_true, Bool.and_eq_true, decide_eq_true_eq] at h
    simp only [Char.le_def, UInt32.le_iff_toNat_le]
    have h0 : c.val.toNat = c.toNat := rfl
    rw [h0]
    rcases h with h | h
    · left; exact ⟨h.1, h.2⟩
    · right; exact ⟨h.1, h.2.trans (by decide)⟩
  · right; decide

private theorem localId_rest {r : Repo} (hr : r.Ok) : LocalId (rest r) := by
  have h1 : LocalId (dec r.distance) := by
    refine localId_hex (by rw [dec_eq]; exact natStr_ne_nil _) fun c hc => ?_
    have := dec_digit _ c hc
    left
    simp only [isHex, Bool.or_eq_true, Bool.and_eq_true, decide_eq_true_eq]
    exact .inl this
  have h2 : LocalId ('g' :: r.hash) := by
    refine localId_hex (by simp) fun c hc => ?_
    rcases List.mem_cons.1 hc with h | h
    · exact .inr h
    · exact .inl (hash_hex hr c h)
  have h3 : LocalId "dirty".toList := .word _ (by simp) (by simp)
  have h12 := LocalId.dot _ _ h1 h2
  unfold rest
  cases r.dirty
  · simpa using h12
  · simpa using LocalId.dot _ _ h12 h3

/-- If the tag is a PEP 440 version, that is a public part without `+` and perhaps a local identifier, then the version number
has the same public part and perhaps a local identifier: the text that is added is always a valid one. -/
theorem C75_local (r : Repo) (hr : r.Ok) (pub : Str) (hp : '+' ∉ pub)
    (ht : r.tag = some pub ∨ (∃ l, r.tag = some (pub ++ '+' :: l) ∧ LocalId l) ∨ (r.tag = none ∧ pub = ['0'])) :
    r.pep440 = pub ∨ ∃ l, r.pep440 = pub ++ '+' :: l ∧ LocalId l := by
  rcases ht with ht | ⟨l, ht, hl⟩ | ⟨ht, rfl⟩
  · by_cases hd : r.distance = 0 ∧ r.dirty = false
    · left; simp only [Repo.pep440, ht, if_pos hd]
    · right
      refine ⟨rest r, ?_, localId_rest hr⟩
      simp only [Repo.pep440, ht, if_neg hd, if_neg hp, rest]
      simp
  · right
    by_cases hd : r.distance = 0 ∧ r.dirty = false
    · exact ⟨l, by simp only [Repo.pep440, ht, if_pos hd], hl⟩
    · refine ⟨l ++ '.' :: rest r, ?_, .dot _ _ hl (localId_rest hr)⟩
      simp only [Repo.pep440, ht, if_neg hd, rest]
      rw [if_pos (by simp)]
      simp
  · right
    have h1 : LocalId "untagged".toList := .word _ (by simp) (by simp)
    refine ⟨_, ?_, .dot _ _ h1 (localId_rest hr)⟩
    simp [Repo.pep440, ht, rest]

/-- A repository four commits after the tag `v0.1`, with changes, in a detached head. -/
private def exampleRepo : Repo :=
  { tag := some "v0.1".toList
    distance := 4
    short := "1f2e3d4".toList
    full := "1f2e3d4c5b6a".toList
    dirty := true
    signature := "gpg: Good signature\n".toList
    head := .detached "HEAD detached at 1f2e3d4".toList ["main".toList, "master".toList]
    day := "2024-01-02".toList
    time := "03:04:05".toList
    zone := "+0100".toList }

private theorem exampleRepo_ok : exampleRepo.Ok := by
  have w : ∀ s : Str, (s ≠ [] ∧ s.all (isSpace · = false) = true) → Word s := fun s h =>
    ⟨h.1, fun c hc => by simpa using List.all_eq_true.1 h.2 c hc⟩
  have x : ∀ s : Str, (s ≠ [] ∧ s.all isHex = true) → s ≠ [] ∧ ∀ c ∈ s, isHex c = true := fun s h =>
    ⟨h.1, fun c hc => List.all_eq_true.1 h.2 c hc⟩
  refine ⟨?_, x _ (by decide), x _ (by decide), ?_, ?_, .inr ⟨"gpg: Good signature".toList, by decide⟩,
    w _ (by decide), w _ (by decide), w _ (by decide)⟩
  · rintro t ht
    obtain rfl : "v0.1".toList = t := by simpa [exampleRepo] using ht
    exact w _ (by decide)
  · intro b hb; cases hb
  · intro d bs h
    obtain ⟨rfl, rfl⟩ := Head.detached.inj h
    exact ⟨by decide, by decide⟩

/-- A computer on which git answers for this repository. -/
private def exampleSys : Sys :=
  { win32 := true
    environ := [("GIT_DIR".toList, "/elsewhere".toList), ("LANG".toList, "C".toList)]
    popen := fun c args _ env _ =>
      if c = "git.cmd" then .osError true
      else if ("GIT_DIR".toList) ∈ env.map Prod.fst then .done [] 128
      else match exampleRepo.prints [] args with
        | some a => .done (a.map (fun c => UInt8.ofNat c.toNat) ++ [10]) 0
        | none => .done [] 1
    decode := fun b => some (b.map fun x => Char.ofNat x.toNat)
    digits := fun _ => none
    file := some "/src/snompy/_version.py".toList }

example : exampleRepo.Ok ∧ exampleSys.file = some ("/src".toList ++ "/snompy/_version.py".toList) ∧
    exampleRepo.Answers [] fun args hide => runCommand exampleSys
      (if exampleSys.win32 then ["git.cmd", "git.exe"] else ["git"]) args "/src".toList
      (exampleSys.environ.filter fun kv => kv.1 ≠ "GIT_DIR".toList) hide := by
  refine ⟨exampleRepo_ok, by decide, fun args a h hide => ?_⟩
  have hp : ∀ env, env = exampleSys.environ.filter (fun kv => kv.1 ≠ "GIT_DIR".toList) →
      runCommand exampleSys ["git.cmd", "git.exe"] args "/src".toList env hide =
        match (some ((bytesStrip (a.map (fun c => UInt8.ofNat c.toNat) ++ [10])).map fun x => Char.ofNat x.toNat)) with
        | none => .error .unicodeDecodeError
        | some s => .ok (some s, some 0) := by
    rintro env rfl
    have e1 : exampleSys.popen "git.cmd" args "/src".toList
        (exampleSys.environ.filter (fun kv => kv.1 ≠ "GIT_DIR".toList)) hide = .osError true := rfl
    have e2 : exampleSys.popen "git.exe" args "/src".toList
        (exampleSys.environ.filter (fun kv => kv.1 ≠ "GIT_DIR".toList)) hide =
          .done (a.map (fun c => UInt8.ofNat c.toNat) ++ [10]) 0 := by
      unfold exampleSys
      simp only [String.reduceEq, if_false]
      rw [if_neg (by decide), h]
    rw [runCommand, e1]
    simp only
    rw [runCommand, e2]
    rfl
  show runCommand exampleSys ["git.cmd", "git.exe"] args _ _ hide = _
  rw [hp _ rfl]
  simp only [Except.ok.injEq, Prod.mk.injEq, Option.some.injEq, and_true]
  unfold Repo.prints at h
  rw [if_pos (rfl : ([] : Str) = [])] at h
  split at h; · cases h; decide
  split at h; · cases h; decide
  split at h; · cases h; decide
  split at h; · cases h; decide
  split at h; · cases h; decide
  split at h; · cases h; decide
  split at h; · cases h; decide
  cases h

/-- The hypotheses of `C74_unparsable` about the output can be met: `-g1` is missing, and `v` is not a prefix of `0.1`. -/
example : (¬ "-dirty".toList <:+ "v0.1-4".toList ∧ '-' ∈ "v0.1-4".toList ∧ Word "v0.1-4".toList) ∧
    ∀ tag num hex : Str, "v0.1-4".toList = tag ++ "-".toList ++ num ++ "-g".toList ++ hex → False := by
  refine ⟨⟨by decide, by decide, by decide, by decide⟩, fun tag num hex h => ?_⟩
  have : 'g' ∈ "v0.1-4".toList := by rw [h]; simp
  exact absurd this (by decide)

example : exampleRepo.pep440 = "v0.1+4.g1f2e3d4.dirty".toList := by decide

end Snompy.Props
