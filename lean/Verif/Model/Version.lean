import Mathlib.Data.Nat.Digits.Defs
import Mathlib.Data.List.Dedup

/-!
# Model of `snompy/_version.py`

The version number `snompy.__version__` is computed when the package is imported (`snompy/__init__.py:7`).  The file is
the runtime part of Versioneer 0.22.

Python strings are lists of characters.  Exceptions are values of `VErr`.  The operating system is an oracle: `Sys` says
what `subprocess.Popen` does for every command, arguments, working directory and environment.  Every git command below is
run at most once with the same arguments, so an oracle that is a function of the arguments loses nothing.

Simplifications: output to the terminal (`verbose`) is left out; surrogate code points, which Python strings may contain, are
left out; the limit on the number of digits in conversions between `int` and `str` (4300 by default) is left out.
-/

namespace Snompy.Version

abbrev Str := List Char

/-- The exceptions that the functions below can raise.  `notThisMethod` is the exception class of the file (line 52). -/
inductive VErr
  | notThisMethod
  | keyError (key : String)
  | valueError
  | typeError
  | attributeError
  | indexError
  | unicodeDecodeError
  deriving DecidableEq

abbrev VM := Except VErr

/-! ## Python strings -/

/-- `str.isspace` of one character. -/
def isSpace (c : Char) : Bool :=
  let n := c.toNat
  (9 ≤ n && n ≤ 13) || (28 ≤ n && n ≤ 32) || n == 0x85 || n == 0xa0 || n == 0x1680 || (0x2000 ≤ n && n ≤ 0x200a) ||
    n == 0x2028 || n == 0x2029 || n == 0x202f || n == 0x205f || n == 0x3000

/-- The characters at which `str.splitlines` breaks. -/
def isLineBreak (c : Char) : Bool :=
  let n := c.toNat
  (10 ≤ n && n ≤ 13) || (28 ≤ n && n ≤ 30) || n == 0x85 || n == 0x2028 || n == 0x2029

/-- `s.strip(chars)`, the characters given by a predicate. -/
def stripBy (p : Char → Bool) (s : Str) : Str := ((s.dropWhile p).reverse.dropWhile p).reverse

/-- `s.strip()`. -/
def strip : Str → Str := stripBy isSpace

/-- `s.startswith(p)`. -/
def startsWith (s p : Str) : Bool := p.isPrefixOf s

/-- `s.endswith(p)`. -/
def endsWith (s p : Str) : Bool := p.isSuffixOf s

/-- `s.split(sep)`, for a separator that is not empty; `acc` is the current piece in reverse. -/
def splitGo (sep : Str) (acc : Str) : Str → List Str
  | [] => [acc.reverse]
  | c :: cs =>
    if sep.isPrefixOf (c :: cs) then acc.reverse :: splitGo sep [] (cs.drop (sep.length - 1))
    else splitGo sep (c :: acc) cs
termination_by s => s.length
decreasing_by all_goals simp; try omega

def split (s sep : Str) : List Str := splitGo sep [] s

/-- `s.splitlines()`. -/
def linesGo (acc : Str) : Str → List Str
  | [] => if acc.isEmpty then [] else [acc.reverse]
  | '\r' :: '\n' :: cs => acc.reverse :: linesGo [] cs
  | c :: cs => if isLineBreak c then acc.reverse :: linesGo [] cs else linesGo (c :: acc) cs

def splitLines (s : Str) : List Str := linesGo [] s

/-- `s.replace(old, new, 1)` for a single character `old`. -/
def replaceFirst (old : Char) (new : Str) : Str → Str
  | [] => []
  | c :: cs => if c = old then new ++ cs else c :: replaceFirst old new cs

/-- `l[-1]`. -/
def last {α : Type} (l : List α) : VM α :=
  match l.getLast? with
  | some a => .ok a
  | none => .error .indexError

/-- `sorted` compares strings by code points. -/
def strLe : Str → Str → Bool
  | [], _ => true
  | _ :: _, [] => false
  | a :: as, b :: bs => if a.toNat < b.toNat then true else if b.toNat < a.toNat then false else strLe as bs

/-- Decimal digits of Unicode: the ASCII ones, and whatever the Unicode tables say about the other characters. -/
abbrev DigitTable := Char → Option ℕ

/-- The value of a decimal digit; `re`'s `\d` and `int` use the same table. -/
def digitVal (ext : DigitTable) (c : Char) : Option ℕ :=
  if c.toNat < 128 then (if 48 ≤ c.toNat ∧ c.toNat ≤ 57 then some (c.toNat - 48) else none) else ext c

def isDigit (ext : DigitTable) (c : Char) : Bool := (digitVal ext c).isSome

/-- The digits of `int`, with single underscores allowed between them; `v` is the value so far. -/
def intGo (ext : DigitTable) (v : ℕ) : Str → Option ℕ
  | [] => some v
  | c :: cs =>
    match digitVal ext c with
    | some d => intGo ext (10 * v + d) cs
    | none =>
      if c = '_' then
        match cs with
        | [] => none
        | c' :: cs' =>
          match digitVal ext c' with
          | some d => intGo ext (10 * v + d) cs'
          | none => none
      else none

/-- The part of `int(s)` after the sign. -/
def intUnsigned (ext : DigitTable) : Str → Option ℕ
  | [] => none
  | c :: cs =>
    match digitVal ext c with
    | some d => intGo ext d cs
    | none => none

/-- The part of `int(s)` after the whitespace. -/
def intSigned (ext : DigitTable) (s : Str) : Option ℤ :=
  match s with
  | '-' :: cs => (intUnsigned ext cs).map fun n : ℕ => -(n : ℤ)
  | '+' :: cs => (intUnsigned ext cs).map fun n : ℕ => (n : ℤ)
  | cs => (intUnsigned ext cs).map fun n : ℕ => (n : ℤ)

/-- `int(s)` for a string. -/
def pyInt (ext : DigitTable) (s : Str) : VM ℤ :=
  match intSigned ext (strip s) with
  | some n => .ok n
  | none => .error .valueError

/-- `"%d" % n` for a non-negative number. -/
def natStr (n : ℕ) : Str :=
  if n = 0 then ['0'] else (Nat.digits 10 n).reverse.map fun d => Char.ofNat (48 + d)

/-- `"%d" % n`. -/
def intStr (n : ℤ) : Str := if n < 0 then '-' :: natStr n.natAbs else natStr n.natAbs

/-- `[0-9a-f]`. -/
def isHex (c : Char) : Bool := (48 ≤ c.toNat && c.toNat ≤ 57) || (97 ≤ c.toNat && c.toNat ≤ 102)

/-- Split at the last occurrence of a character: what is before it and what is after it. -/
def rsplit (ch : Char) (s : Str) : Option (Str × Str) :=
  let tl := s.reverse.takeWhile (· ≠ ch)
  match s.reverse.dropWhile (· ≠ ch) with
  | [] => none
  | _ :: hd => some (hd.reverse, tl.reverse)

/-- `re.search(r"^(.+)-(\d+)-g([0-9a-f]+)", s)` with nothing left after the match: the three groups.  Neither hexadecimal
nor decimal digits contain a hyphen, so a match can only split at the last two of them (`Verif/Lemmas/Version.lean` proves
that this is what the regular expression says). -/
def matchWhole (ext : DigitTable) (s : Str) : Option (Str × Str × Str) :=
  match rsplit '-' s with
  | some (front, 'g' :: hex) =>
    match rsplit '-' front with
    | some (tag, num) =>
      if !hex.isEmpty && hex.all isHex && !num.isEmpty && num.all (isDigit ext) && !tag.isEmpty && tag.all (· ≠ '\n')
      then some (tag, num, hex) else none
    | none => none
  | _ => none

/-- `re.search(r"^(.+)-(\d+)-g([0-9a-f]+)$", s)` (line 342): `$` also matches before a newline at the end. -/
def matchDescribe (ext : DigitTable) (s : Str) : Option (Str × Str × Str) :=
  matchWhole ext (if endsWith s ['\n'] then s.dropLast else s)

/-! ## Running commands -/

/-- What `subprocess.Popen(...)` and `communicate()` do: start and end with some output and return code, or raise an
`OSError`, which either says that the command does not exist (`ENOENT`) or not. -/
inductive Proc
  | done (stdout : List UInt8) (returncode : ℤ)
  | osError (enoent : Bool)

/-- The environment variables. -/
abbrev Environ := List (Str × Str)

/-- The operating system and the interpreter. -/
structure Sys where
  win32 : Bool
  environ : Environ
  /-- Command, arguments, working directory, environment, `hide_stderr`. -/
  popen : String → List String → Str → Environ → Bool → Proc
  /-- `bytes.decode()`: UTF-8; `none` for `UnicodeDecodeError`. -/
  decode : List UInt8 → Option Str
  digits : DigitTable
  /-- `os.path.realpath(__file__)`, or `none` if the interpreter does not define `__file__`. -/
  file : Option Str

/-- `bytes.strip()` removes ASCII whitespace. -/
def bytesStrip (b : List UInt8) : List UInt8 :=
  let p : UInt8 → Bool := fun x => (9 ≤ x.toNat && x.toNat ≤ 13) || x.toNat == 32
  ((b.dropWhile p).reverse.dropWhile p).reverse

/-- `run_command` (lines 73–116), after the check that `commands` is a list.  The result is `(stdout, returncode)`. -/
def runCommand (sys : Sys) (commands args : List String) (cwd : Str) (env : Environ) (hide : Bool) :
    VM (Option Str × Option ℤ) :=
  match commands with
  | [] => .ok (none, none)
  | c :: cs =>
    match sys.popen c args cwd env hide with
    | .osError true => runCommand sys cs args cwd env hide
    | .osError false => .ok (none, none)
    | .done out rc =>
      match sys.decode (bytesStrip out) with
      | none => .error .unicodeDecodeError
      | some s => if rc ≠ 0 then .ok (none, some rc) else .ok (some s, some rc)

/-! ## Results -/

/-- The dictionary returned by `get_versions` and others: it always has these five keys. -/
structure Info where
  version : Str
  fullRevisionid : Option Str
  dirty : Option Bool
  error : Option Str
  date : Option Str
  deriving DecidableEq

/-! ## Parent directories -/

/-- `os.path.basename` (POSIX). -/
def basename (p : Str) : Str := (p.reverse.takeWhile (· ≠ '/')).reverse

/-- `os.path.dirname` (POSIX): trailing slashes are removed unless there is nothing else. -/
def dirname (p : Str) : Str :=
  let head := (p.reverse.dropWhile (· ≠ '/')).reverse
  if head.all (· = '/') then head else (head.reverse.dropWhile (· = '/')).reverse

/-- The loop of `versions_from_parentdir` (lines 128–139). -/
def parentdirGo (pre : Str) : ℕ → Str → VM Info
  | 0, _ => .error .notThisMethod
  | k + 1, root =>
    let d := basename root
    if startsWith d pre then .ok ⟨d.drop pre.length, none, some false, none, none⟩
    else parentdirGo pre k (dirname root)

/-- `versions_from_parentdir` (lines 119–146). -/
def versionsFromParentdir (pre root : Str) : VM Info := parentdirGo pre 3 root

/-! ## Keywords -/

/-- The dictionary of keywords; an absent key is `none`. -/
structure Keywords where
  refnames : Option Str
  full : Option Str
  date : Option Str
  deriving DecidableEq

/-- `keywords[k]`. -/
def key {α : Type} (name : String) (o : Option α) : VM α :=
  match o with
  | some a => .ok a
  | none => .error (.keyError name)

/-- The text between the quotes that `re.search(r'=\s*"(.*)"', line)` finds (lines 161, 165, 169): after the first equals
sign that is followed by spaces and a quote and has another quote later in the line, up to the last quote of the line. -/
def quotedGo : Str → Option Str
  | [] => none
  | c :: cs =>
    if c = '=' then
      match cs.dropWhile isSpace with
      | '"' :: rest =>
        match rsplit '"' (rest.takeWhile (· ≠ '\n')) with
        | some (v, _) => some v
        | none => quotedGo cs
      | _ => quotedGo cs
    else quotedGo cs

/-- The loop body of `git_get_keywords` (lines 159–171). -/
def keywordStep (kw : Keywords) (line : Str) : Keywords :=
  let has (p : String) : Bool := startsWith (strip line) p.toList
  let kw := if has "git_refnames =" then { kw with refnames := (quotedGo line).or kw.refnames } else kw
  let kw := if has "git_full =" then { kw with full := (quotedGo line).or kw.full } else kw
  if has "git_date =" then { kw with date := (quotedGo line).or kw.date } else kw

/-- `git_get_keywords` (lines 149–174), for a file with the given lines, or `none` if it cannot be opened.  Text mode keeps a
newline at the end of each line and nowhere else. -/
def getKeywords (file : Option (List Str)) : Keywords := (file.getD []).foldl keywordStep ⟨none, none, none⟩

/-- The ISO-8601 form of a date printed by git (lines 186–194 and 377–378): last line, the first space replaced by `T` and
the next one removed. -/
def isoDate (d : Str) : VM Str := do
  let l ← last (splitLines d)
  pure (replaceFirst ' ' [] (replaceFirst ' ' ['T'] (strip l)))

/-- The tags among the references (lines 200–213). -/
def likelyTags (ext : DigitTable) (refnames : Str) : List Str :=
  let refs := ((split (stripBy (fun c => c = '(' || c = ')') refnames) [',']).map strip).dedup
  let tag := "tag: ".toList
  let tags := ((refs.filter (startsWith · tag)).map (·.drop tag.length)).dedup
  if tags.isEmpty then refs.filter (·.any (isDigit ext)) else tags

/-- `re.match(r"\d", r)`. -/
def digitFirst (ext : DigitTable) : Str → Bool
  | [] => false
  | c :: _ => isDigit ext c

/-- The date among the keywords (lines 182–194). -/
def keywordsDate (date : Option Str) : VM (Option Str) :=
  match date with
  | none => .ok none
  | some d => do
    let d ← isoDate d
    pure (some d)

/-- The first tag with the prefix and a digit after it (lines 218–226). -/
def pickRef (ext : DigitTable) (tags : List Str) (pre : Str) : Option Str :=
  (tags.mergeSort strLe).find? fun ref => startsWith ref pre && digitFirst ext (ref.drop pre.length)

/-- `git_versions_from_keywords` (lines 177–245). -/
def versionsFromKeywords (ext : DigitTable) (kw : Keywords) (pre : Str) : VM Info :=
  match kw.refnames with
  | none => .error .notThisMethod
  | some refnames => do
    let date ← keywordsDate kw.date
    if startsWith (strip refnames) "$Format".toList then .error .notThisMethod
    else
      match pickRef ext (likelyTags ext (strip refnames)) pre with
      | some ref => do
        let full ← key "full" kw.full
        pure ⟨ref.drop pre.length, some (strip full), some false, none, date⟩
      | none => do
        let full ← key "full" kw.full
        pure ⟨"0+unknown".toList, some (strip full), some false, some "no suitable tags".toList, none⟩

/-! ## Pieces -/

/-- The dictionary of version pieces; an absent key is `none`. -/
structure Pieces where
  long : Option Str := none
  short : Option Str := none
  error : Option (Option Str) := none
  branch : Option (Option Str) := none
  dirty : Option Bool := none
  closestTag : Option (Option Str) := none
  distance : Option ℤ := none
  date : Option Str := none

/-- A command runner: commands, arguments, working directory, environment, `hide_stderr`. -/
abbrev Runner := List String → List String → Str → Environ → Bool → VM (Option Str × Option ℤ)

/-- `branch[2:]` for every line, without the first one if it has a parenthesis (lines 310–324). -/
def pickBranch (out : Str) : Option Str :=
  let lines := split out ['\n']
  let lines := match lines with
    | l :: ls => if '(' ∈ l then ls else l :: ls
    | [] => []
  let branches : List Str := lines.map (·.drop 2)
  if "master".toList ∈ branches then some "master".toList
  else branches.head?

/-- The environment without `GIT_DIR` (lines 263–264). -/
def gitEnviron (e : Environ) : Environ := e.filter fun kv => kv.1 ≠ "GIT_DIR".toList

/-- A runner for fixed commands, working directory and environment. -/
abbrev Run := List String → Bool → VM (Option Str × Option ℤ)

/-- The branch (lines 296–324). -/
def headBranch (run : Run) : VM (Option Str) := do
  let (name, rc) ← run ["rev-parse", "--abbrev-ref", "HEAD"] false
  match name, decide (rc = some 0) with
  | some name, true =>
    if strip name = "HEAD".toList then do
      let (branches, rc) ← run ["branch", "--contains"] false
      match branches, decide (rc = some 0) with
      | some branches, true => .ok (pickBranch branches)
      | _, _ => .error .notThisMethod
    else .ok (some (strip name))
  | _, _ => .error .notThisMethod

/-- The date of the commit (lines 374–378): the output must not be `None`. -/
def commitDate (run : Run) : VM Str := do
  let (out, _) ← run ["show", "-s", "--format=%ci", "HEAD"] false
  match out with
  | none => .error .attributeError
  | some out => isoDate (strip out)

/-- The total number of commits (lines 370–371): `int(None)` is a `TypeError`. -/
def commitCount (ext : DigitTable) (run : Run) : VM ℤ := do
  let (out, _) ← run ["rev-list", "HEAD", "--count"] false
  match out with
  | none => .error .typeError
  | some out => pyInt ext out

/-- The tag, the distance and the date (lines 340–380); `describe` is the output of `git describe` without `-dirty`. -/
def describePieces (ext : DigitTable) (pre : Str) (run : Run) (pieces : Pieces) (describeOut describe : Str) : VM Pieces :=
  if '-' ∈ describe then
    match matchDescribe ext describe with
    | none =>
      .ok { pieces with
        error := some (some ("unable to parse git-describe output: '".toList ++ describeOut ++ ['\''])) }
    | some (tag, num, hex) =>
      if startsWith tag pre then do
        let d ← pyInt ext num
        let date ← commitDate run
        pure { pieces with
          closestTag := some (some (tag.drop pre.length)), distance := some d, short := some hex, date := some date }
      else
        .ok { pieces with
          error := some (some ("tag '".toList ++ tag ++ "' doesn't start with prefix '".toList ++ pre ++ ['\''])) }
  else do
    let d ← commitCount ext run
    let date ← commitDate run
    pure { pieces with closestTag := some none, distance := some d, date := some date }

/-- The body of `git_pieces_from_vcs` (lines 267–380). -/
def piecesWith (ext : DigitTable) (pre : Str) (run : Run) : VM Pieces := do
  let (_, rc) ← run ["rev-parse", "--git-dir"] true
  if rc ≠ some 0 then .error .notThisMethod
  else do
    let matchArgs := if pre.isEmpty then [] else ["--match", String.ofList (pre ++ ['*'])]
    let (describeOut, _) ← run (["describe", "--tags", "--dirty", "--always", "--long"] ++ matchArgs) false
    match describeOut with
    | none => .error .notThisMethod
    | some describeOut => do
      let describeOut := strip describeOut
      let (fullOut, _) ← run ["rev-parse", "HEAD"] false
      match fullOut with
      | none => .error .notThisMethod
      | some fullOut => do
        let fullOut := strip fullOut
        let branch ← headBranch run
        let dirty := endsWith describeOut "-dirty".toList
        let describe := if dirty then describeOut.take (describeOut.length - 6) else describeOut
        describePieces ext pre run
          { long := some fullOut, short := some (fullOut.take 7), error := some none, branch := some branch,
            dirty := some dirty } describeOut describe

/-- `git_pieces_from_vcs` (lines 248–380). -/
def piecesFromVcs (sys : Sys) (pre root : Str) (runner : Runner) : VM Pieces :=
  piecesWith sys.digits pre
    (runner (if sys.win32 then ["git.cmd", "git.exe"] else ["git"]) · root (gitEnviron sys.environ) ·)

/-! ## Rendering -/

/-- `if pieces["closest-tag"]:` with the tag, or `none` for `None` and for the empty string. -/
def truthyTag (p : Pieces) : VM (Option Str) := do
  match ← key "closest-tag" p.closestTag with
  | some (c :: cs) => pure (some (c :: cs))
  | _ => pure none

/-- `plus_or_dot` (lines 383–387): `"+" in None` is a `TypeError`. -/
def plusOrDot (p : Pieces) : VM Str :=
  match p.closestTag with
  | none => .ok ['+']
  | some none => .error .typeError
  | some (some t) => .ok (if '+' ∈ t then ['.'] else ['+'])

/-- `pieces["distance"] or pieces["dirty"]`; the second key is only looked up if the distance is 0. -/
def changed (p : Pieces) : VM Bool := do
  let d ← key "distance" p.distance
  if d ≠ 0 then pure true else key "dirty" p.dirty

/-- `if pieces["dirty"]: rendered += s`. -/
def ifDirty (p : Pieces) (s : String) : VM Str := do
  if ← key "dirty" p.dirty then pure s.toList else pure []

/-- `if pieces["branch"] != "master": rendered += ".dev0"`. -/
def ifBranch (p : Pieces) : VM Str := do
  let b ← key "branch" p.branch
  pure (if b ≠ some "master".toList then ".dev0".toList else [])

/-- `"%d" % pieces["distance"]`. -/
def distStr (p : Pieces) : VM Str := do
  let d ← key "distance" p.distance
  pure (intStr d)

/-- `"%s" % pieces["short"]`. -/
def shortStr (p : Pieces) : VM Str := key "short" p.short

/-- `render_pep440` (lines 390–411). -/
def renderPep440 (p : Pieces) : VM Str := do
  match ← truthyTag p with
  | some tag => do
    if ← changed p then do
      let sep ← plusOrDot p
      let d ← distStr p
      let h ← shortStr p
      let x ← ifDirty p ".dirty"
      pure (tag ++ sep ++ d ++ ".g".toList ++ h ++ x)
    else pure tag
  | none => do
    let d ← distStr p
    let h ← shortStr p
    let x ← ifDirty p ".dirty"
    pure ("0+untagged.".toList ++ d ++ ".g".toList ++ h ++ x)

/-- `render_pep440_branch` (lines 414–440). -/
def renderPep440Branch (p : Pieces) : VM Str := do
  match ← truthyTag p with
  | some tag => do
    if ← changed p then do
      let b ← ifBranch p
      let sep ← plusOrDot p
      let d ← distStr p
      let h ← shortStr p
      let x ← ifDirty p ".dirty"
      pure (tag ++ b ++ sep ++ d ++ ".g".toList ++ h ++ x)
    else pure tag
  | none => do
    let b ← ifBranch p
    let d ← distStr p
    let h ← shortStr p
    let x ← ifDirty p ".dirty"
    pure ("0".toList ++ b ++ "+untagged.".toList ++ d ++ ".g".toList ++ h ++ x)

/-- `pep440_split_post` (lines 443–450). -/
def splitPost (ext : DigitTable) (ver : Str) : VM (Str × Option ℤ) :=
  match split ver ".post".toList with
  | [a, b] => do
    let n ← if b.isEmpty then (pure 0 : VM ℤ) else pyInt ext b
    pure (a, some n)
  | vc => pure (vc.headD [], none)

/-- `render_pep440_pre` (lines 453–474). -/
def renderPep440Pre (ext : DigitTable) (p : Pieces) : VM Str := do
  match ← truthyTag p with
  | some tag => do
    let d ← key "distance" p.distance
    if d ≠ 0 then do
      let (v, post) ← splitPost ext tag
      match post with
      | some n => pure (v ++ ".post".toList ++ intStr (n + 1) ++ ".dev".toList ++ intStr d)
      | none => pure (v ++ ".post0.dev".toList ++ intStr d)
    else pure tag
  | none => do
    let d ← distStr p
    pure ("0.post0.dev".toList ++ d)

/-- `render_pep440_post` (lines 477–501). -/
def renderPep440Post (p : Pieces) : VM Str := do
  match ← truthyTag p with
  | some tag => do
    if ← changed p then do
      let d ← distStr p
      let x ← ifDirty p ".dev0"
      let sep ← plusOrDot p
      let h ← shortStr p
      pure (tag ++ ".post".toList ++ d ++ x ++ sep ++ "g".toList ++ h)
    else pure tag
  | none => do
    let d ← distStr p
    let x ← ifDirty p ".dev0"
    let h ← shortStr p
    pure ("0.post".toList ++ d ++ x ++ "+g".toList ++ h)

/-- `render_pep440_post_branch` (lines 504–530). -/
def renderPep440PostBranch (p : Pieces) : VM Str := do
  match ← truthyTag p with
  | some tag => do
    if ← changed p then do
      let d ← distStr p
      let b ← ifBranch p
      let sep ← plusOrDot p
      let h ← shortStr p
      let x ← ifDirty p ".dirty"
      pure (tag ++ ".post".toList ++ d ++ b ++ sep ++ "g".toList ++ h ++ x)
    else pure tag
  | none => do
    let d ← distStr p
    let b ← ifBranch p
    let h ← shortStr p
    let x ← ifDirty p ".dirty"
    pure ("0.post".toList ++ d ++ b ++ "+g".toList ++ h ++ x)

/-- `render_pep440_old` (lines 533–552). -/
def renderPep440Old (p : Pieces) : VM Str := do
  match ← truthyTag p with
  | some tag => do
    if ← changed p then do
      let d ← distStr p
      let x ← ifDirty p ".dev0"
      pure (tag ++ ".post".toList ++ d ++ x)
    else pure tag
  | none => do
    let d ← distStr p
    let x ← ifDirty p ".dev0"
    pure ("0.post".toList ++ d ++ x)

/-- `render_git_describe` (lines 555–572). -/
def renderGitDescribe (p : Pieces) : VM Str := do
  let r ← match ← truthyTag p with
    | some tag => do
      let d ← key "distance" p.distance
      if d ≠ 0 then do
        let h ← shortStr p
        pure (tag ++ "-".toList ++ intStr d ++ "-g".toList ++ h)
      else (pure tag : VM Str)
    | none => shortStr p
  let x ← ifDirty p "-dirty"
  pure (r ++ x)

/-- `render_git_describe_long` (lines 575–592). -/
def renderGitDescribeLong (p : Pieces) : VM Str := do
  let r ← match ← truthyTag p with
    | some tag => do
      let d ← distStr p
      let h ← shortStr p
      pure (tag ++ "-".toList ++ d ++ "-g".toList ++ h)
    | none => shortStr p
  let x ← ifDirty p "-dirty"
  pure (r ++ x)

/-- The choice of the style in `render` (lines 606–626); `none` is `None`. -/
def renderStyle (ext : DigitTable) (p : Pieces) (style : Option String) : VM Str :=
  let style := match style with
    | none => "pep440"
    | some s => if s = "" ∨ s = "default" then "pep440" else s
  if style = "pep440" then renderPep440 p
  else if style = "pep440-branch" then renderPep440Branch p
  else if style = "pep440-pre" then renderPep440Pre ext p
  else if style = "pep440-post" then renderPep440Post p
  else if style = "pep440-post-branch" then renderPep440PostBranch p
  else if style = "pep440-old" then renderPep440Old p
  else if style = "git-describe" then renderGitDescribe p
  else if style = "git-describe-long" then renderGitDescribeLong p
  else .error .valueError

/-- `render` (lines 595–634). -/
def render (ext : DigitTable) (p : Pieces) (style : Option String) : VM Info := do
  match ← key "error" p.error with
  | some (c :: cs) => pure ⟨"unknown".toList, p.long, none, some (c :: cs), none⟩
  | _ => do
    let v ← renderStyle ext p style
    let long ← key "long" p.long
    let dirty ← key "dirty" p.dirty
    pure ⟨v, some long, some dirty, none, p.date⟩

/-! ## `get_versions` -/

/-- `get_keywords` in the working tree (lines 21–31); `git archive` replaces the three strings. -/
def keywordsInTree : Keywords :=
  ⟨some "$Format:%d$".toList, some "$Format:%H$".toList, some "$Format:%ci$".toList⟩

/-- `get_config` (lines 38–49). -/
structure Config where
  style : String := "pep440"
  tagPrefix : Str := []
  parentdirPrefix : Str := []
  versionfileSource : Str := "snompy/_version.py".toList

/-- `try: return x; except NotThisMethod: pass`. -/
def orElse (x : VM Info) (rest : VM Info) : VM Info :=
  match x with
  | .error .notThisMethod => rest
  | r => r

/-- `get_versions` (lines 637–686), for the given keywords and configuration. -/
def getVersionsWith (sys : Sys) (kw : Keywords) (cfg : Config) : VM Info :=
  orElse (versionsFromKeywords sys.digits kw cfg.tagPrefix) (
    match sys.file with
    | none => .ok ⟨"0+unknown".toList, none, none, some "unable to find root of source tree".toList, none⟩
    | some file =>
      let root := (split cfg.versionfileSource ['/']).foldl (fun r _ => dirname r) file
      orElse (do
        let pieces ← piecesFromVcs sys cfg.tagPrefix root (runCommand sys)
        render sys.digits pieces (some cfg.style)) (
        orElse (if cfg.parentdirPrefix.isEmpty then .error .notThisMethod
            else versionsFromParentdir cfg.parentdirPrefix root) (
          .ok ⟨"0+unknown".toList, none, none, some "unable to compute version".toList, none⟩)))

/-- `get_versions()` of the file, with the keywords as `git archive` left them. -/
def getVersions (sys : Sys) (kw : Keywords) : VM Info := getVersionsWith sys kw {}

end Snompy.Version
