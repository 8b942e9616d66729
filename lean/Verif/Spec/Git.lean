import Verif.Model.Version

/-!
# Vocabulary of properties C74–C80: what git prints, and what a version number is

The state of a repository as far as it matters, and what the six git commands print in it (manual pages of `git-describe`,
`git-rev-parse`, `git-branch`, `git-rev-list` and `git-show`).
-/

namespace Snompy.Version

/-- A branch, or a detached head with its description and the branches that contain it. -/
inductive Head
  | branch (name : Str)
  | detached (desc : Str) (names : List Str)

structure Repo where
  /-- The closest tag that can be reached, if there is one. -/
  tag : Option Str
  /-- The number of commits since the tag, or the number of all commits if there is none. -/
  distance : ℕ
  /-- The abbreviated hash and the full one. -/
  short : Str
  full : Str
  /-- Uncommitted changes. -/
  dirty : Bool
  head : Head
  /-- What `git show` prints about the signature of the commit, in lines before the date. -/
  signature : Str
  /-- The date of the commit. -/
  day : Str
  time : Str
  zone : Str

/-- No whitespace and not empty. -/
def Word (s : Str) : Prop := s ≠ [] ∧ ∀ c ∈ s, isSpace c = false

/-- What git guarantees about names and hashes.  (A branch that is called `HEAD` cannot be told from a detached head.) -/
structure Repo.Ok (r : Repo) : Prop where
  tag : ∀ t ∈ r.tag, Word t
  short : r.short ≠ [] ∧ ∀ c ∈ r.short, isHex c = true
  full : r.full ≠ [] ∧ ∀ c ∈ r.full, isHex c = true
  branch : ∀ b, r.head = .branch b → Word b ∧ b ≠ "HEAD".toList
  detached : ∀ d bs, r.head = .detached d bs → '\n' ∉ d ∧ ∀ b ∈ bs, '\n' ∉ b
  signature : r.signature = [] ∨ ∃ g, r.signature = g ++ "\n".toList
  day : Word r.day
  time : Word r.time
  zone : Word r.zone

/-- A decimal number. -/
def dec (n : ℕ) : Str := (toString n).toList

/-- `git describe --tags --dirty --always --long`. -/
def Repo.describe (r : Repo) : Str :=
  (match r.tag with
    | some t => t ++ "-".toList ++ dec r.distance ++ "-g".toList ++ r.short
    | none => r.short) ++ (if r.dirty then "-dirty".toList else [])

/-- `git rev-parse --abbrev-ref HEAD`. -/
def Repo.abbrevRef (r : Repo) : Str :=
  match r.head with
  | .branch b => b
  | .detached _ _ => "HEAD".toList

/-- `git branch --contains` in a detached head: the description, and a line for every branch. -/
def Repo.contains (r : Repo) : Option Str :=
  match r.head with
  | .branch _ => none
  | .detached d bs => some ("* (".toList ++ d ++ ")".toList ++ (bs.map ("\n  ".toList ++ ·)).flatten)

/-- What git prints, without the newline at the end, for tags that begin with a prefix. -/
def Repo.prints (r : Repo) (pre : Str) (args : List String) : Option Str :=
  if args = ["rev-parse", "--git-dir"] then some ".git".toList
  else if args = ["describe", "--tags", "--dirty", "--always", "--long"] ++
      (if pre = [] then [] else ["--match", String.ofList (pre ++ "*".toList)]) then some r.describe
  else if args = ["rev-parse", "HEAD"] then some r.full
  else if args = ["rev-parse", "--abbrev-ref", "HEAD"] then
    some r.abbrevRef
  else if args = ["branch", "--contains"] then r.contains
  else if args = ["rev-list", "HEAD", "--count"] then some (dec r.distance)
  else if args = ["show", "-s", "--format=%ci", "HEAD"] then
    some (r.signature ++ r.day ++ " ".toList ++ r.time ++ " ".toList ++ r.zone)
  else none

/-- Every command that has an answer ends well and gives this answer. -/
def Repo.Answers (r : Repo) (pre : Str) (run : List String → Bool → VM (Option Str × Option ℤ)) : Prop :=
  ∀ args a, r.prints pre args = some a → ∀ hide, run args hide = .ok (some a, some 0)

/-- The branch: the one that is checked out; in a detached head `master` if it contains the commit, and otherwise
the first branch that does. -/
def Repo.branchName (r : Repo) : Option Str :=
  match r.head with
  | .branch b => some b
  | .detached _ bs => if "master".toList ∈ bs then some "master".toList else bs.head?

/-- The hash that appears in version numbers. -/
def Repo.hash (r : Repo) : Str := if r.tag = none then r.full.take 7 else r.short

/-- The date in the format of ISO 8601. -/
def Repo.isoDate (r : Repo) : Str := r.day ++ "T".toList ++ r.time ++ r.zone

/-- The version number that the documentation of `render_pep440` promises: `TAG[+DISTANCE.gHEX[.dirty]]`, or
`0+untagged.DISTANCE.gHEX[.dirty]`. -/
def Repo.pep440 (r : Repo) : Str :=
  let rest := dec r.distance ++ ".g".toList ++ r.hash ++ (if r.dirty then ".dirty".toList else [])
  match r.tag with
  | some t =>
    if r.distance = 0 ∧ r.dirty = false then t
    else if '+' ∈ t then t ++ ".".toList ++ rest
    else t ++ "+".toList ++ rest
  | none => "0+untagged.".toList ++ rest

/-- `[a-z0-9]+(\.[a-z0-9]+)*`, the local version identifiers of PEP 440: words of lower case letters and digits, joined
by dots. -/
inductive LocalId : Str → Prop
  | word (w : Str) (hw : w ≠ []) (h : ∀ c ∈ w, ('0' ≤ c ∧ c ≤ '9') ∨ ('a' ≤ c ∧ c ≤ 'z')) : LocalId w
  | dot (a b : Str) (ha : LocalId a) (hb : LocalId b) : LocalId (a ++ '.' :: b)

/-- Version pieces with all the keys that rendering needs. -/
structure Has (p : Pieces) (tag : Option Str) (distance : ℤ) (short : Str) (dirty : Bool) (branch : Option Str) : Prop where
  tag : p.closestTag = some tag
  distance : p.distance = some distance
  short : p.short = some short
  dirty : p.dirty = some dirty
  branch : p.branch = some branch

/-- The styles of `render`. -/
def styles : List String :=
  ["pep440", "pep440-branch", "pep440-pre", "pep440-post", "pep440-post-branch", "pep440-old", "git-describe",
    "git-describe-long"]

/-- Templates of version numbers as the docstrings write them: `[...]` is optional, and what the brackets stand for is one of
four conditions. -/
inductive Template
  | lit (s : String)
  | tag
  | distance
  | hex
  /-- `+`, or `.` if the tag contains a `+` already. -/
  | plus
  /-- Commits since the tag or uncommitted changes. -/
  | whenChanged (body : List Template)
  /-- Commits since the tag. -/
  | whenAway (body : List Template)
  /-- Uncommitted changes. -/
  | whenDirty (body : List Template)
  /-- A branch other than `master`. -/
  | whenBranch (body : List Template)

mutual
/-- A template filled in. -/
def Template.fill (t : Str) (d : ℕ) (h : Str) (x : Bool) (b : Option Str) : Template → Str
  | .lit s => s.toList
  | .tag => t
  | .distance => dec d
  | .hex => h
  | .plus => if '+' ∈ t then ".".toList else "+".toList
  | .whenChanged body => if d ≠ 0 ∨ x = true then Template.fillAll t d h x b body else []
  | .whenAway body => if d ≠ 0 then Template.fillAll t d h x b body else []
  | .whenDirty body => if x = true then Template.fillAll t d h x b body else []
  | .whenBranch body => if b ≠ some "master".toList then Template.fillAll t d h x b body else []

def Template.fillAll (t : Str) (d : ℕ) (h : Str) (x : Bool) (b : Option Str) : List Template → Str
  | [] => []
  | a :: as => Template.fill t d h x b a ++ Template.fillAll t d h x b as
end

open Template in
/-- The templates of the docstrings, for tagged repositories and for others. -/
def documented : List (String × List Template × List Template) :=
  [ -- TAG[+DISTANCE.gHEX[.dirty]]; 0+untagged.DISTANCE.gHEX[.dirty]
    ("pep440",
      [tag, whenChanged [plus, distance, lit ".g", hex, whenDirty [lit ".dirty"]]],
      [lit "0+untagged.", distance, lit ".g", hex, whenDirty [lit ".dirty"]]),
    -- TAG[[.dev0]+DISTANCE.gHEX[.dirty]]; 0[.dev0]+untagged.DISTANCE.gHEX[.dirty]
    ("pep440-branch",
      [tag, whenChanged [whenBranch [lit ".dev0"], plus, distance, lit ".g", hex, whenDirty [lit ".dirty"]]],
      [lit "0", whenBranch [lit ".dev0"], lit "+untagged.", distance, lit ".g", hex, whenDirty [lit ".dirty"]]),
    -- TAG[.postDISTANCE[.dev0]+gHEX]; 0.postDISTANCE[.dev0]
    ("pep440-post",
      [tag, whenChanged [lit ".post", distance, whenDirty [lit ".dev0"], plus, lit "g", hex]],
      [lit "0.post", distance, whenDirty [lit ".dev0"]]),
    -- TAG[.postDISTANCE[.dev0]+gHEX[.dirty]]; 0.postDISTANCE[.dev0]+gHEX[.dirty]
    ("pep440-post-branch",
      [tag, whenChanged [lit ".post", distance, whenBranch [lit ".dev0"], plus, lit "g", hex, whenDirty [lit ".dirty"]]],
      [lit "0.post", distance, whenBranch [lit ".dev0"], lit "+g", hex, whenDirty [lit ".dirty"]]),
    -- TAG[.postDISTANCE[.dev0]]; 0.postDISTANCE[.dev0]
    ("pep440-old",
      [tag, whenChanged [lit ".post", distance, whenDirty [lit ".dev0"]]],
      [lit "0.post", distance, whenDirty [lit ".dev0"]]),
    -- TAG[-DISTANCE-gHEX][-dirty]; HEX[-dirty]
    ("git-describe",
      [tag, whenAway [lit "-", distance, lit "-g", hex], whenDirty [lit "-dirty"]],
      [hex, whenDirty [lit "-dirty"]]),
    -- TAG-DISTANCE-gHEX[-dirty]; HEX[-dirty]
    ("git-describe-long",
      [tag, lit "-", distance, lit "-g", hex, whenDirty [lit "-dirty"]],
      [hex, whenDirty [lit "-dirty"]])]

/-- What `git archive` writes for `%d`: the references in parentheses. -/
def decoration (r : Str) (rs : List Str) : Str := " (".toList ++ r ++ (rs.map (", ".toList ++ ·)).flatten ++ ")".toList

/-- A reference without commas that neither begins nor ends with a space or a parenthesis. -/
structure CleanRef (s : Str) : Prop where
  comma : ',' ∉ s
  first : ∃ c cs, s = c :: cs ∧ isSpace c = false ∧ c ≠ '(' ∧ c ≠ ')'
  last : ∃ cs c, s = cs ++ [c] ∧ isSpace c = false ∧ c ≠ '(' ∧ c ≠ ')'

/-- The version numbers among the references: what follows the prefix in a tag and begins with a digit.  Old versions of git
do not mark tags; if none is marked, all references count. -/
def Candidate (ext : DigitTable) (refs : List Str) (pre v : Str) : Prop :=
  (∃ c cs, v = c :: cs ∧ isDigit ext c = true) ∧
    ("tag: ".toList ++ (pre ++ v) ∈ refs ∨ (¬ ∃ t, "tag: ".toList ++ t ∈ refs) ∧ pre ++ v ∈ refs)

/-- The line of the file that assigns a string to a name, indented by four spaces. -/
def assignment (name : String) (v : Str) : Str :=
  "    ".toList ++ name.toList ++ " = \"".toList ++ v ++ "\"".toList ++ "\n".toList

end Snompy.Version
