import Verif.Model.Versioneer

/-!
# Model of the installer of `versioneer.py`

`python versioneer.py setup` reads `setup.cfg`, writes the version file, and edits `__init__.py`, `MANIFEST.in` and
`.gitattributes` (lines 297–365, 1331–1365 and 2003–2189).

The file system is a function from absolute paths to contents.  Every function below returns the files as they are when it
ends, whether it returns or raises.

Simplifications: POSIX paths and newlines; a file that exists can be read, and its bytes can be decoded; whether a path can
be written to does not change during a run; two different paths are two different files; output to the terminal is left out;
only letters of ASCII are lower-cased in the names of options; the exceptions of `configparser` for files that it cannot parse
are one value; what `configparser` makes of values with a percent sign is a parameter.
-/

namespace Snompy.Version

/-! ## `configparser` (the standard library of Python 3.11) -/

/-- The options of a section with the lines of their values. -/
abbrev IniOpts := List (Str × List Str)

/-- `ConfigParser` while `_read` goes through the lines of a file. -/
structure IniState where
  /-- `_sections` -/
  sections : List (Str × IniOpts) := []
  /-- `_defaults` -/
  defaults : IniOpts := []
  /-- `sectname`, if `cursect` is not `None` -/
  cur : Option Str := none
  /-- `optname` -/
  opt : Option Str := none
  /-- `indent_level` -/
  indent : ℕ := 0
  deriving DecidableEq

/-- `parser.default_section`. -/
def defaultSection : Str := "DEFAULT".toList

/-- `cursect[name] = f(cursect.get(name))` for the section called `s`. -/
def updateOpts (st : IniState) (s : Str) (f : IniOpts → IniOpts) : IniState :=
  if s = defaultSection then { st with defaults := f st.defaults }
  else { st with sections := st.sections.map fun p => if p.1 = s then (p.1, f p.2) else p }

/-- The options of the section called `s`. -/
def optsOf (st : IniState) (s : Str) : Option IniOpts :=
  if s = defaultSection then some st.defaults else st.sections.lookup s

/-- `cursect[name].append(value)`. -/
def appendLine (name value : Str) (o : IniOpts) : IniOpts :=
  o.map fun p => if p.1 = name then (p.1, p.2 ++ [value]) else p

/-- `SECTCRE.match(value)`: the text between `[` at the beginning and the last `]`. -/
def matchHeader : Str → Option Str
  | '[' :: t =>
    match rsplit ']' t with
    | some (c :: h, _) => some (c :: h)
    | _ => none
  | _ => none

/-- `OPTCRE.match(value)`: what is before and what is after the first `=` or `:`. -/
def matchOption (v : Str) : Option (Str × Str) :=
  match v.dropWhile fun c => c ≠ '=' && c ≠ ':' with
  | [] => none
  | _ :: t => some (v.takeWhile fun c => c ≠ '=' && c ≠ ':', t)

/-- `str.lower` of an ASCII letter. -/
def lowerChar (c : Char) : Char := if 65 ≤ c.toNat ∧ c.toNat ≤ 90 then Char.ofNat (c.toNat + 32) else c

/-- `s.rstrip()`. -/
def rstrip (s : Str) : Str := (s.reverse.dropWhile isSpace).reverse

/-- `optionxform`. -/
def optionxform (s : Str) : Str := s.map lowerChar

/-- Whether a line is a comment. -/
def isComment (line : Str) : Bool := startsWith (strip line) ['#'] || startsWith (strip line) [';']

/-- A line that is not a continuation of the value before it. -/
def headerStep (st : IniState) (value : Str) (indent : ℕ) : Option IniState :=
  match matchHeader value with
  | some h =>
    if h = defaultSection then some { st with cur := some h, opt := none, indent := indent }
    else if (st.sections.lookup h).isSome then none
    else some { st with sections := st.sections ++ [(h, [])], cur := some h, opt := none, indent := indent }
  | none =>
    match st.cur with
    | none => none
    | some s =>
      match matchOption value with
      | none => none
      | some (name, val) =>
        let name := optionxform (rstrip name)
        if name = [] ∨ (((optsOf st s).getD []).lookup name).isSome then none
        else some { updateOpts st s (· ++ [(name, [strip val])]) with opt := some name, indent := indent }

/-- One line of `_read`; `none` for an exception. -/
def iniStep (st : IniState) (line : Str) : Option IniState :=
  if isComment line then some st
  else if strip line = [] then
    match st.cur, st.opt with
    | some s, some o => some (updateOpts st s (appendLine o []))
    | _, _ => some st
  else
    match st.cur, st.opt with
    | some s, some o =>
      if (line.takeWhile isSpace).length > st.indent then some (updateOpts st s (appendLine o (strip line)))
      else headerStep st (strip line) (line.takeWhile isSpace).length
    | _, _ => headerStep st (strip line) (line.takeWhile isSpace).length

/-- `parser.read_file(f)` for a file with the given text. -/
def readIni (text : Str) : Option IniState := (linesOf [] (readText text)).foldlM iniStep {}

/-- `_join_multiline_values` for one value. -/
def joinLines (l : List Str) : Str := rstrip (List.intercalate ['\n'] l)

inductive CfgErr
  | osError
  | noSection
  | noOption
  | parsing
  | interpolation
  deriving DecidableEq

/-! ## `get_config_from_root` -/

/-- The attributes of `VersioneerConfig`. -/
structure SetupCfg where
  vcs : Str
  style : Str
  source : Option Str
  build : Option Str
  tagPrefix : Option Str
  parentdirPrefix : Option Str
  verbose : Option Str
  deriving DecidableEq

/-- The file system. -/
abbrev FS := Str → Option Str

/-- The machine on which the installer runs. -/
structure Host where
  /-- `os.path.realpath(os.path.abspath(os.getcwd()))` -/
  cwd : Str
  /-- `os.path.dirname(os.path.realpath(os.path.abspath(sys.argv[0])))` -/
  argvDir : Str
  /-- Whether a path can be opened for writing. -/
  writable : Str → Bool
  /-- `os.path.relpath(__file__)` -/
  versioneerFile : Str
  sys : Sys
  /-- `BasicInterpolation` of a value with a percent sign; `none` for an exception. -/
  interp : IniState → Str → Option Str
  /-- `LONG_VERSION_PY["git"]` before the configuration. -/
  longHead : Str
  /-- `LONG_VERSION_PY["git"]` after the configuration. -/
  longTail : Str

/-- `os.path.join(a, b)`. -/
def pathJoin (a b : Str) : Str :=
  if startsWith b ['/'] then b else if a = [] ∨ endsWith a ['/'] then a ++ b else a ++ '/' :: b

/-- `parser.get(section, option)`. -/
def iniGet (h : Host) (st : IniState) (sect opt : Str) : Except CfgErr Str :=
  match optsOf st sect with
  | none => .error .noSection
  | some o =>
    match (o.lookup (optionxform opt)).or (st.defaults.lookup (optionxform opt)) with
    | none => .error .noOption
    | some l =>
      if '%' ∈ joinLines l then
        match h.interp st (joinLines l) with
        | some v => .ok v
        | none => .error .interpolation
      else .ok (joinLines l)

/-- `section.get(option)`: `None` if there is no such option. -/
def iniGetOpt (h : Host) (st : IniState) (sect opt : Str) : Except CfgErr (Option Str) :=
  match iniGet h st sect opt with
  | .ok v => .ok (some v)
  | .error .noOption => .ok none
  | .error e => .error e

def versioneerSection : Str := "versioneer".toList

/-- `get_config_from_root` (lines 340–365) for the text of `setup.cfg`, or `none` if there is no such file. -/
def getConfigFromRoot (h : Host) (file : Option Str) : Except CfgErr SetupCfg :=
  match file with
  | none => .error .osError
  | some text =>
    match readIni text with
    | none => .error .parsing
    | some st => do
      let vcs ← iniGet h st versioneerSection "VCS".toList
      let style ← iniGetOpt h st versioneerSection "style".toList
      let source ← iniGetOpt h st versioneerSection "versionfile_source".toList
      let build ← iniGetOpt h st versioneerSection "versionfile_build".toList
      let tagPrefix ← iniGetOpt h st versioneerSection "tag_prefix".toList
      let tagPrefix := if tagPrefix = some "''".toList ∨ tagPrefix = some "\"\"".toList then some [] else tagPrefix
      let parentdirPrefix ← iniGetOpt h st versioneerSection "parentdir_prefix".toList
      let verbose ← iniGetOpt h st versioneerSection "verbose".toList
      pure ⟨vcs, style.getD [], source, build, tagPrefix, parentdirPrefix, verbose⟩

/-! ## Files -/

inductive IErr
  | badRoot
  | config (e : CfgErr)
  | osError
  | typeError
  | keyError
  | unicodeDecodeError
  deriving DecidableEq

/-- `open(path, "w")` and `write`. -/
def Host.write (h : Host) (fs : FS) (path text : Str) : Option FS :=
  if h.writable path then some (Function.update fs path (some text)) else none

/-- `open(path, "a")` and `write`. -/
def Host.append (h : Host) (fs : FS) (path text : Str) : Option FS :=
  h.write fs path ((fs path).getD [] ++ text)

/-- A path as `open` understands it. -/
def Host.path (h : Host) (p : Str) : Str := pathJoin h.cwd p

/-- `get_root` (lines 297–337). -/
def getRoot (h : Host) (fs : FS) : Option Str :=
  let has (d : Str) : Bool := (fs (pathJoin d "setup.py".toList)).isSome || (fs (pathJoin d "versioneer.py".toList)).isSome
  if has h.cwd then some h.cwd else if has h.argvDir then some h.argvDir else none

/-! ## `do_setup` -/

/-- The lines of `SAMPLE_CONFIG` after the first, which is empty. -/
def sampleLines : List Str :=
  ["# See the docstring in versioneer.py for instructions. Note that you must\n".toList,
    "# re-run 'versioneer.py setup' after changing this section, and commit the\n".toList,
    "# resulting files.\n".toList,
    "\n".toList,
    "[versioneer]\n".toList,
    "#VCS = git\n".toList,
    "#style = pep440\n".toList,
    "#versionfile_source =\n".toList,
    "#versionfile_build =\n".toList,
    "#tag_prefix =\n".toList,
    "#parentdir_prefix =\n".toList,
    "\n".toList]

/-- `SAMPLE_CONFIG` (lines 2028–2041). -/
def sampleConfig : Str := '\n' :: sampleLines.flatten

/-- `OLD_SNIPPET` (lines 2043–2047). -/
def oldSnippet : Str := "
from ._version import get_versions
__version__ = get_versions()['version']
del get_versions
".toList

/-- `INIT_PY_SNIPPET.format(module)` (lines 2049–2052). -/
def initSnippet (module : Str) : Str :=
  "\nfrom . import ".toList ++ module ++ "\n__version__ = ".toList ++ module ++ ".get_versions()['version']\n".toList

/-- `"%s" % x` for a string or `None`. -/
def showOpt : Option Str → Str
  | none => "None".toList
  | some s => s

/-- The part of `LONG_VERSION_PY["git"]` that is filled in (lines 478–484). -/
def configText (c : SetupCfg) : Str :=
  "    cfg.VCS = \"git\"\n    cfg.style = \"".toList ++ c.style ++ "\"\n    cfg.tag_prefix = \"".toList ++ showOpt c.tagPrefix ++
    "\"\n    cfg.parentdir_prefix = \"".toList ++ showOpt c.parentdirPrefix ++
    "\"\n    cfg.versionfile_source = \"".toList ++ showOpt c.source ++ "\"\n    cfg.verbose = False\n".toList

/-- `LONG % {...}` (lines 2070–2079). -/
def longVersionPy (h : Host) (c : SetupCfg) : Str := h.longHead ++ configText c ++ h.longTail

/-- `s.split()`; `acc` is the current word in reverse. -/
def wordsGo (acc : Str) : Str → List Str
  | [] => if acc.isEmpty then [] else [acc.reverse]
  | c :: t =>
    if isSpace c then (if acc.isEmpty then wordsGo [] t else acc.reverse :: wordsGo [] t) else wordsGo (c :: acc) t

def words (s : Str) : List Str := wordsGo [] s

/-- `s.replace(old, new)`. -/
def replaceAll (old new s : Str) : Str := List.intercalate new (split s old)

/-- `os.path.splitext(p)[0]` for a path without slashes: the last dot begins the extension unless there are only dots before
it. -/
def splitextRoot (p : Str) : Str :=
  match rsplit '.' p with
  | some (front, _) => if front.all (· = '.') then p else front
  | none => p

/-- `os.path.join(os.path.dirname(cfg.versionfile_source), "__init__.py")` (line 2081). -/
def initPath (src : Str) : Str := pathJoin (dirname src) "__init__.py".toList

/-- What `__init__.py` is when the installer has been at it, `none` if it is left as it is (lines 2083–2102). -/
def newInit (src old : Str) : Option (Str × Bool) :=
  let snippet := initSnippet (splitextRoot (basename src))
  let text := readText old
  if oldSnippet <:+: text then some (replaceAll oldSnippet snippet text, true)
  else if ¬ snippet <:+: text then some (snippet, false)
  else none

/-- The part of `do_setup` that edits `__init__.py` (lines 2081–2105).  `none` for an `OSError`. -/
def installInit (h : Host) (src : Str) (fs : FS) : Option FS :=
  match fs (h.path (initPath src)) with
  | none => some fs
  | some old =>
    match newInit src old with
    | some (text, true) => h.write fs (h.path (initPath src)) text
    | some (text, false) => h.append fs (h.path (initPath src)) text
    | none => some fs

/-- `simple_includes` (lines 2112–2120). -/
def simpleIncludes (file : Option Str) : List Str :=
  ((linesOf [] (readText (file.getD []))).filter fun line => startsWith line "include ".toList).flatMap
    fun line => (words line).drop 1

def versioneerPy : Str := "versioneer.py".toList

def includeLine (f : Str) : Str := "include ".toList ++ f ++ ['\n']

/-- The part of `do_setup` that edits `MANIFEST.in` (lines 2107–2137). -/
def installManifest (h : Host) (root src : Str) (fs : FS) : Option FS := do
  let path := pathJoin root "MANIFEST.in".toList
  let includes := simpleIncludes (fs path)
  let fs ← if versioneerPy ∈ includes then some fs else h.append fs path (includeLine versioneerPy)
  if src ∈ includes then some fs else h.append fs path (includeLine src)

def exportSubst : Str := "export-subst".toList

/-- `present` (lines 1350–1359). -/
def attrPresent (src : Str) (file : Option Str) : Bool :=
  (linesOf [] (readText (file.getD []))).any fun line =>
    startsWith (strip line) src && decide (exportSubst ∈ (words (strip line)).drop 1)

def attrLine (src : Str) : Str := src ++ " export-subst\n".toList

/-- `do_vcs_install` (lines 1331–1365): the files, and the outcome. -/
def doVcsInstall (h : Host) (root src : Str) (ipy : Option Str) (fs : FS) : FS × Except IErr Unit :=
  let path := h.path ".gitattributes".toList
  let present := attrPresent src (fs path)
  match (if present then some fs else h.append fs path (attrLine src)) with
  | none => (fs, .error .osError)
  | some fs =>
    let files := [pathJoin root "MANIFEST.in".toList, src] ++ ipy.toList ++ [h.versioneerFile] ++
      (if present then [] else [".gitattributes".toList])
    match runCommand h.sys ["git"] ((["add", "--"] : List String) ++ files.map String.ofList) h.cwd h.sys.environ false with
    | .ok _ => (fs, .ok ())
    | .error _ => (fs, .error .unicodeDecodeError)

/-- The part of `do_setup` after the version file has been written (lines 2081–2143). -/
def setupRest (h : Host) (root src : Str) (fs : FS) : FS × Except IErr ℕ :=
  match installInit h src fs with
  | none => (fs, .error .osError)
  | some fs₁ =>
    match installManifest h root src fs₁ with
    | none =>
      -- Both lines go to the same file, so neither has been written.
      (fs₁, .error .osError)
    | some fs₂ =>
      let ipy := if (fs (h.path (initPath src))).isSome then some (initPath src) else none
      match doVcsInstall h root src ipy fs₂ with
      | (fs₃, .ok _) => (fs₃, .ok 0)
      | (fs₃, .error e) => (fs₃, .error e)

/-- `do_setup` (lines 2055–2143): the files afterwards and the number of errors. -/
def doSetup (h : Host) (fs : FS) : FS × Except IErr ℕ :=
  match getRoot h fs with
  | none => (fs, .error .badRoot)
  | some root =>
    let setupCfg := pathJoin root "setup.cfg".toList
    match getConfigFromRoot h (fs setupCfg) with
    | .error .osError | .error .noSection =>
      match h.append fs setupCfg sampleConfig with
      | none => (fs, .error .osError)
      | some fs => (fs, .ok 1)
    | .error .noOption => (fs, .ok 1)
    | .error e => (fs, .error (.config e))
    | .ok cfg =>
      match cfg.source with
      | none => (fs, .error .typeError)
      | some src =>
        match h.write fs (h.path src) [] with
        | none => (fs, .error .osError)
        | some fs =>
          if cfg.vcs ≠ "git".toList then (fs, .error .keyError)
          else setupRest h root src (Function.update fs (h.path src) (some (longVersionPy h cfg)))

/-! ## `scan_setup_py` -/

/-- `scan_setup_py` (lines 2146–2178): the number of errors, for the text of `setup.py`. -/
def scanSetupPy (text : Str) : ℕ :=
  let lines := linesOf [] (readText text)
  let has (s : String) : Bool := lines.any fun l => decide (s.toList <:+: l)
  (if has "import versioneer" && has "versioneer.get_cmdclass()" && has "versioneer.get_version()" then 0 else 1) +
    (if has "versioneer.VCS" || has "versioneer.versionfile_source" then 1 else 0)

/-- `python versioneer.py setup` (lines 2181–2187): the files afterwards and the exit code. -/
def versioneerSetup (h : Host) (fs : FS) : FS × Except IErr ℕ :=
  match doSetup h fs with
  | (fs, .error e) => (fs, .error e)
  | (fs, .ok errors) =>
    match fs (h.path "setup.py".toList) with
    | none => (fs, .error .osError)
    | some text => (fs, .ok (if errors + scanSetupPy text = 0 then 0 else 1))

end Snompy.Version
