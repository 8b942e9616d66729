import Verif.Model.Install

/-!
# The commands of `setup.py` (`versioneer.py`, lines 1789–2004)

`get_cmdclass` and the commands it returns.  The base classes are arbitrary programs on the files; what the commands print is
left out, except for that of `version` itself.  Files can have several names (hard links): a name leads to a number, and the
number to the contents.  Paths are compared as strings; symbolic links are left out.
-/

namespace Snompy.Version

/-! ## Files with hard links -/

structure Disk where
  /-- The file that a path leads to. -/
  inode : Str → Option ℕ
  data : ℕ → Str
  /-- The number of the next new file. -/
  next : ℕ

/-- What is read from a path. -/
def Disk.read (d : Disk) (p : Str) : Option Str := (d.inode p).map d.data

inductive CErr
  | badRoot
  | config (e : CfgErr)
  | assertion
  | version (e : VErr)
  | keyError
  | osError
  | typeError
  /-- An exception of a base class. -/
  | base
  deriving DecidableEq

/-- A program that changes files and may raise. -/
def CM (α : Type) := Disk → Disk × Except CErr α

instance : Monad CM where
  pure a := fun d => (d, .ok a)
  bind x f := fun d =>
    match x d with
    | (d, .ok a) => f a d
    | (d, .error e) => (d, .error e)

def CM.raise {α : Type} (e : CErr) : CM α := fun d => (d, .error e)

/-- A computation that reads files. -/
def CM.ask {α : Type} (f : Disk → Except CErr α) : CM α := fun d => (d, f d)

/-- The machine on which `setup.py` runs. -/
structure Builder extends Host where
  /-- Whether the directory of a path allows removing it. -/
  removable : Str → Bool

/-- `os.unlink(path)`. -/
def Builder.unlink (b : Builder) (p : Str) : CM Unit := fun d =>
  if (d.inode p).isSome ∧ b.removable p then ({ d with inode := Function.update d.inode p none }, .ok ())
  else (d, .error .osError)

/-- `open(path, "w")` and `write`: an existing file keeps its other names. -/
def Builder.put (b : Builder) (p text : Str) : CM Unit := fun d =>
  if b.writable p then
    match d.inode p with
    | some i => ({ d with data := Function.update d.data i text }, .ok ())
    | none =>
      (⟨Function.update d.inode p (some d.next), Function.update d.data d.next text, d.next + 1⟩, .ok ())
  else (d, .error .osError)

/-! ## Reading the configuration and the version -/

/-- `get_root()` (lines 297–337). -/
def Builder.root (b : Builder) : CM Str := CM.ask fun d =>
  match getRoot b.toHost d.read with
  | none => .error .badRoot
  | some r => .ok r

/-- `get_config_from_root(root)` (lines 340–365). -/
def Builder.config (b : Builder) (root : Str) : CM SetupCfg := CM.ask fun d =>
  match getConfigFromRoot b.toHost (d.read (pathJoin root "setup.cfg".toList)) with
  | .error e => .error (.config e)
  | .ok c => .ok c

/-- `get_versions()` (lines 1703–1781). -/
def Builder.versions (b : Builder) : CM PyDict := do
  let root ← b.root
  let cfg ← b.config root
  if cfg.vcs ≠ "git".toList then CM.raise .assertion
  else
    match cfg.source, cfg.tagPrefix with
    | some src, some pre =>
      CM.ask fun d => (setupVersions b.sys ⟨String.ofList cfg.style, pre, cfg.parentdirPrefix.getD [], src⟩ root
        (d.read (pathJoin root src))).mapError CErr.version
    | _, _ => CM.raise .assertion

/-- `write_to_version_file(filename, versions)` (lines 1435–1442). -/
def Builder.writeTo (b : Builder) (p : Str) (versions : PyDict) : CM Unit := do
  b.unlink (b.path p)
  b.put (b.path p) (writeVersionFile b.sys.win32 versions)
  match versions.lookup "version".toList with
  | none => CM.raise .keyError
  | some _ => pure ()

/-! ## The commands -/

/-- `"%s" % x` for a value of a version dictionary. -/
def showVal : JVal → Str
  | .null => "None".toList
  | .bool true => "True".toList
  | .bool false => "False".toList
  | .str s => s

/-- `vers.get(key)`. -/
def getVal (d : PyDict) (k : String) : JVal := (d.lookup k.toList).getD .null

/-- `cmd_version.run` (lines 1829–1836): the lines that it prints after those of `get_versions`. -/
def Builder.version (b : Builder) : CM (List Str) := do
  let vers ← b.versions
  match vers.lookup "version".toList with
  | none => CM.raise .keyError
  | some v =>
    let lines := ["Version: ".toList ++ showVal v,
      " full-revisionid: ".toList ++ showVal (getVal vers "full-revisionid"),
      " dirty: ".toList ++ showVal (getVal vers "dirty"),
      " date: ".toList ++ showVal (getVal vers "date")]
    match vers.lookup "error".toList with
    | none => CM.raise .keyError
    | some .null | some (.bool false) | some (.str []) => pure lines
    | some e => pure (lines ++ [" error: ".toList ++ showVal e])

/-- `cmd_build_py.run` (lines 1864–1875). -/
def Builder.buildPy (b : Builder) (buildLib : Str) (base : CM Unit) : CM Unit := do
  let root ← b.root
  let cfg ← b.config root
  let versions ← b.versions
  base
  match cfg.build with
  | none | some [] => pure ()
  | some p => b.writeTo (pathJoin buildLib p) versions

/-- `cmd_build_ext.run` (lines 1886–1901). -/
def Builder.buildExt (b : Builder) (buildLib : Str) (inplace : Bool) (base : CM Unit) : CM Unit := do
  let root ← b.root
  let cfg ← b.config root
  let versions ← b.versions
  base
  if inplace then pure ()
  else
    match cfg.build with
    | none => CM.raise .typeError
    | some p => b.writeTo (pathJoin buildLib p) versions

/-- `cmd_build_exe.run` (lines 1917–1939) and `cmd_py2exe.run` (lines 1948–1970). -/
def Builder.exe (b : Builder) (base : CM Unit) : CM Unit := do
  let root ← b.root
  let cfg ← b.config root
  let versions ← b.versions
  match cfg.source with
  | none => CM.raise .typeError
  | some src =>
    b.writeTo src versions
    base
    b.unlink (b.path src)
    b.put (b.path src) []
    if cfg.vcs ≠ "git".toList then CM.raise .keyError
    else b.put (b.path src) (longVersionPy b.toHost cfg)

/-- The base class of `sdist`: what it does before making the tree, the name of the tree, making it, and packing it. -/
structure Sdist where
  before : CM Unit
  /-- `self.distribution.get_fullname()` for the version in the metadata. -/
  baseDir : JVal → Str
  tree : Str → CM Unit
  after : Str → CM Unit

/-- `cmd_sdist.make_release_tree` (lines 1988–2000). -/
def Builder.releaseTree (b : Builder) (s : Sdist) (versions : PyDict) (baseDir : Str) : CM Unit := do
  let root ← b.root
  let cfg ← b.config root
  s.tree baseDir
  match cfg.source with
  | none => CM.raise .typeError
  | some src => b.writeTo (pathJoin baseDir src) versions

/-- `cmd_sdist.run` (lines 1980–1986), with the method of the base class calling `make_release_tree`. -/
def Builder.sdist (b : Builder) (s : Sdist) : CM Unit := do
  let versions ← b.versions
  match versions.lookup "version".toList with
  | none => CM.raise .keyError
  | some v =>
    s.before
    b.releaseTree s versions (s.baseDir v)
    s.after (s.baseDir v)

/-! ## `get_cmdclass` -/

/-- The class that a command of versioneer extends. -/
inductive Parent (K : Type)
  | user (k : K)
  | setuptools
  | distutils
  | cxFreeze
  | py2exe

/-- A value of the dictionary that `get_cmdclass` returns. -/
inductive Klass (K : Type)
  | user (k : K)
  | version
  | buildPy (p : Parent K)
  | buildExt (p : Parent K)
  | exe (p : Parent K)
  | sdist (p : Parent K)

/-- `d[key] = value`. -/
def dictSet {α : Type} (d : List (Str × α)) (k : Str) (v : α) : List (Str × α) :=
  if k ∈ d.map Prod.fst then d.map fun kv => if kv.1 = k then (k, v) else kv else d ++ [(k, v)]

/-- `del d[key]`. -/
def dictDel {α : Type} (d : List (Str × α)) (k : Str) : List (Str × α) := d.filter fun kv => kv.1 ≠ k

/-- The choice of the class to extend (for example lines 1856–1861). -/
def parent {K : Type} (mods : Str → Bool) (user : List (Str × K)) (k : Str) : Parent K :=
  match user.lookup k with
  | some c => .user c
  | none => if mods "setuptools".toList then .setuptools else .distutils

/-- `get_cmdclass` (lines 1789–2004): `sys.modules` afterwards and the dictionary. -/
def getCmdclass {K : Type} (mods : Str → Bool) (cmdclass : Option (List (Str × K))) : (Str → Bool) × List (Str × Klass K) :=
  let user := cmdclass.getD []
  let mods := Function.update mods "versioneer".toList false
  let cmds : List (Str × Klass K) := user.map fun kv => (kv.1, .user kv.2)
  let cmds := dictSet cmds "version".toList .version
  let cmds := dictSet cmds "build_py".toList (.buildPy (parent mods user "build_py".toList))
  let cmds := dictSet cmds "build_ext".toList (.buildExt (parent mods user "build_ext".toList))
  let cmds := if mods "cx_Freeze".toList then
      dictDel (dictSet cmds "build_exe".toList (.exe .cxFreeze)) "build_py".toList
    else cmds
  let cmds := if mods "py2exe".toList then dictSet cmds "py2exe".toList (.exe .py2exe) else cmds
  (mods, dictSet cmds "sdist".toList (.sdist (parent mods user "sdist".toList)))

end Snompy.Version
