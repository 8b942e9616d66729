import Verif.Lemmas.Commands
import Verif.Props.Release
import Verif.Props.Install

/-!
# C112: the commands of `setup.py`
-/

namespace Snompy.Props

open Snompy.Version

variable {b : Builder} {d : Disk} {root src pre : Str} {cfg : SetupCfg} {versions : PyDict}

/-! ## The dictionary of commands -/

/-- Which commands there are: every command of the user stays, except that `version` is always versioneer's, `build_exe` and
`py2exe` are when their packages are loaded, and `build_py` is missing when `cx_Freeze` is loaded. -/
theorem C112_commands {K : Type} (mods : Str → Bool) (cmdclass : Option (List (Str × K))) (k : Str) :
    ((getCmdclass mods cmdclass).2.lookup k).isSome ↔
      ((cmdclass.getD []).lookup k).isSome ∧ ¬ (k = "build_py".toList ∧ mods "cx_Freeze".toList = true) ∨
        k = "version".toList ∨ k = "build_ext".toList ∨ k = "sdist".toList ∨
        (k = "build_py".toList ∧ mods "cx_Freeze".toList = false) ∨
        (k = "build_exe".toList ∧ mods "cx_Freeze".toList = true) ∨ (k = "py2exe".toList ∧ mods "py2exe".toList = true) := by
  have h1 : Function.update mods "versioneer".toList false "cx_Freeze".toList = mods "cx_Freeze".toList :=
    Function.update_of_ne (by decide) ..
  have h2 : Function.update mods "versioneer".toList false "py2exe".toList = mods "py2exe".toList :=
    Function.update_of_ne (by decide) ..
  have n1 : "build_py".toList ≠ "version".toList := by decide
  have n2 : "build_py".toList ≠ "build_ext".toList := by decide
  have n3 : "build_py".toList ≠ "sdist".toList := by decide
  have n4 : "build_py".toList ≠ "build_exe".toList := by decide
  have n5 : "build_py".toList ≠ "py2exe".toList := by decide
  simp only [getCmdclass, lookup_dictSet, h1, h2]
  generalize mods "cx_Freeze".toList = cx
  generalize mods "py2exe".toList = px
  generalize parent (Function.update mods "versioneer".toList false) (cmdclass.getD []) = P
  generalize "build_py".toList = B at *
  generalize "version".toList = V at *
  generalize "build_ext".toList = E at *
  generalize "sdist".toList = S at *
  generalize "build_exe".toList = X at *
  generalize "py2exe".toList = Y at *
  clear h1 h2
  have hsome : ∀ {α : Type} (c : Prop) [Decidable c] (v : α) (x : Option α),
      (if c then some v else x).isSome = true ↔ c ∨ x.isSome = true := by
    intro α c _ v x
    split_ifs with h <;> simp [h]
  have hdel : ∀ {α : Type} (c : Prop) [Decidable c] (x : Option α),
      (if c then none else x).isSome = true ↔ ¬ c ∧ x.isSome = true := by
    intro α c _ x
    split_ifs with h <;> simp [h]
  rcases cx with _ | _ <;> rcases px with _ | _ <;>
    simp only [Bool.false_eq_true, if_false, if_true, lookup_dictSet, lookup_dictDel, lookup_user, hsome, hdel,
      Option.isSome_map, and_true, and_false, or_false, not_false_eq_true, reduceCtorEq]
  all_goals
    by_cases hB : k = B
    · subst hB
      simp only [n1, n2, n3, n4, n5, not_true_eq_false, false_and, or_false, false_or, and_false, true_or, or_true]
    · tauto

/-- A command that the user passes is extended, not replaced: `build_ext`, `sdist` and, without `cx_Freeze`, `build_py`;
otherwise that of `setuptools` is, or of `distutils` if `setuptools` is not loaded. -/
theorem C112_extends {K : Type} (mods : Str → Bool) (cmdclass : Option (List (Str × K))) (P : Str → Parent K)
    (hP : ∀ k c, (cmdclass.getD []).lookup k = some c → P k = .user c)
    (hP' : ∀ k, (cmdclass.getD []).lookup k = none →
      P k = if mods "setuptools".toList = true then .setuptools else .distutils) :
    (getCmdclass mods cmdclass).2.lookup "build_ext".toList = some (.buildExt (P "build_ext".toList)) ∧
      (getCmdclass mods cmdclass).2.lookup "sdist".toList = some (.sdist (P "sdist".toList)) ∧
      (mods "cx_Freeze".toList = false →
        (getCmdclass mods cmdclass).2.lookup "build_py".toList = some (.buildPy (P "build_py".toList))) := by
  have h1 : Function.update mods "versioneer".toList false "cx_Freeze".toList = mods "cx_Freeze".toList :=
    Function.update_of_ne (by decide) ..
  have h2 : Function.update mods "versioneer".toList false "py2exe".toList = mods "py2exe".toList :=
    Function.update_of_ne (by decide) ..
  have h3 : Function.update mods "versioneer".toList false "setuptools".toList = mods "setuptools".toList :=
    Function.update_of_ne (by decide) ..
  have hp : ∀ k, parent (Function.update mods "versioneer".toList false) (cmdclass.getD []) k = P k := by
    intro k
    unfold parent
    cases h : (cmdclass.getD []).lookup k with
    | none => rw [hP' k h, h3]
    | some c => rw [hP k c h]
  simp only [getCmdclass, lookup_dictSet, h1, h2, hp]
  cases hc : mods "cx_Freeze".toList <;> cases mods "py2exe".toList <;> simp [lookup_dictSet, lookup_dictDel]

/-- Other commands of the user are kept. -/
theorem C112_keeps {K : Type} (mods : Str → Bool) (cmdclass : List (Str × K)) (k : Str) (c : K)
    (h : cmdclass.lookup k = some c) (hk : k ∉ ["version", "build_py", "build_ext", "build_exe", "py2exe", "sdist"].map String.toList) :
    (getCmdclass mods (some cmdclass)).2.lookup k = some (.user c) := by
  simp only [List.map_cons, List.map_nil, List.mem_cons, List.not_mem_nil, or_false, not_or] at hk
  obtain ⟨k1, k2, k3, k4, k5, k6⟩ := hk
  simp only [getCmdclass, lookup_dictSet, if_neg k6]
  split
  · rw [lookup_dictSet, if_neg k5]
    split
    · rw [lookup_dictDel, if_neg k2, lookup_dictSet, if_neg k4, lookup_dictSet, if_neg k3, lookup_dictSet, if_neg k2,
        lookup_dictSet, if_neg k1, lookup_user, Option.getD_some, h]
      rfl
    · rw [lookup_dictSet, if_neg k3, lookup_dictSet, if_neg k2, lookup_dictSet, if_neg k1, lookup_user, Option.getD_some, h]
      rfl
  · split
    · rw [lookup_dictDel, if_neg k2, lookup_dictSet, if_neg k4, lookup_dictSet, if_neg k3, lookup_dictSet, if_neg k2,
        lookup_dictSet, if_neg k1, lookup_user, Option.getD_some, h]
      rfl
    · rw [lookup_dictSet, if_neg k3, lookup_dictSet, if_neg k2, lookup_dictSet, if_neg k1, lookup_user, Option.getD_some, h]
      rfl

/-- A command `version`, `build_exe` or `py2exe` of the user is replaced without being extended. -/
theorem C112_replaces {K : Type} (mods : Str → Bool) (cmdclass : Option (List (Str × K))) :
    (getCmdclass mods cmdclass).2.lookup "version".toList = some .version ∧
      (mods "cx_Freeze".toList = true → (getCmdclass mods cmdclass).2.lookup "build_exe".toList = some (.exe .cxFreeze)) ∧
      (mods "py2exe".toList = true → (getCmdclass mods cmdclass).2.lookup "py2exe".toList = some (.exe .py2exe)) := by
  have h1 : Function.update mods "versioneer".toList false "cx_Freeze".toList = mods "cx_Freeze".toList :=
    Function.update_of_ne (by decide) ..
  have h2 : Function.update mods "versioneer".toList false "py2exe".toList = mods "py2exe".toList :=
    Function.update_of_ne (by decide) ..
  simp only [getCmdclass, lookup_dictSet, h1, h2]
  cases hc : mods "cx_Freeze".toList <;> cases mods "py2exe".toList <;> simp [lookup_dictSet, lookup_dictDel]

/-- The `setup.py` of this package. -/
theorem C112_snompy {K : Type} (mods : Str → Bool) (h1 : mods "setuptools".toList = true) (h2 : mods "cx_Freeze".toList = false)
    (h3 : mods "py2exe".toList = false) :
    getCmdclass (K := K) mods none = (Function.update mods "versioneer".toList false,
      [("version".toList, .version), ("build_py".toList, .buildPy .setuptools), ("build_ext".toList, .buildExt .setuptools),
        ("sdist".toList, .sdist .setuptools)]) := by
  have e1 : Function.update mods "versioneer".toList false "cx_Freeze".toList = false :=
    (Function.update_of_ne (by decide) ..).trans h2
  have e2 : Function.update mods "versioneer".toList false "py2exe".toList = false :=
    (Function.update_of_ne (by decide) ..).trans h3
  have e3 : Function.update mods "versioneer".toList false "setuptools".toList = true :=
    (Function.update_of_ne (by decide) ..).trans h1
  simp only [getCmdclass, e1, e2, parent, e3, Option.getD_none, List.lookup_nil]
  rfl

/-! ## Building -/

/-- `build_py` runs the command it extends, and then the version file of the build holds the version that the project had
before; all other files, also other names of the file that was there, are as the extended command left them. -/
theorem C112_build_py (hp : Project b d root src pre cfg versions) (buildLib build : Str) (hb : cfg.build = some build)
    (hne : build ≠ []) (base : CM Unit) (d₁ : Disk) (hbase : base d = (d₁, .ok ())) (hs : d₁.Sound)
    (hr : Replaceable b d₁ (b.path (pathJoin buildLib build))) :
    ∃ d', b.buildPy buildLib base d = (d', .ok ()) ∧
      d'.read (b.path (pathJoin buildLib build)) = some (writeVersionFile b.sys.win32 versions) ∧
      SameBut (b.path (pathJoin buildLib build)) d₁ d' := by
  obtain ⟨d', e1, e2, e3, -⟩ := writeTo_run hs hr hp.has_version
  refine ⟨d', ?_, e2, e3⟩
  unfold Builder.buildPy
  rw [CM.bind_ok hp.root_run, CM.bind_ok hp.config_run, CM.bind_ok hp.versions_run, CM.bind_ok hbase, hb]
  obtain ⟨c, t, rfl⟩ := List.exists_cons_of_ne_nil hne
  exact e1

/-- The same for `build_ext`; built in place, it changes nothing after the extended command. -/
theorem C112_build_ext (hp : Project b d root src pre cfg versions) (buildLib build : Str) (hb : cfg.build = some build)
    (base : CM Unit) (d₁ : Disk) (hbase : base d = (d₁, .ok ())) (hs : d₁.Sound)
    (hr : Replaceable b d₁ (b.path (pathJoin buildLib build))) :
    (∃ d', b.buildExt buildLib false base d = (d', .ok ()) ∧
      d'.read (b.path (pathJoin buildLib build)) = some (writeVersionFile b.sys.win32 versions) ∧
      SameBut (b.path (pathJoin buildLib build)) d₁ d') ∧ b.buildExt buildLib true base d = (d₁, .ok ()) := by
  obtain ⟨d', e1, e2, e3, -⟩ := writeTo_run hs hr hp.has_version
  refine ⟨⟨d', ?_, e2, e3⟩, ?_⟩
  · unfold Builder.buildExt
    rw [CM.bind_ok hp.root_run, CM.bind_ok hp.config_run, CM.bind_ok hp.versions_run, CM.bind_ok hbase, hb]
    exact e1
  · unfold Builder.buildExt
    rw [CM.bind_ok hp.root_run, CM.bind_ok hp.config_run, CM.bind_ok hp.versions_run, CM.bind_ok hbase]
    rfl

/-- Without `versionfile_build`, `build_py` leaves the build as it is, but `build_ext` raises `TypeError`. -/
theorem C112_no_build (hp : Project b d root src pre cfg versions) (buildLib : Str) (hb : cfg.build = none)
    (base : CM Unit) (d₁ : Disk) (hbase : base d = (d₁, .ok ())) :
    b.buildPy buildLib base d = (d₁, .ok ()) ∧ b.buildExt buildLib false base d = (d₁, .error .typeError) := by
  constructor
  · unfold Builder.buildPy
    rw [CM.bind_ok hp.root_run, CM.bind_ok hp.config_run, CM.bind_ok hp.versions_run, CM.bind_ok hbase, hb]
    rfl
  · unfold Builder.buildExt
    rw [CM.bind_ok hp.root_run, CM.bind_ok hp.config_run, CM.bind_ok hp.versions_run, CM.bind_ok hbase, hb]
    rfl

/-- If the version cannot be found, nothing is built. -/
theorem C112_no_version (b : Builder) (d : Disk) (e : CErr) (h : b.versions d = (d, .error e)) (buildLib : Str) (inplace : Bool)
    (base : CM Unit) (s : Sdist) :
    (∃ e', b.buildPy buildLib base d = (d, .error e')) ∧ (∃ e', b.buildExt buildLib inplace base d = (d, .error e')) ∧
      (∃ e', b.exe base d = (d, .error e')) ∧ ∃ e', b.sdist s d = (d, .error e') := by
  have key : ∀ f : SetupCfg → PyDict → CM Unit, ∃ e', (do
      let root ← b.root
      let cfg ← b.config root
      let versions ← b.versions
      f cfg versions) d = (d, .error e') := by
    intro f
    cases hr : getRoot b.toHost d.read with
    | none => exact ⟨.badRoot, CM.bind_error (by simp only [Builder.root, CM.ask, hr])⟩
    | some root =>
      rw [CM.bind_ok (a := root) (d' := d) (by simp only [Builder.root, CM.ask, hr])]
      cases hc : getConfigFromRoot b.toHost (d.read (pathJoin root "setup.cfg".toList)) with
      | error e => exact ⟨.config e, CM.bind_error (by simp only [Builder.config, CM.ask, hc])⟩
      | ok cfg =>
        rw [CM.bind_ok (a := cfg) (d' := d) (by simp only [Builder.config, CM.ask, hc])]
        exact ⟨e, CM.bind_error h⟩
  exact ⟨key _, key _, key _, e, CM.bind_error h⟩

/-! ## Source distributions -/

/-- `sdist` names the tree after the version of the project and writes that version into it; all other files, in particular
the version file of the project, which may be the same file under another name, are as making the tree left them. -/
theorem C112_sdist (hp : Project b d root src pre cfg versions) (s : Sdist) (v : JVal)
    (hv : versions.lookup "version".toList = some v) (d₁ d₂ : Disk) (hbefore : s.before d = (d₁, .ok ()))
    (hroot : getRoot b.toHost d₁.read = some root)
    (hcfg : getConfigFromRoot b.toHost (d₁.read (pathJoin root "setup.cfg".toList)) = .ok cfg)
    (htree : s.tree (s.baseDir v) d₁ = (d₂, .ok ())) (hs : d₂.Sound)
    (hr : Replaceable b d₂ (b.path (pathJoin (s.baseDir v) src))) :
    ∃ d₃, b.sdist s d = s.after (s.baseDir v) d₃ ∧
      d₃.read (b.path (pathJoin (s.baseDir v) src)) = some (writeVersionFile b.sys.win32 versions) ∧
      SameBut (b.path (pathJoin (s.baseDir v) src)) d₂ d₃ := by
  obtain ⟨d₃, e1, e2, e3, -⟩ := writeTo_run hs hr hp.has_version
  refine ⟨d₃, ?_, e2, e3⟩
  have ht : b.releaseTree s versions (s.baseDir v) d₁ = (d₃, .ok ()) := by
    unfold Builder.releaseTree
    rw [CM.bind_ok (a := root) (d' := d₁) (by simp only [Builder.root, CM.ask, hroot]),
      CM.bind_ok (a := cfg) (d' := d₁) (by simp only [Builder.config, CM.ask, hcfg]), CM.bind_ok htree, hp.source]
    exact e1
  unfold Builder.sdist
  rw [CM.bind_ok hp.versions_run, hv]
  change (s.before >>= _) d = _
  rw [CM.bind_ok hbefore, CM.bind_ok ht]

/-- The versions have distinct keys. -/
theorem project_nodup (hp : Project b d root src pre cfg versions) : (versions.map Prod.fst).Nodup :=
  setupVersions_nodup _ _ _ _ _ hp.versions_eq

/-- What is unpacked from it, or built by `build_py`, has the version of the project, wherever it is unpacked. -/
theorem C112_unpacked (hp : Project b d root src pre cfg versions) (sys : Sys) (cfg' : Config) (root' : Str) :
    ∃ versions', setupVersions sys cfg' root' (some (writeVersionFile b.sys.win32 versions)) = .ok versions' ∧
      versions'.Perm versions :=
  C96_sdist sys cfg' root' _ _ (project_nodup hp)

/-! ## Freezing programs -/

/-- `build_exe` and `py2exe`, in the directory of the project: the extended command finds the version in the version file of
the project; afterwards this is again the one that the installer writes, and all other files are as the command left them. -/
theorem C112_exe (hp : Project b d root src pre cfg versions) (hr : Replaceable b d (b.path src)) (base : CM Unit) :
    ∃ d₁, d₁.read (b.path src) = some (writeVersionFile b.sys.win32 versions) ∧ SameBut (b.path src) d d₁ ∧ d₁.Sound ∧
      (∀ d₂ e, base d₁ = (d₂, .error e) → b.exe base d = (d₂, .error e)) ∧
      ∀ d₂, base d₁ = (d₂, .ok ()) → d₂.Sound → (d₂.read (b.path src)).isSome →
        ∃ d', b.exe base d = (d', .ok ()) ∧ d'.read (b.path src) = some (longVersionPy b.toHost cfg) ∧
          SameBut (b.path src) d₂ d' := by
  obtain ⟨d₁, e1, e2, e3, e4⟩ := writeTo_run hp.sound hr hp.has_version
  have hrun : b.exe base d = (do
      base
      b.unlink (b.path src)
      b.put (b.path src) []
      if cfg.vcs ≠ "git".toList then CM.raise .keyError
      else b.put (b.path src) (longVersionPy b.toHost cfg) : CM Unit) d₁ := by
    unfold Builder.exe
    rw [CM.bind_ok hp.root_run, CM.bind_ok hp.config_run, CM.bind_ok hp.versions_run, hp.source]
    change (b.writeTo src versions >>= _) d = _
    rw [CM.bind_ok e1]
  refine ⟨d₁, e2, e3, e4, fun d₂ e h => ?_, fun d₂ h hs hsome => ?_⟩
  · rw [hrun, CM.bind_error h]
  · obtain ⟨d₃, d', u1, u2, u3, u4, -⟩ := put_over (b := b) (p := b.path src) (t₁ := []) (t₂ := longVersionPy b.toHost cfg)
      (sound_unlink hs (b.path src)) (by rw [read_unlink, if_pos rfl]) hr.2.2
    refine ⟨d', ?_, u3, fun q hq => ?_⟩
    · rw [hrun, CM.bind_ok h, CM.bind_ok (unlink_run hsome hr.2.1), CM.bind_ok u1, if_neg (not_not.2 hp.vcs), u2]
    · rw [u4 q hq, read_unlink, if_neg hq]

/-- If the extended command fails, the version file of the project keeps the version: from then on this is the version of the
project, whatever git says. -/
theorem C112_exe_failed (hp : Project b d root src pre cfg versions) (hr : Replaceable b d (b.path src))
    (hroot : pathJoin root src = b.path src) :
    ∃ d', b.exe (CM.raise .base) d = (d', .error .base) ∧ ∀ (sys : Sys) (cfg' : Config),
      ∃ versions', setupVersions sys cfg' root (d'.read (pathJoin root src)) = .ok versions' ∧ versions'.Perm versions := by
  obtain ⟨d₁, e2, -, -, hf, -⟩ := C112_exe hp hr (CM.raise .base)
  refine ⟨d₁, hf d₁ .base rfl, fun sys cfg' => ?_⟩
  rw [hroot, e2]
  exact C96_sdist sys cfg' root _ _ (project_nodup hp)

/-- They work with paths relative to the current directory: elsewhere they fail. -/
theorem C112_exe_elsewhere (hp : Project b d root src pre cfg versions) (h : d.read (b.path src) = none) (base : CM Unit) :
    b.exe base d = (d, .error .osError) := by
  have hi : d.inode (b.path src) = none := by simpa [Disk.read] using h
  unfold Builder.exe
  rw [CM.bind_ok hp.root_run, CM.bind_ok hp.config_run, CM.bind_ok hp.versions_run, hp.source]
  change (b.writeTo src versions >>= _) d = _
  refine CM.bind_error ?_
  unfold Builder.writeTo
  refine CM.bind_error ?_
  simp [Builder.unlink, hi]

/-! ## `version` -/

/-- `setup.py version` prints what `get_versions` found. -/
theorem C112_version (hp : Project b d root src pre cfg (infoDict v)) :
    b.version d = (d, .ok (["Version: ".toList ++ v.version, " full-revisionid: ".toList ++ showOpt v.fullRevisionid,
      " dirty: ".toList ++ (match v.dirty with | none => "None".toList | some true => "True".toList | some false => "False".toList),
      " date: ".toList ++ showOpt v.date] ++
      (match v.error with | none | some [] => [] | some e => [" error: ".toList ++ e]))) := by
  unfold Builder.version
  rw [CM.bind_ok hp.versions_run]
  obtain ⟨ver, rev, dirty, err, date⟩ := v
  rcases rev with _ | rev <;> rcases dirty with _ | _ | _ <;> rcases err with _ | _ | ⟨c, e⟩ <;> rcases date with _ | date <;> rfl

/-! ## The hypotheses can be met -/

/-- A machine without `git`. -/
private def demoBuilder : Builder where
  cwd := "/r".toList
  argvDir := "/s".toList
  writable := fun _ => true
  versioneerFile := "versioneer.py".toList
  sys := ⟨false, [], fun _ _ _ _ _ => .osError true, fun b => some (b.map fun x => Char.ofNat x.toNat), fun _ => none, none⟩
  interp := fun _ _ => none
  longHead := "def get_config():\n".toList
  longTail := "    return cfg\n".toList
  removable := fun _ => true

/-- The version file has two other names: in the build and in the tree of a source distribution. -/
private def demoDisk : Disk where
  inode := fun p => [("/r/setup.py".toList, 0), ("/r/setup.cfg".toList, 1), ("/r/snompy/_version.py".toList, 2),
    ("/r/build/lib/snompy/_version.py".toList, 2), ("/r/snompy-0+unknown/snompy/_version.py".toList, 2)].lookup p
  data := fun i => if i = 1 then repoSetupCfg else []
  next := 3

private theorem demo_project : Project demoBuilder demoDisk "/r".toList repoSource [] repoConfig
    (infoDict ⟨"0+unknown".toList, none, none, some "unable to compute version".toList, none⟩) := by
  refine ⟨fun p i h => ?_, by decide +kernel, ?_, rfl, rfl, rfl, by decide +kernel, by decide +kernel⟩
  · obtain ⟨l₁, l₂, e, -⟩ := List.lookup_eq_some_iff.1 h
    have : (p, i) ∈ [("/r/setup.py".toList, 0), ("/r/setup.cfg".toList, 1), ("/r/snompy/_version.py".toList, 2),
        ("/r/build/lib/snompy/_version.py".toList, 2), ("/r/snompy-0+unknown/snompy/_version.py".toList, 2)] := by
      rw [e]
      simp
    simp only [List.mem_cons, Prod.mk.injEq, List.not_mem_nil, or_false] at this
    change i < 3
    omega
  · have e : demoDisk.read (pathJoin "/r".toList "setup.cfg".toList) = some repoSetupCfg := by decide +kernel
    rw [e]
    exact (C103_repo_config _).1

example := C112_build_py demo_project "build/lib".toList repoSource rfl (by decide) (pure ()) demoDisk rfl demo_project.sound
  ⟨by decide +kernel, rfl, rfl⟩
example := C112_build_ext demo_project "build/lib".toList repoSource rfl (pure ()) demoDisk rfl demo_project.sound
  ⟨by decide +kernel, rfl, rfl⟩
example := C112_sdist demo_project ⟨pure (), fun v => "snompy-".toList ++ showVal v, fun _ => pure (), fun _ => pure ()⟩
  (.str "0+unknown".toList) (by decide +kernel) demoDisk demoDisk rfl demo_project.root_eq demo_project.cfg_eq rfl
  demo_project.sound ⟨by decide +kernel, rfl, rfl⟩
example := C112_unpacked demo_project
example := C112_exe demo_project ⟨by decide +kernel, rfl, rfl⟩
example := C112_exe_failed demo_project ⟨by decide +kernel, rfl, rfl⟩ (by decide)
example := C112_version demo_project
example := C112_extends (K := Unit) (fun _ => false) none (fun _ => .distutils) (by simp) (by simp)
example := C112_keeps (fun _ => true) [("bdist_wheel".toList, ())] "bdist_wheel".toList () (by decide) (by decide)
example := C112_snompy (K := Unit) (fun m => m = "setuptools".toList) (by decide) (by decide) (by decide)

/-- Without any file there is no version. -/
example := C112_no_version demoBuilder ⟨fun _ => none, fun _ => [], 0⟩ .badRoot (CM.bind_error rfl)

/-- A project without `versionfile_build` in the directory of `versioneer.py`; the current directory is empty. -/
private def demoOther : Disk where
  inode := fun p => [("/s/setup.py".toList, 0), ("/s/setup.cfg".toList, 1)].lookup p
  data := fun i => if i = 1 then "[versioneer]\nVCS = git\nversionfile_source = v.py\ntag_prefix =\n".toList else []
  next := 2

private theorem demo_other : Project demoBuilder demoOther "/s".toList "v.py".toList []
    ⟨"git".toList, [], some "v.py".toList, none, some [], none, none⟩
    (infoDict ⟨"0+unknown".toList, none, none, some "unable to compute version".toList, none⟩) := by
  refine ⟨fun p i h => ?_, by decide +kernel, by decide +kernel, rfl, rfl, rfl, by decide +kernel, by decide +kernel⟩
  obtain ⟨l₁, l₂, e, -⟩ := List.lookup_eq_some_iff.1 h
  have : (p, i) ∈ [("/s/setup.py".toList, 0), ("/s/setup.cfg".toList, 1)] := by
    rw [e]
    simp
  simp only [List.mem_cons, Prod.mk.injEq, List.not_mem_nil, or_false] at this
  change i < 2
  omega

example := C112_no_build demo_other "build/lib".toList rfl (pure ()) demoOther rfl
example := C112_exe_elsewhere demo_other (by decide +kernel)

end Snompy.Props
