import Verif.Lemmas.InstallIni

/-!
# C103: the installer of `versioneer.py`

The docstring of `versioneer.py` says that `python versioneer.py setup` is run after `[versioneer]` in `setup.cfg` has been
edited, and again after every change of it.
-/

namespace Snompy.Props

open Snompy.Version

/-- The installer is run in the directory of the project, `setup.cfg` is complete, and it can write its files. -/
structure Ready (h : Host) (fs : FS) (cfg : SetupCfg) (src : Str) : Prop where
  root : (fs (h.path "setup.py".toList)).isSome = true
  config : getConfigFromRoot h (fs (h.path "setup.cfg".toList)) = .ok cfg
  source : cfg.source = some src
  vcs : cfg.vcs = "git".toList
  writable : ∀ p, h.writable p = true
  decodes : Decodes h.sys
  plain : PlainName src
  setupPy : h.path src ≠ h.path "setup.py".toList
  setupCfg : h.path src ≠ h.path "setup.cfg".toList
  init : h.path src ≠ h.path (initPath src)
  manifest : h.path src ≠ h.path "MANIFEST.in".toList
  attributes : h.path src ≠ h.path ".gitattributes".toList

/-! ## What the run does -/

private theorem init_ne (src : Str) : initPath src ≠ [] := fun e => by
  have := getLast_pathJoin (dirname src) "__init__.py".toList (by decide)
  rw [← initPath, e] at this
  exact absurd this (by decide)

private theorem init_last (src : Str) : (initPath src).getLast? = some 'y' :=
  (getLast_pathJoin (dirname src) "__init__.py".toList (by decide)).trans (by decide)

private theorem suffix_pathJoin (d f : Str) : f <:+ pathJoin d f := by
  unfold pathJoin
  split
  · exact List.suffix_refl _
  · split
    · exact List.suffix_append _ _
    · exact (List.suffix_cons _ _).trans (List.suffix_append _ _)

private theorem init_setup (h : Host) (src : Str) : h.path (initPath src) ≠ h.path "setup.py".toList := fun e => by
  have h1 : "__init__.py".toList <:+ h.path (initPath src) := (suffix_pathJoin _ _).trans (suffix_pathJoin _ _)
  have h2 : "setup.py".toList <:+ h.path (initPath src) := e ▸ suffix_pathJoin _ _
  exact absurd (List.suffix_of_suffix_length_le h2 h1 (by decide)) (by decide)

private theorem init_manifest (h : Host) (src : Str) : h.path (initPath src) ≠ h.path "MANIFEST.in".toList :=
  pathJoin_ne (init_ne src) (by decide) (by rw [init_last]; decide)

private theorem init_attributes (h : Host) (src : Str) : h.path (initPath src) ≠ h.path ".gitattributes".toList :=
  pathJoin_ne (init_ne src) (by decide) (by rw [init_last]; decide)

private theorem init_cfg (h : Host) (src : Str) : h.path (initPath src) ≠ h.path "setup.cfg".toList :=
  pathJoin_ne (init_ne src) (by decide) (by rw [init_last]; decide)

private theorem other {h : Host} {f g : Str} (hf : f ≠ []) (hg : g ≠ []) (e : f.getLast? ≠ g.getLast?) : h.path f ≠ h.path g :=
  pathJoin_ne hf hg e

/-- The files afterwards. -/
private def after (h : Host) (cfg : SetupCfg) (src : Str) (fs : FS) : FS :=
  Function.update (Function.update (Function.update (Function.update fs (h.path src) (some (longVersionPy h cfg)))
    (h.path (initPath src)) ((fs (h.path (initPath src))).map (initText src)))
    (h.path "MANIFEST.in".toList) (manifestText src (fs (h.path "MANIFEST.in".toList))))
    (h.path ".gitattributes".toList) (attrText src (fs (h.path ".gitattributes".toList)))

private theorem root_eq {h : Host} {fs : FS} (hs : (fs (h.path "setup.py".toList)).isSome = true) : getRoot h fs = some h.cwd := by
  unfold getRoot
  have : (fs (pathJoin h.cwd "setup.py".toList)).isSome = true := hs
  simp only [this, Bool.true_or, if_true]

private theorem setup_eq {h : Host} {fs : FS} {cfg : SetupCfg} {src : Str} (hr : Ready h fs cfg src) :
    doSetup h fs = (after h cfg src fs, .ok 0) := by
  have h1 : getConfigFromRoot h (fs (pathJoin h.cwd "setup.cfg".toList)) = .ok cfg := hr.config
  unfold doSetup
  simp only [root_eq hr.root, h1, hr.source, Host.write, hr.writable, if_true, hr.vcs, ne_eq, not_true_eq_false, if_false,
    Function.update_idem]
  unfold setupRest
  have e1 := hr.init.symm
  have e2 : pathJoin h.cwd "MANIFEST.in".toList = h.path "MANIFEST.in".toList := rfl
  simp only [installInit_eq h src _ hr.writable, installManifest_eq h _ src _ hr.writable, e2,
    doVcsInstall_eq h _ src _ _ hr.writable hr.decodes]
  unfold after
  have m1 := (init_manifest h src).symm
  have m2 := hr.manifest.symm
  have g1 := (init_attributes h src).symm
  have g2 := hr.attributes.symm
  have g3 : h.path ".gitattributes".toList ≠ h.path "MANIFEST.in".toList := other (by decide) (by decide) (by decide)
  simp only [Function.update_of_ne e1, Function.update_of_ne m1, Function.update_of_ne m2, Function.update_of_ne g1,
    Function.update_of_ne g2, Function.update_of_ne g3]

/-- The run succeeds, the version file is the template with the configuration, and no file changes other than the version
file, `__init__.py`, `MANIFEST.in` and `.gitattributes`. -/
theorem C103_installed {h : Host} {fs : FS} {cfg : SetupCfg} {src : Str} (hr : Ready h fs cfg src) :
    (doSetup h fs).2 = .ok 0 ∧ (doSetup h fs).1 (h.path src) = some (longVersionPy h cfg) ∧
      ∀ p, p ≠ h.path src → p ≠ h.path (initPath src) → p ≠ h.path "MANIFEST.in".toList → p ≠ h.path ".gitattributes".toList →
        (doSetup h fs).1 p = fs p := by
  rw [setup_eq hr]
  refine ⟨rfl, ?_, fun p h1 h2 h3 h4 => ?_⟩
  · simp only [after, Function.update_of_ne hr.attributes, Function.update_of_ne hr.manifest, Function.update_of_ne hr.init,
      Function.update_self]
  · simp only [after, Function.update_of_ne h4, Function.update_of_ne h3, Function.update_of_ne h2, Function.update_of_ne h1]

/-- The values of the configuration are in the version file: each on the right-hand side of the assignment to its attribute. -/
theorem C103_values {h : Host} {fs : FS} {cfg : SetupCfg} {src : Str} (hr : Ready h fs cfg src) (tag parent : Str)
    (ht : cfg.tagPrefix = some tag) (hp : cfg.parentdirPrefix = some parent) :
    ∃ new, (doSetup h fs).1 (h.path src) = some new ∧
      new = h.longHead ++ ("    cfg.VCS = \"git\"\n".toList ++ ("    cfg.style = \"".toList ++ (cfg.style ++ ("\"\n".toList ++
        ("    cfg.tag_prefix = \"".toList ++ (tag ++ ("\"\n".toList ++ ("    cfg.parentdir_prefix = \"".toList ++ (parent ++
        ("\"\n".toList ++ ("    cfg.versionfile_source = \"".toList ++ (src ++ ("\"\n".toList ++
        ("    cfg.verbose = False\n".toList ++ h.longTail)))))))))))))) := by
  refine ⟨_, (C103_installed hr).2.1, ?_⟩
  unfold longVersionPy configText
  rw [ht, hp, hr.source]
  simp only [showOpt, List.append_assoc]
  rfl

private theorem after_init {h : Host} {fs : FS} {cfg : SetupCfg} {src : Str} :
    after h cfg src fs (h.path (initPath src)) = (fs (h.path (initPath src))).map (initText src) := by
  simp only [after, Function.update_of_ne (init_attributes h src), Function.update_of_ne (init_manifest h src), Function.update_self]

private theorem after_manifest {h : Host} {fs : FS} {cfg : SetupCfg} {src : Str} :
    after h cfg src fs (h.path "MANIFEST.in".toList) = manifestText src (fs (h.path "MANIFEST.in".toList)) := by
  have g3 : h.path "MANIFEST.in".toList ≠ h.path ".gitattributes".toList := other (by decide) (by decide) (by decide)
  simp only [after, Function.update_of_ne g3, Function.update_self]

private theorem after_attributes {h : Host} {fs : FS} {cfg : SetupCfg} {src : Str} :
    after h cfg src fs (h.path ".gitattributes".toList) = attrText src (fs (h.path ".gitattributes".toList)) := by
  simp only [after, Function.update_self]

private theorem basename_cut (a b : Str) (h : '/' ∉ b) : basename (a ++ '/' :: b) = b := by
  have hp : ∀ x ∈ b.reverse, decide (x ≠ '/') = true := fun x hx => by
    simpa using fun e : x = '/' => h (e ▸ List.mem_reverse.1 hx)
  have e : (a ++ '/' :: b).reverse = b.reverse ++ '/' :: a.reverse := by simp
  rw [basename, e, List.takeWhile_append_of_pos hp, List.takeWhile_cons_of_neg (by simp)]
  simp

private theorem dirname_cut (a b : Str) (h : '/' ∉ b) (ha : a ≠ [] ∧ a.getLast? ≠ some '/') : dirname (a ++ '/' :: b) = a := by
  have hp : ∀ x ∈ b.reverse, decide (x ≠ '/') = true := fun x hx => by
    simpa using fun e : x = '/' => h (e ▸ List.mem_reverse.1 hx)
  have e : (a ++ '/' :: b).reverse = b.reverse ++ '/' :: a.reverse := by simp
  obtain ⟨as, x, rfl⟩ : ∃ as x, a = as ++ [x] := ⟨a.dropLast, a.getLast ha.1, (List.dropLast_append_getLast ha.1).symm⟩
  have hx : x ≠ '/' := by simpa using ha.2
  rw [dirname, e, List.dropWhile_append_of_pos hp, List.dropWhile_cons_of_neg (by simp)]
  simp [hx]

private theorem file_name {m : Str} (hm : '/' ∉ m) : '/' ∉ m ++ ".py".toList := by
  rw [List.mem_append, not_or]; exact ⟨hm, by decide⟩

private theorem module_name (d m : Str) (hm : '/' ∉ m) (hm' : ∃ c ∈ m, c ≠ '.') :
    splitextRoot (basename (d ++ '/' :: m ++ ".py".toList)) = m := by
  rw [List.append_assoc, List.cons_append, basename_cut _ _ (file_name hm)]
  have : rsplit '.' (m ++ ".py".toList) = some (m, "py".toList) := (rsplit_iff _ _ _ _).2 ⟨rfl, by decide⟩
  unfold splitextRoot
  rw [this]
  simp only
  rw [if_neg]
  intro e
  obtain ⟨c, hc, hne⟩ := hm'
  exact hne (by simpa using List.all_eq_true.1 e c hc)

private theorem init_path (d m : Str) (hd : d ≠ [] ∧ d.getLast? ≠ some '/') (hm : '/' ∉ m) :
    initPath (d ++ '/' :: m ++ ".py".toList) = d ++ "/__init__.py".toList := by
  rw [initPath, List.append_assoc, List.cons_append, dirname_cut _ _ (file_name hm) hd]
  unfold pathJoin
  rw [if_neg (by decide), if_neg]
  · rfl
  · rw [not_or]
    refine ⟨hd.1, fun e => hd.2 ?_⟩
    obtain ⟨t, ht⟩ := List.isSuffixOf_iff_suffix.1 (show ['/'].isSuffixOf d = true from e)
    rw [← ht]; simp

/-- The package imports its version afterwards: for a version file `d/m.py`, the two lines are in `d/__init__.py` if there is
such a file, and there is none afterwards if there was none before.  If the code of old versions of the installer is not
there, only these lines are added, and nothing if they are there. -/
theorem C103_init {h : Host} {fs : FS} {cfg : SetupCfg} {d m : Str} (hr : Ready h fs cfg (d ++ '/' :: m ++ ".py".toList))
    (hd : d ≠ [] ∧ d.getLast? ≠ some '/') (hm : '/' ∉ m) (hm' : ∃ c ∈ m, c ≠ '.') :
    (fs (h.path (d ++ "/__init__.py".toList)) = none → (doSetup h fs).1 (h.path (d ++ "/__init__.py".toList)) = none) ∧
    ∀ old, fs (h.path (d ++ "/__init__.py".toList)) = some old →
      ∃ new, (doSetup h fs).1 (h.path (d ++ "/__init__.py".toList)) = some new ∧
        "\nfrom . import ".toList ++ m ++ "\n__version__ = ".toList ++ m ++ ".get_versions()['version']\n".toList <:+: readText new ∧
        (¬ "\nfrom ._version import get_versions\n__version__ = get_versions()['version']\ndel get_versions\n".toList <:+:
            readText old →
          new = if "\nfrom . import ".toList ++ m ++ "\n__version__ = ".toList ++ m ++
            ".get_versions()['version']\n".toList <:+: readText old then old
          else old ++ ("\nfrom . import ".toList ++ m ++ "\n__version__ = ".toList ++ m ++
            ".get_versions()['version']\n".toList)) := by
  rw [setup_eq hr, ← init_path d m hd hm]
  simp only [after_init]
  refine ⟨fun e => by rw [e]; rfl, fun old e => ⟨_, by rw [e]; rfl, ?_, fun hn => ?_⟩⟩
  · have := snippet_mem _ old hr.plain
    rw [module_name d m hm hm'] at this
    exact this
  · unfold initText newInit
    rw [module_name d m hm hm']
    have hn' : ¬ oldSnippet <:+: readText old := hn
    simp only [hn', if_false]
    change _ = if initSnippet m <:+: readText old then old else old ++ initSnippet m
    split_ifs <;> rfl

/-- `MANIFEST.in` includes `versioneer.py` and the version file afterwards, and every line that was there before, provided
that its last line ends with a newline. -/
theorem C103_manifest {h : Host} {fs : FS} {cfg : SetupCfg} {src : Str} (hr : Ready h fs cfg src)
    (hc : Complete ((fs (h.path "MANIFEST.in".toList)).getD [])) :
    ∃ new, (doSetup h fs).1 (h.path "MANIFEST.in".toList) = some new ∧ Includes new "versioneer.py".toList ∧ Includes new src ∧
      (fs (h.path "MANIFEST.in".toList)).getD [] <+: new ∧
      ∀ l, l ≠ [] → IsLine ((fs (h.path "MANIFEST.in".toList)).getD []) l → IsLine new l := by
  rw [setup_eq hr]
  simp only [after_manifest]
  generalize fs (h.path "MANIFEST.in".toList) = o at hc ⊢
  have hm := manifest_mem src o hr.plain hc
  have hp : ∃ new u, manifestText src o = some new ∧ new = o.getD [] ++ u := by
    unfold manifestText
    split_ifs with h1
    · rcases o with _ | t
      · exact absurd h1.1 (by simp [simpleIncludes, readText, linesOf])
      · exact ⟨t, [], rfl, by simp⟩
    all_goals exact ⟨_, _, rfl, List.append_assoc _ _ _⟩
  obtain ⟨new, u, e, hu⟩ := hp
  rw [e] at hm
  refine ⟨new, e, includes_of_mem hm.1, includes_of_mem hm.2, ⟨u, hu.symm⟩, ?_⟩
  rw [hu]
  exact fun l hl h => isLine_append hc hl h u

/-- `.gitattributes` gives the version file the attribute `export-subst` afterwards, provided that its last line ends with a
newline and the file has no field that begins with the name of the version file and goes on. -/
theorem C103_attributes {h : Host} {fs : FS} {cfg : SetupCfg} {src : Str} (hr : Ready h fs cfg src)
    (hc : Complete ((fs (h.path ".gitattributes".toList)).getD []))
    (hl : ∀ l w, IsLine ((fs (h.path ".gitattributes".toList)).getD []) l → IsField l w → src <+: w → w = src) :
    ∃ new, (doSetup h fs).1 (h.path ".gitattributes".toList) = some new ∧ Marks new src ∧
      (fs (h.path ".gitattributes".toList)).getD [] <+: new ∧
      ∀ l, l ≠ [] → IsLine ((fs (h.path ".gitattributes".toList)).getD []) l → IsLine new l := by
  rw [setup_eq hr]
  simp only [after_attributes]
  generalize fs (h.path ".gitattributes".toList) = o at hc hl ⊢
  unfold attrText
  split_ifs with h1
  · rcases o with _ | t
    · exact absurd h1 (by simp [attrPresent, readText, linesOf])
    · exact ⟨t, rfl, marks_of_present hr.plain h1 hl, List.prefix_refl _, fun l _ h => h⟩
  · exact ⟨_, rfl, marks_append hc hr.plain, List.prefix_append _ _, fun l h0 h => isLine_append hc h0 h _⟩

private theorem update_self' {F : FS} {p : Str} {v : Option Str} (e : F p = v) : Function.update F p v = F := by
  rw [← e, Function.update_eq_self]

private theorem after_fixed {h : Host} {F : FS} {cfg : SetupCfg} {src : Str} (h1 : F (h.path src) = some (longVersionPy h cfg))
    (h2 : F (h.path (initPath src)) = (F (h.path (initPath src))).map (initText src))
    (h3 : F (h.path "MANIFEST.in".toList) = manifestText src (F (h.path "MANIFEST.in".toList)))
    (h4 : F (h.path ".gitattributes".toList) = attrText src (F (h.path ".gitattributes".toList))) : after h cfg src F = F := by
  unfold after
  rw [update_self' h1, update_self' h2, update_self' h3, update_self' h4]

/-- The configuration has not changed, so the installer can be run again. -/
private theorem ready_again {h : Host} {fs : FS} {cfg : SetupCfg} {src : Str} (hr : Ready h fs cfg src) :
    Ready h (after h cfg src fs) cfg src := by
  have hf := (C103_installed hr).2.2
  rw [setup_eq hr] at hf
  simp only at hf
  refine ⟨?_, ?_, hr.source, hr.vcs, hr.writable, hr.decodes, hr.plain, hr.setupPy, hr.setupCfg, hr.init, hr.manifest, hr.attributes⟩
  · rw [hf _ hr.setupPy.symm (init_setup h src).symm (other (by decide) (by decide) (by decide)) (other (by decide) (by decide) (by decide))]
    exact hr.root
  · rw [hf _ hr.setupCfg.symm (init_cfg h src).symm (other (by decide) (by decide) (by decide)) (other (by decide) (by decide) (by decide))]
    exact hr.config

/-- Running the installer again changes no file, provided that the last lines of `MANIFEST.in` and `.gitattributes` end with
newlines and `__init__.py` does not have the code of old versions of the installer. -/
theorem C103_again {h : Host} {fs : FS} {cfg : SetupCfg} {src : Str} (hr : Ready h fs cfg src)
    (hm : Complete ((fs (h.path "MANIFEST.in".toList)).getD [])) (hg : Complete ((fs (h.path ".gitattributes".toList)).getD []))
    (hi : ∀ old, fs (h.path (initPath src)) = some old →
      ¬ "\nfrom ._version import get_versions\n__version__ = get_versions()['version']\ndel get_versions\n".toList <:+:
        readText old ++ ['\n']) :
    doSetup h (doSetup h fs).1 = ((doSetup h fs).1, .ok 0) := by
  have hv := (C103_installed hr).2.1
  rw [setup_eq hr] at hv ⊢
  simp only at hv ⊢
  rw [setup_eq (ready_again hr)]
  refine Prod.ext ?_ rfl
  simp only
  refine after_fixed hv ?_ ?_ ?_
  rotate_left
  · rw [after_manifest, manifest_again _ _ hr.plain hm]
  · rw [after_attributes, attr_again _ _ hr.plain hg]
  · rw [after_init]
    rcases ho : fs (h.path (initPath src)) with _ | old
    · rfl
    · simp only [Option.map_some]
      rw [initText_again src old hr.plain (hi old ho)]

/-! ## Without a configuration -/

/-- Without `setup.cfg`, or without its section `[versioneer]`, the installer appends the sample configuration to
`setup.cfg`, does nothing else and reports an error; running it again changes nothing and reports an error. -/
theorem C103_no_config {h : Host} {fs : FS} (hroot : (fs (h.path "setup.py".toList)).isSome = true)
    (hw : ∀ p, h.writable p = true)
    (hcfg : ∀ t, fs (h.path "setup.cfg".toList) = some t →
      (readIni t).isSome = true ∧ ¬ "[versioneer]".toList <:+: t ∧ ¬ "[DEFAULT]".toList <:+: t) :
    let fs' := Function.update fs (h.path "setup.cfg".toList)
      (some ((fs (h.path "setup.cfg".toList)).getD [] ++ sampleConfig))
    doSetup h fs = (fs', .ok 1) ∧ doSetup h fs' = (fs', .ok 1) := by
  intro fs'
  have h0 : h.path "setup.py".toList ≠ h.path "setup.cfg".toList := other (by decide) (by decide) (by decide)
  have hroot' : (fs' (h.path "setup.py".toList)).isSome = true := by
    rw [show fs' _ = _ from Function.update_of_ne h0 _ _]; exact hroot
  have hp : pathJoin h.cwd "setup.cfg".toList = h.path "setup.cfg".toList := rfl
  have hfs' : fs' (h.path "setup.cfg".toList) = some ((fs (h.path "setup.cfg".toList)).getD [] ++ sampleConfig) :=
    Function.update_self ..
  have key : (getConfigFromRoot h (fs (h.path "setup.cfg".toList)) = .error .osError ∨
      getConfigFromRoot h (fs (h.path "setup.cfg".toList)) = .error .noSection) ∧
      getConfigFromRoot h (some ((fs (h.path "setup.cfg".toList)).getD [] ++ sampleConfig)) = .error .noOption := by
    rcases ho : fs (h.path "setup.cfg".toList) with _ | t
    · exact ⟨.inl rfl, sample_again h [] {} rfl rfl rfl⟩
    · obtain ⟨h1, h2, h3⟩ := hcfg t ho
      obtain ⟨st, hst⟩ := Option.isSome_iff_exists.1 h1
      have hb := bare_readIni h2 h3 hst
      refine ⟨.inr ?_, sample_again h t st hst hb.sections (by rw [hb.defaults]; rfl)⟩
      have : iniGet h st versioneerSection "VCS".toList = .error .noSection := by
        unfold iniGet optsOf
        rw [if_neg (by decide), hb.sections]
      rw [getConfigFromRoot, hst]
      simp only [this]
      rfl
  refine ⟨?_, ?_⟩
  · unfold doSetup
    simp only [root_eq hroot, hp]
    rcases key.1 with e | e <;> rw [e] <;> simp only [Host.append, Host.write, hw, if_true] <;> rfl
  · unfold doSetup
    simp only [root_eq hroot', hp, hfs', key.2]

/-! ## The exit code -/

private theorem linesOf_acc (acc B : Str) (h : acc ≠ []) : ∃ l ∈ linesOf acc B, acc.reverse <+: l := by
  induction B generalizing acc with
  | nil => exact ⟨acc.reverse, by rw [linesOf, if_neg (by simpa using h)]; simp, List.prefix_refl _⟩
  | cons c B ih =>
    rw [linesOf]
    split
    · exact ⟨(c :: acc).reverse, List.mem_cons_self .., by rw [List.reverse_cons]; exact List.prefix_append _ _⟩
    · obtain ⟨l, hl, hp⟩ := ih (c :: acc) (by simp)
      exact ⟨l, hl, (by rw [List.reverse_cons]; exact List.prefix_append _ _ : acc.reverse <+: (c :: acc).reverse).trans hp⟩

private theorem linesOf_go (acc s B : Str) (h : ∀ c ∈ s, c ≠ '\n') : linesOf acc (s ++ B) = linesOf (s.reverse ++ acc) B := by
  induction s generalizing acc with
  | nil => rfl
  | cons c s ih =>
    rw [List.cons_append, linesOf, if_neg (h c (by simp)), ih _ fun d hd => h d (by simp [hd])]
    simp

private theorem line_of_infix (acc A s B : Str) (hs : s ≠ []) (h : ∀ c ∈ s, c ≠ '\n') : ∃ l ∈ linesOf acc (A ++ s ++ B), s <:+: l := by
  induction A generalizing acc with
  | nil =>
    rw [List.nil_append, linesOf_go _ _ _ h]
    obtain ⟨l, hl, ⟨u, hp⟩⟩ := linesOf_acc (s.reverse ++ acc) B (by simp [hs])
    exact ⟨l, hl, acc.reverse, u, by rw [← hp]; simp⟩
  | cons c A ih =>
    rw [List.cons_append, List.cons_append, linesOf]
    split
    · obtain ⟨l, hl, hp⟩ := ih []
      exact ⟨l, List.mem_cons_of_mem _ hl, hp⟩
    · exact ih _

/-- Some line of a file has a text without newlines in it if and only if the file has. -/
private theorem any_line (text s : Str) (hs : s ≠ []) (h : ∀ c ∈ s, ¬ IsEol c) 
    (D : ∀ l : Str, Decidable (s <:+: l)) : ((linesOf [] (readText text)).any fun l => @decide (s <:+: l) (D l)) = true ↔ s <:+: text := by
  rw [List.any_eq_true]
  constructor
  · rintro ⟨l, hl, hp⟩
    refine infix_of_line hl hs (fun e => ?_) (by simpa using hp)
    obtain ⟨u, rfl⟩ := List.getLast?_eq_some_iff.1 e
    exact h '\n' (by simp) (.inl rfl)
  · rintro ⟨A, B, rfl⟩
    have e1 : readText (A ++ s ++ B) = readText (A ++ s) ++ readText B := readText_append _ _ fun e => by
      obtain ⟨k, c, rfl⟩ : ∃ k c, s = k ++ [c] := ⟨s.dropLast, s.getLast hs, (List.dropLast_append_getLast hs).symm⟩
      rw [← List.append_assoc, List.getLast?_concat] at e
      exact absurd (.inr (Option.some.inj e)) (h c (by simp))
    have e2 : readText (A ++ s) = readText A ++ s := by
      rw [readText_append A s, readText_id fun e => h _ e (.inr rfl)]
      intro _ e
      exact h '\n' (List.mem_of_mem_head? (by rw [e]; rfl)) (.inl rfl)
    rw [e1, e2]
    obtain ⟨l, hl, hp⟩ := line_of_infix [] (readText A) s (readText B) hs fun c hc e => h c hc (.inl e)
    exact ⟨l, hl, by simpa using hp⟩

/-- The number of errors in `setup.py`: one if it does not have all of `import versioneer`, `versioneer.get_cmdclass()` and
`versioneer.get_version()`, and one more if it has one of the assignments of old versions. -/
theorem C103_scan (text : Str) :
    scanSetupPy text =
      (if "import versioneer".toList <:+: text ∧ "versioneer.get_cmdclass()".toList <:+: text ∧
          "versioneer.get_version()".toList <:+: text then 0 else 1) +
      if "versioneer.VCS".toList <:+: text ∨ "versioneer.versionfile_source".toList <:+: text then 1 else 0 := by
  have eol : ∀ s : Str, s.all (fun c => c ≠ '\n' && c ≠ '\r') = true → ∀ c ∈ s, ¬ IsEol c := fun s hs c hc e => by
    have := List.all_eq_true.1 hs c hc
    rcases e with rfl | rfl <;> simp at this
  have e1 := any_line text "import versioneer".toList (by decide) (eol _ (by decide +kernel))
  have e2 := any_line text "versioneer.get_cmdclass()".toList (by decide) (eol _ (by decide +kernel))
  have e3 := any_line text "versioneer.get_version()".toList (by decide) (eol _ (by decide +kernel))
  have e4 := any_line text "versioneer.VCS".toList (by decide) (eol _ (by decide +kernel))
  have e5 := any_line text "versioneer.versionfile_source".toList (by decide) (eol _ (by decide +kernel))
  unfold scanSetupPy
  generalize "import versioneer" = s1 at e1 ⊢
  generalize "versioneer.get_cmdclass()" = s2 at e2 ⊢
  generalize "versioneer.get_version()" = s3 at e3 ⊢
  generalize "versioneer.VCS" = s4 at e4 ⊢
  generalize "versioneer.versionfile_source" = s5 at e5 ⊢
  simp only [Bool.and_eq_true, Bool.or_eq_true, and_assoc]
  exact congrArg₂ (· + ·) (if_congr (and_congr (e1 _) (and_congr (e2 _) (e3 _))) rfl rfl)
    (if_congr (or_congr (e4 _) (e5 _)) rfl rfl)

/-- The exit code is 0 if and only if `setup.cfg` is complete and `setup.py` has no errors. -/
theorem C103_exit {h : Host} {fs : FS} {cfg : SetupCfg} {src : Str} (hr : Ready h fs cfg src) (text : Str)
    (ht : fs (h.path "setup.py".toList) = some text) :
    versioneerSetup h fs = ((doSetup h fs).1, .ok (if scanSetupPy text = 0 then 0 else 1)) := by
  have hf := (C103_installed hr).2.2 _ hr.setupPy.symm (init_setup h src).symm (other (by decide) (by decide) (by decide))
    (other (by decide) (by decide) (by decide))
  rw [setup_eq hr] at hf ⊢
  unfold versioneerSetup
  simp only [setup_eq hr]
  simp only at hf
  simp only [hf, ht, Nat.zero_add]

/-- Without a configuration the exit code is 1, whatever `setup.py` is. -/
theorem C103_exit_no_config {h : Host} {fs : FS} (hroot : (fs (h.path "setup.py".toList)).isSome = true)
    (hw : ∀ p, h.writable p = true)
    (hcfg : ∀ t, fs (h.path "setup.cfg".toList) = some t →
      (readIni t).isSome = true ∧ ¬ "[versioneer]".toList <:+: t ∧ ¬ "[DEFAULT]".toList <:+: t) :
    (versioneerSetup h fs).2 = .ok 1 := by
  obtain ⟨h1, -⟩ := C103_no_config hroot hw hcfg
  have h0 : h.path "setup.py".toList ≠ h.path "setup.cfg".toList := other (by decide) (by decide) (by decide)
  unfold versioneerSetup
  rw [h1]
  simp only [Function.update_of_ne h0]
  obtain ⟨t, ht⟩ := Option.isSome_iff_exists.1 hroot
  rw [ht]
  simp only
  rw [if_neg (by omega)]

/-! ## Runs that fail -/

private theorem append_frame {h : Host} {fs fs' : FS} {q t p : Str} (e : h.append fs q t = some fs') (hp : p ≠ q) : fs' p = fs p := by
  unfold Host.append Host.write at e
  split at e
  · rw [← Option.some.inj e, Function.update_of_ne hp]
  · cases e

private theorem write_frame {h : Host} {fs fs' : FS} {q t p : Str} (e : h.write fs q t = some fs') (hp : p ≠ q) : fs' p = fs p := by
  unfold Host.write at e
  split at e
  · rw [← Option.some.inj e, Function.update_of_ne hp]
  · cases e

private theorem init_frame {h : Host} {src p : Str} {fs fs' : FS} (e : installInit h src fs = some fs') (hp : p ≠ h.path (initPath src)) :
    fs' p = fs p := by
  unfold installInit at e
  split at e
  · rw [← Option.some.inj e]
  · split at e
    · exact write_frame e hp
    · exact append_frame e hp
    · rw [← Option.some.inj e]

private theorem manifest_frame {h : Host} {root src p : Str} {fs fs' : FS} (e : installManifest h root src fs = some fs')
    (hp : p ≠ pathJoin root "MANIFEST.in".toList) : fs' p = fs p := by
  unfold installManifest at e
  have second : ∀ {fs1 : FS} {P : Prop} [Decidable P],
      (if P then some fs1 else h.append fs1 (pathJoin root "MANIFEST.in".toList) (includeLine src)) = some fs' → fs' p = fs1 p := by
    intro fs1 P _ e
    split at e
    · rw [← Option.some.inj e]
    · exact append_frame e hp
  simp only [Option.bind_eq_bind] at e
  split at e
  · exact second e
  · rcases h1 : h.append fs (pathJoin root "MANIFEST.in".toList) (includeLine versioneerPy) with _ | fs1
    · rw [h1] at e; cases e
    · rw [h1] at e
      exact (second e).trans (append_frame h1 hp)

private theorem vcs_frame {h : Host} {root src p : Str} {ipy : Option Str} {fs : FS} (hp : p ≠ h.path ".gitattributes".toList) :
    (doVcsInstall h root src ipy fs).1 p = fs p := by
  unfold doVcsInstall
  simp only
  split
  · rfl
  · rename_i fs1 e
    have h1 : fs1 p = fs p := by
      split at e
      · rw [← Option.some.inj e]
      · exact append_frame e hp
    split <;> exact h1

private theorem rest_frame {h : Host} {root src p : Str} {fs : FS} (h1 : p ≠ h.path (initPath src))
    (h2 : p ≠ pathJoin root "MANIFEST.in".toList) (h3 : p ≠ h.path ".gitattributes".toList) : (setupRest h root src fs).1 p = fs p := by
  unfold setupRest
  split
  · rfl
  · rename_i fs1 e1
    split
    · exact init_frame e1 h1
    · rename_i fs2 e2
      rw [← init_frame e1 h1, ← manifest_frame e2 h2]
      simp only
      generalize (if (fs (h.path (initPath src))).isSome then some (initPath src) else none) = ipy
      have := vcs_frame (h := h) (root := root) (src := src) (ipy := ipy) (fs := fs2) h3
      split
      · rename_i fs3 _ e3; rw [e3] at this; exact this
      · rename_i fs3 _ e3; rw [e3] at this; exact this

/-- Whatever happens, also if it raises, the installer changes no file other than `setup.cfg` and `MANIFEST.in` in the
directory of the project, the version file, `__init__.py` beside it, and `.gitattributes` in the current directory. -/
theorem C103_frame (h : Host) (fs : FS) (p : Str) (hg : p ≠ h.path ".gitattributes".toList)
    (hp : ∀ root, getRoot h fs = some root →
      p ≠ pathJoin root "setup.cfg".toList ∧ p ≠ pathJoin root "MANIFEST.in".toList ∧
      ∀ cfg src, getConfigFromRoot h (fs (pathJoin root "setup.cfg".toList)) = .ok cfg → cfg.source = some src →
        p ≠ h.path src ∧ p ≠ h.path (initPath src)) :
    (doSetup h fs).1 p = fs p ∧ (versioneerSetup h fs).1 p = fs p := by
  have key : (doSetup h fs).1 p = fs p := by
    unfold doSetup
    split
    · rfl
    · rename_i root hroot
      obtain ⟨h1, h2, h3⟩ := hp root hroot
      simp only
      split
      · split
        · rfl
        · rename_i e; exact append_frame e h1
      · split
        · rfl
        · rename_i e; exact append_frame e h1
      · rfl
      · rfl
      · rename_i cfg hcfg
        split
        · rfl
        · rename_i src hsrc
          obtain ⟨h4, h5⟩ := h3 cfg src hcfg hsrc
          split
          · rfl
          · rename_i fs1 e1
            have := write_frame e1 h4
            split
            · exact this
            · rw [rest_frame h5 h2 hg, Function.update_of_ne h4, this]
  refine ⟨key, ?_⟩
  unfold versioneerSetup
  split
  · rename_i e; rw [e] at key; exact key
  · rename_i e
    rw [e] at key
    split <;> exact key

/-- If `setup.cfg` cannot be parsed nothing changes, and neither if its section has no option `VCS`; in the second case the
run ends with an error. -/
theorem C103_bad_config (h : Host) (fs : FS) (root : Str) (hroot : getRoot h fs = some root) :
    (getConfigFromRoot h (fs (pathJoin root "setup.cfg".toList)) = .error .parsing → doSetup h fs = (fs, .error (.config .parsing))) ∧
    (getConfigFromRoot h (fs (pathJoin root "setup.cfg".toList)) = .error .noOption → doSetup h fs = (fs, .ok 1)) := by
  constructor <;> intro e <;> unfold doSetup <;> simp only [hroot, e]

/-- Without `versionfile_source` nothing changes and the installer raises. -/
theorem C103_no_source (h : Host) (fs : FS) (root : Str) (hroot : getRoot h fs = some root) (cfg : SetupCfg)
    (hcfg : getConfigFromRoot h (fs (pathJoin root "setup.cfg".toList)) = .ok cfg) (hs : cfg.source = none) :
    doSetup h fs = (fs, .error .typeError) := by
  unfold doSetup
  simp only [hroot, hcfg, hs]

/-- With a version control system other than `git` the installer empties the version file and then raises. -/
theorem C103_other_vcs (h : Host) (fs : FS) (root : Str) (hroot : getRoot h fs = some root) (cfg : SetupCfg) (src : Str)
    (hcfg : getConfigFromRoot h (fs (pathJoin root "setup.cfg".toList)) = .ok cfg) (hs : cfg.source = some src)
    (hw : h.writable (h.path src) = true) (hv : cfg.vcs ≠ "git".toList) :
    doSetup h fs = (Function.update fs (h.path src) (some []), .error .keyError) := by
  unfold doSetup
  simp only [hroot, hcfg, hs, Host.write, hw, if_true]
  rw [if_pos hv]

/-- In a directory without `setup.py` the installer always raises, also if it finds the project, and then after it may have
written its files. -/
theorem C103_elsewhere (h : Host) (fs : FS) (hp : fs (h.path "setup.py".toList) = none)
    (hs : ∀ root cfg src, getRoot h fs = some root → getConfigFromRoot h (fs (pathJoin root "setup.cfg".toList)) = .ok cfg →
      cfg.source = some src → h.path "setup.py".toList ≠ h.path src) :
    ∃ e, (versioneerSetup h fs).2 = .error e := by
  have key := (C103_frame h fs (h.path "setup.py".toList) (other (by decide) (by decide) (by decide)) fun root hroot =>
    ⟨pathJoin_ne (by decide) (by decide) (by decide), pathJoin_ne (by decide) (by decide) (by decide),
      fun cfg src h1 h2 => ⟨hs root cfg src hroot h1 h2, (init_setup h src).symm⟩⟩).1
  unfold versioneerSetup
  split
  · exact ⟨_, rfl⟩
  · rename_i fs1 n e
    rw [e] at key
    simp only at key
    rw [key, hp]
    exact ⟨_, rfl⟩

/-! ## This repository -/

/-- `setup.cfg` of this repository. -/
def repoSetupCfg : Str := List.flatten
  ["[flake8]\n".toList,
    "max-line-length = 88\n".toList,
    "select = C,E,F,W,B,B950\n".toList,
    "extend-ignore = E203, E501, W503\n".toList,
    "exclude = versioneer.py\n".toList,
    "\n".toList,
    "[versioneer]\n".toList,
    "VCS = git\n".toList,
    "style = pep440\n".toList,
    "versionfile_source = snompy/_version.py\n".toList,
    "versionfile_build = snompy/_version.py\n".toList,
    "tag_prefix =\n".toList,
    "parentdir_prefix =\n".toList,
    "\n".toList,
    "[isort]\n".toList,
    "profile = black\n".toList,
    "\n".toList,
    "[tool:pytest]\n".toList,
    "addopts = --doctest-modules --cov=./ --cov-report term-missing\n".toList,
    "testpaths = snompy\n".toList,
    "doctest_optionflags = NUMBER NORMALIZE_WHITESPACE".toList]

/-- `snompy/__init__.py` of this repository. -/
def repoInit : Str := List.flatten
  ["from . import _version, demodulate, fdm, pdm, sample\n".toList,
    "from ._defaults import defaults\n".toList,
    "from .sample import Sample, bulk_sample\n".toList,
    "\n".toList,
    "__all__ = [\"bulk_sample\", \"defaults\", \"demodulate\", \"fdm\", \"pdm\", \"sample\", \"Sample\"]\n".toList,
    "\n".toList,
    "__version__ = _version.get_versions()[\"version\"]\n".toList]

/-- `MANIFEST.in` of this repository. -/
def repoManifest : Str := List.flatten
  ["include README.md\n".toList,
    "include requirements.txt\n".toList,
    "graft snompy\n".toList,
    "recursive-exclude * *.py[co]\n".toList,
    "include versioneer.py\n".toList,
    "include snompy/_version.py\n".toList]

/-- `.gitattributes` of this repository. -/
def repoAttributes : Str := List.flatten
  ["snompy/_version.py export-subst\n".toList]

/-- `setup.py` of this repository. -/
def repoSetupPy : Str := List.flatten
  ["import setuptools\n".toList,
    "\n".toList,
    "import versioneer\n".toList,
    "\n".toList,
    "with open(\"README.rst\", \"r\") as fh:\n".toList,
    "    long_description = fh.read()\n".toList,
    "with open(\"requirements.txt\", \"r\") as fh:\n".toList,
    "    requirements = [line.strip() for line in fh]\n".toList,
    "\n".toList,
    "setuptools.setup(\n".toList,
    "    name=\"snompy\",\n".toList,
    "    version=versioneer.get_version(),\n".toList,
    "    cmdclass=versioneer.get_cmdclass(),\n".toList,
    "    author=\"Tom Vincent\",\n".toList,
    "    author_email=\"TomVincentCode@gmail.com\",\n".toList,
    "    description=(\n".toList,
    "        \"A Python package for modelling scanning near-field optical \"\n".toList,
    "        \"microscopy measurements.\"\n".toList,
    "    ),\n".toList,
    "    long_description=long_description,\n".toList,
    "    long_description_content_type=\"text/x-rst\",\n".toList,
    "    packages=setuptools.find_packages(),\n".toList,
    "    classifiers=[\n".toList,
    "        \"Programming Language :: Python :: 3\",\n".toList,
    "        \"Operating System :: OS Independent\",\n".toList,
    "        \"License :: OSI Approved :: MIT License\",\n".toList,
    "    ],\n".toList,
    "    python_requires=\">=3.10\",\n".toList,
    "    install_requires=requirements,\n".toList,
    ")\n".toList]

/-- The path of the version file in `setup.cfg`. -/
def repoSource : Str := "snompy/_version.py".toList

private theorem repo_ini : readIni repoSetupCfg = some
    { sections :=
        [("flake8".toList, [("max-line-length".toList, ["88".toList]), ("select".toList, ["C,E,F,W,B,B950".toList]),
          ("extend-ignore".toList, ["E203, E501, W503".toList]), ("exclude".toList, ["versioneer.py".toList, []])]),
        ("versioneer".toList, [("vcs".toList, ["git".toList]), ("style".toList, ["pep440".toList]),
          ("versionfile_source".toList, [repoSource]), ("versionfile_build".toList, [repoSource]),
          ("tag_prefix".toList, [[]]), ("parentdir_prefix".toList, [[], []])]),
        ("isort".toList, [("profile".toList, ["black".toList, []])]),
        ("tool:pytest".toList, [("addopts".toList, ["--doctest-modules --cov=./ --cov-report term-missing".toList]),
          ("testpaths".toList, ["snompy".toList]),
          ("doctest_optionflags".toList, ["NUMBER NORMALIZE_WHITESPACE".toList])])]
      defaults := []
      cur := some "tool:pytest".toList
      opt := some "doctest_optionflags".toList
      indent := 0 } := by
  decide +kernel

/-- The configuration of this repository. -/
def repoConfig : SetupCfg := ⟨"git".toList, "pep440".toList, some repoSource, some repoSource, some [], some [], none⟩

/-- What `setup.cfg` of this repository says, and that it is what `get_config` in `snompy/_version.py` (lines 41–46) has. -/
theorem C103_repo_config (h : Host) :
    getConfigFromRoot h (some repoSetupCfg) = .ok repoConfig ∧
    configText repoConfig = List.flatten
      ["    cfg.VCS = \"git\"\n".toList,
      "    cfg.style = \"pep440\"\n".toList,
      "    cfg.tag_prefix = \"\"\n".toList,
      "    cfg.parentdir_prefix = \"\"\n".toList,
      "    cfg.versionfile_source = \"snompy/_version.py\"\n".toList,
      "    cfg.verbose = False\n".toList] := by
  refine ⟨?_, by decide +kernel⟩
  rw [getConfigFromRoot, repo_ini]
  rfl

private theorem path_ne {h : Host} {f g : Str} (hl : f.length ≤ g.length) (hs : ¬ f <:+ g) : h.path f ≠ h.path g := fun e =>
  hs (List.suffix_of_suffix_length_le (suffix_pathJoin h.cwd f) (e ▸ suffix_pathJoin h.cwd g : g <:+ h.path f) hl)

private theorem repo_init : initPath repoSource = "snompy/__init__.py".toList := by decide

private theorem repo_ready {h : Host} {fs : FS} (hw : ∀ p, h.writable p = true) (hd : Decodes h.sys)
    (hp : (fs (h.path "setup.py".toList)).isSome = true) (hc : fs (h.path "setup.cfg".toList) = some repoSetupCfg) :
    Ready h fs repoConfig repoSource :=
  ⟨hp, by rw [hc]; exact (C103_repo_config h).1, rfl, rfl, hw, hd, ⟨by decide, by decide⟩,
    (path_ne (by decide) (by decide)).symm, (path_ne (by decide) (by decide)).symm,
    by rw [repo_init]; exact path_ne (by decide) (by decide), (path_ne (by decide) (by decide)).symm,
    (path_ne (by decide) (by decide)).symm⟩

private theorem repo_manifest : manifestText repoSource (some repoManifest) = some repoManifest := by decide +kernel

private theorem repo_attributes : attrText repoSource (some repoAttributes) = some repoAttributes := by decide +kernel

private theorem repo_module : splitextRoot (basename repoSource) = "_version".toList := by decide

private theorem repo_init_text : initText repoSource repoInit =
    repoInit ++ "\nfrom . import _version\n__version__ = _version.get_versions()['version']\n".toList := by
  have h1 : ¬ oldSnippet <:+: readText repoInit := by decide +kernel
  have h2 : ¬ initSnippet "_version".toList <:+: readText repoInit := by decide +kernel
  unfold initText newInit
  simp only [h1, if_false, repo_module, h2, not_false_eq_true, if_true]
  rfl

/-- Running the installer again in this repository succeeds.  Apart from the version file it changes `snompy/__init__.py`:
a second import and a second assignment of `__version__` are appended, because the ones there are not written as the
installer writes them. -/
theorem C103_repo {h : Host} {fs : FS} (hw : ∀ p, h.writable p = true) (hd : Decodes h.sys)
    (h1 : fs (h.path "setup.py".toList) = some repoSetupPy) (h2 : fs (h.path "setup.cfg".toList) = some repoSetupCfg)
    (h3 : fs (h.path "snompy/__init__.py".toList) = some repoInit) (h4 : fs (h.path "MANIFEST.in".toList) = some repoManifest)
    (h5 : fs (h.path ".gitattributes".toList) = some repoAttributes) :
    versioneerSetup h fs =
      (Function.update (Function.update fs (h.path "snompy/_version.py".toList) (some (longVersionPy h repoConfig)))
        (h.path "snompy/__init__.py".toList)
        (some (repoInit ++ "\nfrom . import _version\n__version__ = _version.get_versions()['version']\n".toList)), .ok 0) := by
  have hr := repo_ready hw hd (by rw [h1]; rfl) h2
  have hs : scanSetupPy repoSetupPy = 0 := by decide +kernel
  rw [C103_exit hr _ h1, setup_eq hr, if_pos hs]
  refine Prod.ext ?_ rfl
  simp only [after, repo_init, h3, h4, h5, repo_manifest, repo_attributes, Option.map_some, repo_init_text]
  have n1 : h.path "MANIFEST.in".toList ≠ h.path "snompy/__init__.py".toList := path_ne (by decide) (by decide)
  have n2 : h.path "MANIFEST.in".toList ≠ h.path repoSource := path_ne (by decide) (by decide)
  have n3 : h.path ".gitattributes".toList ≠ h.path "snompy/__init__.py".toList := path_ne (by decide) (by decide)
  have n4 : h.path ".gitattributes".toList ≠ h.path repoSource := path_ne (by decide) (by decide)
  rw [update_self' (p := h.path "MANIFEST.in".toList), update_self']
  · rfl
  · rw [Function.update_of_ne n3, Function.update_of_ne n4, h5]
  · rw [Function.update_of_ne n1, Function.update_of_ne n2, h4]

/-- If the last line of `MANIFEST.in` does not end with a newline, the installer appends to this line: here `snompy` is no
longer grafted and `versioneer.py` is not included, and running the installer again changes the file again. -/
theorem C103_glued {h : Host} {fs : FS} (hw : ∀ p, h.writable p = true) (hd : Decodes h.sys)
    (h1 : (fs (h.path "setup.py".toList)).isSome = true) (h2 : fs (h.path "setup.cfg".toList) = some repoSetupCfg)
    (h4 : fs (h.path "MANIFEST.in".toList) = some "graft snompy".toList) :
    ∃ new, (doSetup h fs).1 (h.path "MANIFEST.in".toList) = some new ∧
      new = "graft snompyinclude versioneer.py\ninclude snompy/_version.py\n".toList ∧
      ¬ Includes new "versioneer.py".toList ∧ ¬ IsLine new "graft snompy".toList ∧
      (doSetup h (doSetup h fs).1).1 (h.path "MANIFEST.in".toList) ≠ some new := by
  have hr := repo_ready hw hd h1 h2
  rw [setup_eq hr]
  simp only
  rw [setup_eq (ready_again hr)]
  simp only [after_manifest, h4]
  refine ⟨_, by decide +kernel, rfl, fun e => ?_, fun e => ?_, by decide +kernel⟩
  · obtain ⟨m, hm, hh, hf⟩ := includes_imp e
    have : ∀ m ∈ linesOf [] (readText "graft snompyinclude versioneer.py\ninclude snompy/_version.py\n".toList),
      (words m).head? = some "include".toList → "versioneer.py".toList ∉ words m := by decide +kernel
    exact this m hm hh hf
  · obtain ⟨m, hm, hh⟩ := mem_of_isLine e (by decide)
    have : ∀ m ∈ linesOf [] (readText "graft snompyinclude versioneer.py\ninclude snompy/_version.py\n".toList),
      ¬ (m = "graft snompy".toList ∨ m = "graft snompy".toList ++ ['\n']) := by decide +kernel
    exact this m hm hh

/-- A line of `.gitattributes` for a file whose name goes on after the name of the version file is taken for the line that
is needed: the installer adds nothing, and the version file does not have the attribute. -/
theorem C103_lookalike {h : Host} {fs : FS} (hw : ∀ p, h.writable p = true) (hd : Decodes h.sys)
    (h1 : (fs (h.path "setup.py".toList)).isSome = true) (h2 : fs (h.path "setup.cfg".toList) = some repoSetupCfg)
    (h4 : fs (h.path ".gitattributes".toList) = some "snompy/_version.pyi export-subst\n".toList) :
    ∃ new, (doSetup h fs).1 (h.path ".gitattributes".toList) = some new ∧ ¬ Marks new "snompy/_version.py".toList := by
  have hr := repo_ready hw hd h1 h2
  rw [setup_eq hr]
  simp only [after_attributes, h4]
  refine ⟨"snompy/_version.pyi export-subst\n".toList, by decide +kernel, fun e => ?_⟩
  obtain ⟨m, hm, hh, hf⟩ := marks_imp e
  have : ∀ m ∈ linesOf [] (readText "snompy/_version.pyi export-subst\n".toList),
      (words m).head? ≠ some "snompy/_version.py".toList := by decide +kernel
  exact this m hm hh

/-- An option that is not in `setup.cfg` is written to the version file as the text `None`: without `tag_prefix` the
version file looks for tags that begin with `None`. -/
theorem C103_none (c : SetupCfg) (h : c.tagPrefix = none) : "    cfg.tag_prefix = \"None\"\n".toList <:+: configText c := by
  unfold configText
  rw [h]
  exact ⟨"    cfg.VCS = \"git\"\n    cfg.style = \"".toList ++ c.style ++ "\"\n".toList,
    "    cfg.parentdir_prefix = \"".toList ++ showOpt c.parentdirPrefix ++ "\"\n    cfg.versionfile_source = \"".toList ++
      showOpt c.source ++ "\"\n    cfg.verbose = False\n".toList, by
      simp only [showOpt, List.append_assoc]
      rfl⟩

/-! ## The hypotheses can be met -/

/-- A machine without `git`. -/
private def demoHost : Host where
  cwd := "/r".toList
  argvDir := "/s".toList
  writable := fun _ => true
  versioneerFile := "versioneer.py".toList
  sys := ⟨false, [], fun _ _ _ _ _ => .osError true, fun b => some (b.map fun x => Char.ofNat x.toNat), fun _ => none, none⟩
  interp := fun _ _ => none
  longHead := "def get_config():\n    cfg = VersioneerConfig()\n".toList
  longTail := "    return cfg\n".toList

private theorem demo_decodes : Decodes demoHost.sys := fun _ => rfl

/-- Files in the directory of the project. -/
private def demoFS (l : List (String × Str)) : FS := fun p => (l.map fun q => (demoHost.path q.1.toList, q.2)).lookup p

private def demoRepo : FS := demoFS [("setup.py", repoSetupPy), ("setup.cfg", repoSetupCfg), ("snompy/__init__.py", repoInit),
  ("MANIFEST.in", repoManifest), (".gitattributes", repoAttributes)]

private theorem demo_ready : Ready demoHost demoRepo repoConfig repoSource :=
  repo_ready (fun _ => rfl) demo_decodes (by decide +kernel) (by decide +kernel)

example := C103_installed demo_ready
example := C103_values demo_ready [] [] rfl rfl
example := C103_init (d := "snompy".toList) (m := "_version".toList) demo_ready ⟨by decide, by decide⟩ (by decide) ⟨'v', by decide, by decide⟩

private theorem complete_of {t : Str} (h : t.getLast? = some '\n') : Complete t := fun c hc => by
  rw [h] at hc
  cases hc
  exact .inl rfl

private theorem demo_manifest : Complete ((demoRepo (demoHost.path "MANIFEST.in".toList)).getD []) := complete_of (by decide +kernel)

private theorem demo_attributes : Complete ((demoRepo (demoHost.path ".gitattributes".toList)).getD []) :=
  complete_of (by decide +kernel)

private theorem demo_look : ∀ l w, IsLine ((demoRepo (demoHost.path ".gitattributes".toList)).getD []) l → IsField l w →
    repoSource <+: w → w = repoSource := fun l w h1 h2 h3 => by
  have hw := mem_of_isField h2
  have hl : l ≠ [] := fun e => by rw [e] at hw; cases hw
  obtain ⟨m, hm, e⟩ := mem_of_isLine h1 hl
  have hw' : w ∈ words m := by
    rcases e with e | e
    · rw [e]; exact hw
    · rw [e, words_spaces _ _ (by decide)]; exact hw
  have : ∀ m ∈ linesOf [] (readText ((demoRepo (demoHost.path ".gitattributes".toList)).getD [])), ∀ w ∈ words m,
    repoSource <+: w → w = repoSource := by decide +kernel
  exact this m hm w hw' h3

private theorem demo_old : ∀ old, demoRepo (demoHost.path (initPath repoSource)) = some old →
    ¬ "\nfrom ._version import get_versions\n__version__ = get_versions()['version']\ndel get_versions\n".toList <:+:
      readText old ++ ['\n'] := fun old e => by
  have h : demoRepo (demoHost.path (initPath repoSource)) = some repoInit := by decide +kernel
  cases h.symm.trans e
  decide +kernel

example := C103_manifest demo_ready demo_manifest
example := C103_attributes demo_ready demo_attributes demo_look
example := C103_again demo_ready demo_manifest demo_attributes demo_old
example := C103_exit demo_ready repoSetupPy (by decide +kernel)
example := C103_repo (h := demoHost) (fs := demoRepo) (fun _ => rfl) demo_decodes (by decide +kernel) (by decide +kernel)
  (by decide +kernel) (by decide +kernel) (by decide +kernel)
example := C103_glued (h := demoHost) (fs := demoFS [("setup.py", repoSetupPy), ("setup.cfg", repoSetupCfg),
  ("MANIFEST.in", "graft snompy".toList)]) (fun _ => rfl) demo_decodes (by decide +kernel) (by decide +kernel) (by decide +kernel)
example := C103_lookalike (h := demoHost) (fs := demoFS [("setup.py", repoSetupPy), ("setup.cfg", repoSetupCfg),
  (".gitattributes", "snompy/_version.pyi export-subst\n".toList)]) (fun _ => rfl) demo_decodes (by decide +kernel)
  (by decide +kernel) (by decide +kernel)
example := C103_none ⟨"git".toList, "pep440".toList, some repoSource, some repoSource, none, some [], none⟩ rfl

/-- A project whose `setup.cfg` has another section. -/
private def demoBare : FS := demoFS [("setup.py", repoSetupPy), ("setup.cfg", "[metadata]\nname = snompy\n".toList)]

private theorem demo_bare : ∀ t, demoBare (demoHost.path "setup.cfg".toList) = some t →
    (readIni t).isSome = true ∧ ¬ "[versioneer]".toList <:+: t ∧ ¬ "[DEFAULT]".toList <:+: t := fun t e => by
  have h : demoBare (demoHost.path "setup.cfg".toList) = some "[metadata]\nname = snompy\n".toList := by decide +kernel
  cases h.symm.trans e
  exact ⟨by decide +kernel, by decide +kernel, by decide +kernel⟩

example := C103_no_config (h := demoHost) (fs := demoBare) (by decide +kernel) (fun _ => rfl) demo_bare
example := C103_exit_no_config (h := demoHost) (fs := demoBare) (by decide +kernel) (fun _ => rfl) demo_bare

/-- A file that is none of those of the installer. -/
example := C103_frame demoHost demoRepo "/r/README.md".toList (by decide) fun root hr => by
  have e : getRoot demoHost demoRepo = some "/r".toList := by decide +kernel
  cases e.symm.trans hr
  refine ⟨by decide, by decide, fun cfg src h1 h2 => ?_⟩
  cases demo_ready.config.symm.trans h1
  cases demo_ready.source.symm.trans h2
  exact ⟨by decide, by decide⟩

example := (C103_bad_config demoHost (demoFS [("setup.py", []), ("setup.cfg", "name = snompy\n".toList)]) "/r".toList
  (by decide +kernel)).1 (by decide +kernel)
example := (C103_bad_config demoHost (demoFS [("setup.py", []), ("setup.cfg", "[versioneer]\n".toList)]) "/r".toList
  (by decide +kernel)).2 (by decide +kernel)
example := C103_no_source demoHost (demoFS [("setup.py", []), ("setup.cfg", "[versioneer]\nVCS = git\n".toList)]) "/r".toList
  (by decide +kernel) ⟨"git".toList, [], none, none, none, none, none⟩ (by decide +kernel) rfl
example := C103_other_vcs demoHost (demoFS [("setup.py", []), ("setup.cfg",
    "[versioneer]\nVCS = hg\nversionfile_source = v.py\n".toList)]) "/r".toList
  (by decide +kernel) ⟨"hg".toList, [], some "v.py".toList, none, none, none, none⟩ "v.py".toList (by decide +kernel) rfl rfl
  (by decide)

/-- The current directory is empty, and the project is in the directory of `versioneer.py`. -/
private def demoElsewhere : FS := fun p =>
  [("/s/setup.py".toList, repoSetupPy), ("/s/setup.cfg".toList, repoSetupCfg)].lookup p

example := C103_elsewhere demoHost demoElsewhere (by decide +kernel) fun root cfg src hr h1 h2 => by
  have e : getRoot demoHost demoElsewhere = some "/s".toList := by decide +kernel
  cases e.symm.trans hr
  have e' : demoElsewhere (pathJoin "/s".toList "setup.cfg".toList) = some repoSetupCfg := by decide +kernel
  rw [e'] at h1
  cases (C103_repo_config demoHost).1.symm.trans h1
  cases demo_ready.source.symm.trans h2
  decide

end Snompy.Props
