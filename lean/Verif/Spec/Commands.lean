import Verif.Model.Commands

/-!
# Vocabulary of property C112: a project and its files
-/

namespace Snompy.Version

/-- No file has a number that is still to be given away. -/
def Disk.Sound (d : Disk) : Prop := ∀ p i, d.inode p = some i → i < d.next

/-- A program that keeps this so. -/
def CM.Sound {α : Type} (x : CM α) : Prop := ∀ d, d.Sound → (x d).1.Sound

/-- The files make a project with a configuration for git, whose version is `versions`. -/
structure Project (b : Builder) (d : Disk) (root src pre : Str) (cfg : SetupCfg) (versions : PyDict) : Prop where
  sound : d.Sound
  root_eq : getRoot b.toHost d.read = some root
  cfg_eq : getConfigFromRoot b.toHost (d.read (pathJoin root "setup.cfg".toList)) = .ok cfg
  vcs : cfg.vcs = "git".toList
  source : cfg.source = some src
  prefix_eq : cfg.tagPrefix = some pre
  versions_eq : setupVersions b.sys ⟨String.ofList cfg.style, pre, cfg.parentdirPrefix.getD [], src⟩ root
    (d.read (pathJoin root src)) = .ok versions
  has_version : (versions.lookup "version".toList).isSome

/-- A path can be replaced. -/
def Replaceable (b : Builder) (d : Disk) (p : Str) : Prop :=
  (d.read p).isSome ∧ b.removable p = true ∧ b.writable p = true

/-- The two sets of files differ at most in what is read from `p`. -/
def SameBut (p : Str) (d d' : Disk) : Prop := ∀ q, q ≠ p → d'.read q = d.read q

end Snompy.Version
