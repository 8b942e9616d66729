import Verif.Model.Version

/-!
# What the files that the installer edits mean

These definitions do not use the model of the installer.
-/

namespace Snompy.Version

/-- The characters at which the lines of a text file end. -/
def IsEol (c : Char) : Prop := c = '\n' ∨ c = '\r'

/-- The last line of the file is complete. -/
def Complete (text : Str) : Prop := ∀ c ∈ text.getLast?, IsEol c

/-- `l` is one of the lines of the file. -/
def IsLine (text l : Str) : Prop :=
  ∃ a b, text = a ++ l ++ b ∧ (∀ c ∈ l, ¬ IsEol c) ∧ Complete a ∧ ∀ c ∈ b.head?, IsEol c

/-- `w` stands between spaces in the line, or at one of its ends. -/
def IsField (l w : Str) : Prop :=
  ∃ a b, l = a ++ w ++ b ∧ w ≠ [] ∧ (∀ c ∈ w, isSpace c = false) ∧ (∀ c ∈ a.getLast?, isSpace c = true) ∧
    ∀ c ∈ b.head?, isSpace c = true

/-- `w` is the first field of the line; there may be spaces before it. -/
def FirstField (l w : Str) : Prop :=
  ∃ a b, l = a ++ w ++ b ∧ w ≠ [] ∧ (∀ c ∈ w, isSpace c = false) ∧ (∀ c ∈ a, isSpace c = true) ∧
    ∀ c ∈ b.head?, isSpace c = true

/-- `MANIFEST.in` has the command `include` for the file `f`. -/
def Includes (text f : Str) : Prop := ∃ l, IsLine text l ∧ FirstField l "include".toList ∧ IsField l f

/-- `.gitattributes` gives the file `f` the attribute `export-subst`. -/
def Marks (text f : Str) : Prop := ∃ l, IsLine text l ∧ FirstField l f ∧ IsField l "export-subst".toList

/-- A name that is one field of a line. -/
def PlainName (f : Str) : Prop := f ≠ [] ∧ ∀ c ∈ f, isSpace c = false

/-- Running a command ends, and its output can be decoded. -/
def Decodes (sys : Sys) : Prop := ∀ b, (sys.decode b).isSome

end Snompy.Version
