import Mathlib.Data.Complex.Basic
import Mathlib.Analysis.SpecialFunctions.Log.Basic
import Mathlib.Analysis.RCLike.Sqrt

/-!
# Python values: exceptions and (possibly non-finite) numbers

The model computes with exact real and complex numbers.  A computation that divides by zero
or takes the logarithm of a non-positive number yields `FP.nan`, which stands for *any*
non-finite floating-point value (`nan`, `inf`, `inf+nanj`, ...) and is absorbing.
-/

namespace Snompy

/-- Python exceptions raised by snompy or by numpy on its behalf. -/
inductive PyErr where
  /-- `ValueError` with the message in the source. -/
  | valueError (msg : String)
  /-- `ValueError: operands could not be broadcast together` (numpy). -/
  | broadcast
  /-- `IndexError` (numpy, indexing an empty axis). -/
  | indexError
  /-- `TypeError` (python or numpy). -/
  | typeError (msg : String)
  /-- `LinAlgError` (numpy, eigenvalues of a matrix with non-finite entries). -/
  | linAlgError
deriving DecidableEq, Repr

/-- A Python computation: a value, or a raised exception. -/
abbrev PyM := Except PyErr

@[simp] theorem PyM.ok_bind {α β : Type} (a : α) (f : α → PyM β) :
    ((.ok a : PyM α) >>= f) = f a := rfl
@[simp] theorem PyM.error_bind {α β : Type} (e : PyErr) (f : α → PyM β) :
    ((.error e : PyM α) >>= f) = .error e := rfl
@[simp] theorem PyM.pure_eq_ok {α : Type} (a : α) : (pure a : PyM α) = .ok a := rfl
@[simp] theorem PyM.throw_eq_error {α : Type} (e : PyErr) : (throw e : PyM α) = .error e := rfl
@[simp] theorem PyM.map_ok {α β : Type} (f : α → β) (a : α) :
    (f <$> (.ok a : PyM α)) = .ok (f a) := rfl
@[simp] theorem PyM.map_error {α β : Type} (f : α → β) (e : PyErr) :
    (f <$> (.error e : PyM α)) = .error e := rfl

/-- A number as numpy sees it: an exact value or "not finite". -/
inductive FP (α : Type) where
  | num (a : α)
  | nan

namespace FP

instance {α : Type} : Coe α (FP α) := ⟨num⟩

variable {α β : Type}

/-- Apply a total function. -/
def map (f : α → β) : FP α → FP β
  | num a => num (f a)
  | nan => nan

/-- Apply a partial function (`nan` where undefined). -/
def bind (x : FP α) (f : α → FP β) : FP β :=
  match x with
  | num a => f a
  | nan => nan

def add [Add α] : FP α → FP α → FP α
  | num a, num b => num (a + b)
  | _, _ => nan

def sub [Sub α] : FP α → FP α → FP α
  | num a, num b => num (a - b)
  | _, _ => nan

def mul [Mul α] : FP α → FP α → FP α
  | num a, num b => num (a * b)
  | _, _ => nan

open Classical in
/-- Division; not finite when the divisor is zero. -/
noncomputable def div [Div α] [Zero α] : FP α → FP α → FP α
  | num a, num b => if b = 0 then nan else num (a / b)
  | _, _ => nan

instance [Add α] : Add (FP α) := ⟨add⟩
instance [Sub α] : Sub (FP α) := ⟨sub⟩
instance [Mul α] : Mul (FP α) := ⟨mul⟩
noncomputable instance [Div α] [Zero α] : Div (FP α) := ⟨div⟩

/-- `sum` of a list of values (`np.sum` along one axis). -/
def sum [Add α] [Zero α] (l : List (FP α)) : FP α := l.foldr (· + ·) (num 0)

@[simp] theorem map_num (f : α → β) (a : α) : (num a).map f = num (f a) := rfl
@[simp] theorem map_nan (f : α → β) : (nan : FP α).map f = nan := rfl
@[simp] theorem bind_num (f : α → FP β) (a : α) : (num a).bind f = f a := rfl
@[simp] theorem bind_nan (f : α → FP β) : (nan : FP α).bind f = nan := rfl

@[simp] theorem num_add [Add α] (a b : α) : (num a + num b : FP α) = num (a + b) := rfl
@[simp] theorem num_sub [Sub α] (a b : α) : (num a - num b : FP α) = num (a - b) := rfl
@[simp] theorem num_mul [Mul α] (a b : α) : (num a * num b : FP α) = num (a * b) := rfl
@[simp] theorem nan_add [Add α] (a : FP α) : (nan + a : FP α) = nan := by cases a <;> rfl
@[simp] theorem add_nan [Add α] (a : FP α) : (a + nan : FP α) = nan := by cases a <;> rfl
@[simp] theorem nan_sub [Sub α] (a : FP α) : (nan - a : FP α) = nan := by cases a <;> rfl
@[simp] theorem sub_nan [Sub α] (a : FP α) : (a - nan : FP α) = nan := by cases a <;> rfl
@[simp] theorem nan_mul [Mul α] (a : FP α) : (nan * a : FP α) = nan := by cases a <;> rfl
@[simp] theorem mul_nan [Mul α] (a : FP α) : (a * nan : FP α) = nan := by cases a <;> rfl
@[simp] theorem nan_div [Div α] [Zero α] (a : FP α) : (nan / a : FP α) = nan := by cases a <;> rfl
@[simp] theorem div_nan [Div α] [Zero α] (a : FP α) : (a / nan : FP α) = nan := by cases a <;> rfl

theorem num_div [Div α] [Zero α] (a : α) {b : α} (hb : b ≠ 0) :
    (num a / num b : FP α) = num (a / b) := by
  show FP.div _ _ = _
  simp [FP.div, hb]

@[simp] theorem num_div_zero [Div α] [Zero α] (a : α) : (num a / num 0 : FP α) = nan := by
  show FP.div _ _ = _
  simp [FP.div]

open Classical in
theorem num_div_eq [Div α] [Zero α] (a b : α) :
    (num a / num b : FP α) = if b = 0 then nan else num (a / b) := rfl

@[simp] theorem sum_nil [Add α] [Zero α] : sum ([] : List (FP α)) = num 0 := rfl
@[simp] theorem sum_cons [Add α] [Zero α] (a : FP α) (l : List (FP α)) :
    sum (a :: l) = a + sum l := rfl

/-- A sum of finite values is the finite sum. -/
theorem sum_num [AddMonoid α] {ι : Type} (l : List ι) (f : ι → α) :
    sum (l.map fun i => num (f i)) = num (l.map f).sum := by
  induction l with
  | nil => rfl
  | cons a l ih => simp [ih]

@[simp] theorem num_inj {a b : α} : (num a : FP α) = num b ↔ a = b :=
  ⟨fun h => by cases h; rfl, fun h => by rw [h]⟩

@[simp] theorem num_ne_nan {a : α} : (num a : FP α) ≠ nan := fun h => by cases h
@[simp] theorem nan_ne_num {a : α} : (nan : FP α) ≠ num a := fun h => by cases h

end FP

end Snompy
