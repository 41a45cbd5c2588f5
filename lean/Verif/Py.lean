import Mathlib.Data.Rat.Defs
import Mathlib.Algebra.Order.Field.Rat
import Mathlib.Data.List.Sort

set_option autoImplicit false

/-!
# Python vocabulary shared by all model files

Python numbers are modelled as exact rationals, exceptions as values of `Except PyErr`.
-/

namespace Auctions

/-- The Python exception classes that the modelled code can raise. -/
inductive PyErr
  | valueError
  | indexError
  | zeroDivisionError
  | typeError
  deriving DecidableEq, Repr

/-- Outcome of a Python call: a value or an exception. -/
abbrev Py (α : Type) := Except PyErr α

instance {α : Type} [DecidableEq α] : DecidableEq (Py α) := fun a b =>
  match a, b with
  | .ok x, .ok y => if h : x = y then isTrue (by rw [h]) else isFalse (by simpa using h)
  | .error x, .error y => if h : x = y then isTrue (by rw [h]) else isFalse (by simpa using h)
  | .ok _, .error _ => isFalse (by simp)
  | .error _, .ok _ => isFalse (by simp)

/-- Python list indexing `l[i]` with a non-negative index: `IndexError` when out of range. -/
def pyGet {α : Type} (l : List α) (i : ℕ) : Py α :=
  match l[i]? with
  | some x => .ok x
  | none => .error .indexError

/-- Python `a / b`: `ZeroDivisionError` when `b` is zero. -/
def pyDiv (a b : ℚ) : Py ℚ := if b = 0 then .error .zeroDivisionError else .ok (a / b)

/-- Python `list.sort(reverse=True)` on numbers (stable). -/
def sortDesc (l : List ℚ) : List ℚ := l.insertionSort (· ≥ ·)

/-- Python `list.sort(key=sum)` on tuples of numbers (stable, ascending). -/
def sortBySum (l : List (List ℚ)) : List (List ℚ) := l.insertionSort (fun a b => a.sum ≤ b.sum)

/-- Python `min(l)` of a list of natural numbers: `ValueError` on an empty list. -/
def pyMinNat : List ℕ → Py ℕ
  | [] => .error .valueError
  | x :: xs => .ok (xs.foldl min x)

/-- Python `min(l)` of a list of numbers: `ValueError` on an empty list. -/
def pyMin : List ℚ → Py ℚ
  | [] => .error .valueError
  | x :: xs => .ok (xs.foldl min x)

/-- Python `max(l, key=f)`: the FIRST element with the largest key; `ValueError` on an empty list. -/
def pyMaxBy {α : Type} (f : α → ℚ) : List α → Py α
  | [] => .error .valueError
  | x :: xs => .ok (xs.foldl (fun best y => if f best < f y then y else best) x)

end Auctions
