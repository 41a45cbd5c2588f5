import Mathlib.Data.Rat.Defs
import Mathlib.Algebra.Order.Field.Rat
import Mathlib.Data.Multiset.AddSub

set_option autoImplicit false

/-!
# Specification of an agent category: a multiset of values

Nothing here refers to the model of the code.
-/

namespace Auctions.Spec

/-- The list is in descending order. -/
def SortedDesc (l : List ℚ) : Prop := l.Pairwise (· ≥ ·)

/-- Operations a user can apply to a category. -/
inductive CatOp
  | append (v : ℚ)
  | appendList (vs : List ℚ)
  | removeHighest
  | removeHighestN (n : ℕ)
  | removeLowest
  | clone

/-- `top` is a collection of `n` largest members of `s`. -/
def IsTop (n : ℕ) (top s : Multiset ℚ) : Prop :=
  top ≤ s ∧ Multiset.card top = n ∧ ∀ x ∈ top, ∀ y ∈ s - top, y ≤ x

/-- What each operation means for the multiset of values. -/
def CatStep (s : Multiset ℚ) : CatOp → Multiset ℚ → Prop
  | .append v, s' => s' = v ::ₘ s
  | .appendList vs, s' => s' = s + (vs : Multiset ℚ)
  | .removeHighest, s' => ∃ x ∈ s, (∀ y ∈ s, y ≤ x) ∧ s' = s.erase x
  | .removeHighestN n, s' => ∃ top, IsTop n top s ∧ s' = s - top
  | .removeLowest, s' => ∃ x ∈ s, (∀ y ∈ s, x ≤ y) ∧ s' = s.erase x
  | .clone, s' => s' = s

/-- What a history of operations means. -/
def CatRun : Multiset ℚ → List CatOp → Multiset ℚ → Prop
  | s, [], s' => s' = s
  | s, op :: ops, s' => ∃ t, CatStep s op t ∧ CatRun t ops s'

end Auctions.Spec
