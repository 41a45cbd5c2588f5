import Mathlib.Data.Rat.Defs
import Mathlib.Algebra.Order.Field.Rat
import Mathlib.Algebra.BigOperators.Group.Multiset.Basic
import Mathlib.Algebra.Order.Group.Multiset

set_option autoImplicit false

/-!
# Specification of trades in a market

A market is seen only through the list of its categories' values. Nothing here refers to the model of the code.
-/

namespace Auctions.Spec

/-- A deal lists, for each category, the agents of that category that take part in it. -/
abbrev Deal := List (List ℚ)

/-- The deal uses exactly `recipe[i]` agents of category `i`. -/
def Follows (recipe : List ℕ) (d : Deal) : Prop := d.map List.length = recipe

/-- Total value of the agents in the deal. -/
def dealGain (d : Deal) : ℚ := (d.map List.sum).sum

/-- Total gain of a list of deals. -/
def totalGain (deals : List Deal) : ℚ := (deals.map dealGain).sum

/-- The agents of category `i` that take part in the deals. -/
def used (deals : List Deal) (i : ℕ) : Multiset ℚ :=
  (deals.map (fun d => ((d.getD i [] : List ℚ) : Multiset ℚ))).sum

/-- The deals follow the recipe, and no agent is used twice: in every category, the agents used are, as a multiset,
contained in the agents of the market. -/
def Feasible (market : List (List ℚ)) (recipe : List ℕ) (deals : List Deal) : Prop :=
  (∀ d ∈ deals, Follows recipe d) ∧ ∀ i, used deals i ≤ ((market.getD i [] : List ℚ) : Multiset ℚ)

end Auctions.Spec
