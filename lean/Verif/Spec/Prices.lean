import Mathlib.Data.Rat.Defs
import Mathlib.Algebra.Order.Field.Rat
import Mathlib.Algebra.BigOperators.Group.List.Basic

set_option autoImplicit false

/-!
# Specification of prices: recipe-weighted sums and procurement-sets that contain a given agent
-/

namespace Auctions.Spec

/-- The recipe-weighted sum `Σ recipe[i] * x[i]`. For prices, 0 means that money only moves between traders,
positive that the auctioneer gains, negative that the auctioneer pays. -/
def recipeSum (recipe : List ℕ) (x : List ℚ) : ℚ := (List.zipWith (fun (a : ℕ) (p : ℚ) => (a : ℚ) * p) recipe x).sum

/-- `q` has the value `v` at position `c` and an agent of the market at every other position. -/
def ContainsAgent (market : List (List ℚ)) (c : ℕ) (v : ℚ) (q : List ℚ) : Prop :=
  q.length = market.length ∧
    ∀ (i : ℕ) x, q[i]? = some x → (i = c ∧ x = v) ∨ (i ≠ c ∧ x ∈ market.getD i [])

end Auctions.Spec
