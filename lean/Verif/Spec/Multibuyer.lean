import Verif.Spec.View

set_option autoImplicit false

/-!
# Specification for the old auction with several buyer categories and one seller category
-/

namespace Auctions.Spec

/-- The number of sellers in a recipe: its last entry. -/
def recipeSellers (r : List ℕ) : ℕ := r.getLastD 0

/-- The recipes `[[1,0,0,x], [0,1,0,y], …]` for `n` categories that the documentation allows: each recipe has one entry per category; it has at most one buyer; and two recipes do not have
the same buyer category (unless the earlier recipe has no sellers). -/
structure BuyerRecipes (n : ℕ) (recipes : List (List ℕ)) : Prop where
  length : ∀ r ∈ recipes, r.length = n
  one : ∀ r ∈ recipes, r.dropLast.sum ≤ 1
  differ : recipes.Pairwise fun r r' => ∀ i, r.dropLast.getD i 0 = 1 → r'.dropLast.getD i 0 = 1 → recipeSellers r = 0

/-- The number of units that a buyer of category `i` buys: the sellers in its recipe. -/
def unitsOf (recipes : List (List ℕ)) (i : ℕ) : ℕ := (recipes.map fun r => r.dropLast.getD i 0 * recipeSellers r).sum

/-- The number of units that all buyers together want to buy: all categories but the last one are buyers. -/
def unitsWanted (m : Market) (recipes : List (List ℕ)) : ℕ :=
  ((List.range (m.numCategories - 1)).map fun i => (m.valueLists.getD i []).length * unitsOf recipes i).sum

end Auctions.Spec
