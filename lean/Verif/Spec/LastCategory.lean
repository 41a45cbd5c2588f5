import Verif.Spec.Prices

set_option autoImplicit false

/-!
# Specification of the condition under which the explicit initial prices are balanced
-/

namespace Auctions.Spec

/-- `j` is the last category that the recipe uses. -/
def LastCategory (recipe : List ℕ) (j : ℕ) : Prop := 0 < recipe.getD j 0 ∧ ∀ k, j < k → recipe.getD k 0 = 0

/-- Every recipe uses some category, and the last category used by a recipe is used by no other recipe. -/
def OwnLastCategories (recipes : List (List ℕ)) : Prop :=
  (∀ r ∈ recipes, ∃ j, LastCategory r j) ∧
    recipes.Pairwise (fun r q => ∀ j, (LastCategory r j → q.getD j 0 = 0) ∧ (LastCategory q j → r.getD j 0 = 0))

end Auctions.Spec
