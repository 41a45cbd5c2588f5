import Verif.Spec.Prices

set_option autoImplicit false

/-!
# Specification: increases for several recipes, listed per category or per recipe
-/

namespace Auctions.Spec

/-- `perRecipe` lists, for each recipe, the one increase in `incs` whose category is in the recipe; every increase belongs to a recipe. -/
structure PerRecipe (recipes : List (List ℕ)) (incs perRecipe : List (ℕ × ℚ)) : Prop where
  one : List.Forall₂ (fun r x => x ∈ incs ∧ r.getD x.1 0 = 1 ∧ ∀ y ∈ incs, r.getD y.1 0 = 1 → y = x) recipes perRecipe
  all : ∀ y ∈ incs, y ∈ perRecipe
  nodup : incs.Nodup

end Auctions.Spec
