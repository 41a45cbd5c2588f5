import Verif.Spec.Prices

set_option autoImplicit false

/-!
# Specification of prices with agent counts (`prices_integer.py`)
-/

namespace Auctions.Spec

/-- The sum of `recipe[i] * counts[i] * x[i]`: every category of the recipe is paid by `counts[i]` agents for each place in the recipe. -/
def countedSum (recipe counts : List ℕ) (x : List ℚ) : ℚ := recipeSum (List.zipWith (· * ·) recipe counts) x

end Auctions.Spec
