import Verif.Py
import Verif.Spec.Prices

set_option autoImplicit false

/-!
# Contract of `calculate_initial_prices`, as documented in `prices.py:240-251`

The implementation calls `scipy.optimize.linprog`; the tree auction is proved correct for every implementation that meets this
contract.
-/

namespace Auctions.Spec

/-- `p` has a price per category, every price is at most `bound`, and all recipes have the same price sum. -/
def InitialPrices (recipes : List (List ℕ)) (bound : ℚ) (p : List ℚ) : Prop :=
  (∀ r ∈ recipes, r.length = p.length) ∧ (∀ x ∈ p, x ≤ bound) ∧ ∃ s, ∀ r ∈ recipes, recipeSum r p = s

/-- What is returned meets the documented conditions. -/
def PriceContract (f : List (List ℕ) → ℚ → Py (List ℚ)) : Prop :=
  ∀ recipes bound p, f recipes bound = .ok p → InitialPrices recipes bound p

/-- Prices are returned whenever there are any that meet the conditions. -/
def PriceComplete (f : List (List ℕ) → ℚ → Py (List ℚ)) : Prop :=
  ∀ recipes bound, (∃ p, InitialPrices recipes bound p) → ∃ p, f recipes bound = .ok p

/-- On these recipes, prices meeting the conditions are returned, and no such prices have a larger sum, as the objective of the linear
program (`prices.py:264`) says. -/
def SolvesAt (f : List (List ℕ) → ℚ → Py (List ℚ)) (recipes : List (List ℕ)) (bound : ℚ) : Prop :=
  ∃ p, f recipes bound = .ok p ∧ InitialPrices recipes bound p ∧
    ∀ p', InitialPrices recipes bound p' → ∀ r ∈ recipes, recipeSum r p' ≤ recipeSum r p

end Auctions.Spec
