import Verif.Model.Markets
import Verif.Model.Prices

set_option autoImplicit false

/-!
# Model of `ascending_auction_protocol.py`
-/

namespace Auctions.Ascending

open Auctions

/-- `remaining_market.categories[i].size()`; `i` is always a valid index here (`ascending_auction_protocol.py:94-99`),
out of range (IndexError in Python, unreachable) it is 0. -/
def sizeAt (m : Market) (i : ℕ) : ℕ := match m.categories[i]? with
  | some c => c.size
  | none => 0

/-- `ps_recipe[i]`, same remark. -/
def recipeAt (r : List ℕ) (i : ℕ) : ℕ := match r[i]? with
  | some x => x
  | none => 0

/-- `ascending_auction_protocol.py:112` — `fractional_potential_ps`; only applied to relevant categories,
for which the divisor is positive. -/
def fractionalPotentialPs (m : Market) (psRecipe : List ℕ) (i : ℕ) : ℚ := (sizeAt m i : ℚ) / (recipeAt psRecipe i : ℚ)

/-- `ascending_auction_protocol.py:99` — `relevant_category_indices`. -/
def relevantCategoryIndices (m : Market) (psRecipe : List ℕ) : List ℕ :=
  (List.range m.numCategories).filter (fun i => recipeAt psRecipe i > 0)

/-- `ascending_auction_protocol.py:115-133` — the `while True` loop. The first argument is fuel: `.ok none` means
that the fuel ran out before the loop ended. -/
def loop (psRecipe : List ℕ) (relevant : List ℕ) :
    ℕ → Market → AscendingPriceVector → Py (Option (Market × AscendingPriceVector))
  | 0, _, _ => .ok none
  | fuel + 1, remaining, prices => do
    let main ← pyMaxBy (fractionalPotentialPs remaining psRecipe) relevant
    let mainCategory ← pyGet remaining.categories main
    if mainCategory.size = 0 then .ok (some (remaining, prices))
    else do
      let target ← mainCategory.lowestAgentValue
      let prices' ← prices.increasePriceUpToBalance main target
      if prices'.status = some .stoppedAtZeroSum then .ok (some (remaining, prices'))
      else do
        let mainCategory' ← mainCategory.removeLowestAgent
        loop psRecipe relevant fuel ⟨remaining.categories.set main mainCategory'⟩ prices'

/-- `ascending_auction_protocol.py:24-136` — `budget_balanced_ascending_auction(market, ps_recipe, max_iterations)`.
`max_iterations` only limits the optimal trade computed for the log. -/
def auction (market : Market) (psRecipe : List ℕ) (fuel : ℕ) (maxIterations : ℕ := 999999999) :
    Py (Option TradeWithSinglePrice) := do
  if psRecipe.length ≠ market.numCategories then .error .valueError
  else do
    let relevant := relevantCategoryIndices market psRecipe
    let _ ← market.optimalTrade psRecipe maxIterations
    let remaining ← market.clone
    let prices := AscendingPriceVector.init psRecipe (-MAX_VALUE)
    match ← loop psRecipe relevant fuel remaining prices with
    | none => .ok none
    | some (remaining', prices') => do
      let t ← TradeWithSinglePrice.init remaining'.categories psRecipe (some prices'.prices)
      .ok (some t)

end Auctions.Ascending
