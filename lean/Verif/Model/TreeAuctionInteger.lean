import Verif.Model.TreeAuction
import Verif.Model.RecipeTreeInteger
import Verif.Model.PricesInteger

set_option autoImplicit false

/-!
# Model of `ascending_auction_recipetree_integer_protocol.py`
-/

namespace Auctions.IntegerAuction

open Auctions TreeAuction

/-- `ascending_auction_recipetree_integer_protocol.py:40-52` — `TradeWithMultipleRecipes.__init__`; the same fields as in
the other tree auction (`agent_counts` is not passed by the auction, and is not used). -/
def mkTrade (cnt : ℕ → ℕ) (categories : List AgentCategory) (tree : RecipeTree) (prices : List ℚ) : TradeWithMultipleRecipes :=
  let e := (IntegerTree.numOfDealsExplained cnt (sizeAt categories) tree.forest).headD (0, 0, 0)
  ⟨categories, tree, prices, e.1, e.2.1, e.2.2, IntegerTree.optimalTradeGFT tree cnt (valuesAt categories)⟩

/-- `ascending_auction_recipetree_integer_protocol.py:161-195` — the `while True` loop. The first argument is fuel. Lines 173-177 and 189-194
are as in the other tree auction (`TreeAuction.increases`, `TreeAuction.removeLosers`). -/
def loop (cnt : ℕ → ℕ) (tree : RecipeTree) :
    ℕ → List AgentCategory → IntegerPrices.SimultaneousAscendingPriceVectors →
      Py (Option (List AgentCategory × IntegerPrices.SimultaneousAscendingPriceVectors))
  | 0, _, _ => .ok none
  | fuel + 1, cats, prices =>
    let (_, combinedSize, indices) := IntegerTree.largestCategories cnt (sizeAt cats) tree.forest
    if combinedSize = 0 then .ok (some (cats, prices))
    else do
      let incs ← increases cats indices
      let prices' ← prices.increasePrices incs
      if prices'.status = some .stoppedAtZeroSum then .ok (some (cats, prices'))
      else do
        let cats' ← removeLosers cats prices'.prices
        loop cnt tree fuel cats' prices'

/-- `ascending_auction_recipetree_integer_protocol.py:75-195` — `budget_balanced_ascending_auction(market, ps_recipe_struct, agent_counts)`. The price
vectors are created without `agent_counts` (line 160); the call `recipe_tree.optimal_trade()` of line 154, which is only logged and raises nothing, is omitted. -/
def auction (market : Market) (struct : List PyObj) (agentCounts : List ℕ) (fuel : ℕ) : Py (Option TradeWithMultipleRecipes) := do
  let remaining ← market.clone
  let tree ← IntegerTree.init remaining.numCategories struct agentCounts
  let recipes ← IntegerTree.recipes tree remaining.numCategories agentCounts
  let prices ← IntegerPrices.SimultaneousAscendingPriceVectors.init recipes (-MAX_VALUE) []
  match ← loop (IntegerTree.countOf agentCounts) tree fuel remaining.categories prices with
  | none => .ok none
  | some (cats, prices') => .ok (some (mkTrade (IntegerTree.countOf agentCounts) cats tree prices'.prices))

end Auctions.IntegerAuction
