import Verif.Model.Floating
import Verif.Model.TreeAuction

set_option autoImplicit false

/-!
# The recipe-tree auction with rounded arithmetic

The same functions as in `Model/RecipeTree`, `Model/Prices` and `Model/TreeAuction`, but the result of every addition and subtraction of numbers that may be of type
`float` is rounded by a function `fl` (there are no multiplications other than with 0 and 1, and no divisions).
-/

namespace Auctions.Floating

open Auctions

/-- `recipetree.py:229-242` — `combined_values()`, concatenated over the trees of a forest. -/
def combinedValues (fl : ℚ → ℚ) (vals : ℕ → List ℚ) : Forest → List ℚ
  | .nil => []
  | .cons i ch siblings =>
    (match ch with
      | .nil => vals i
      | .cons .. => List.zipWith (fun a b => fl (a + b)) (vals i) (sortDesc (combinedValues fl vals ch))) ++ combinedValues fl vals siblings

/-- `recipetree.py:292` — the sort key. -/
def itemKey (fl : ℚ → ℚ) : Forest.Item → ℚ
  | .num v => v
  | .tup vs => flSum fl vs

/-- `recipetree.py:278-294` — `combined_values_detailed()`, concatenated over the trees of a forest. -/
def combinedValuesDetailed (fl : ℚ → ℚ) (vals : ℕ → List ℚ) : Forest → List Forest.Item
  | .nil => []
  | .cons i ch siblings =>
    (match ch with
      | .nil => (vals i).map .num
      | .cons .. => List.zipWith (fun a x => Forest.Item.tup (a :: x.flat)) (vals i)
          ((combinedValuesDetailed fl vals ch).insertionSort (fun x y => itemKey fl x ≥ itemKey fl y)))
      ++ combinedValuesDetailed fl vals siblings

/-- `recipetree.py:321-332` — `optimal_trade()`. -/
def treeOptimalTrade (fl : ℚ → ℚ) (t : RecipeTree) (vals : ℕ → List ℚ) : Py (List (List ℚ) × ℕ × ℚ) := do
  let tuples ← (combinedValuesDetailed fl vals t.forest).mapM RecipeTree.itemSum
  let deals := tuples.filter (fun vs => flSum fl vs ≥ 0)
  .ok (deals, deals.length, flSum fl deals.flatten)

/-- `recipetree.py:334-338` — `optimal_trade_GFT()`. -/
def treeOptimalTradeGFT (fl : ℚ → ℚ) (t : RecipeTree) (vals : ℕ → List ℚ) : ℚ := flSum fl ((combinedValues fl vals t.forest).filter (fun v => v ≥ 0))

/-- `prices.py:213-214` — `increases_to_new_prices`. -/
def increasesToNewPrices (fl : ℚ → ℚ) (prices : List ℚ) : List (ℕ × ℚ) → Py (List ℚ)
  | [] => .ok []
  | (i, newPrice) :: rest => do
    let pi ← pyGet prices i
    let xs ← increasesToNewPrices fl prices rest
    .ok (fl (newPrice - pi) :: xs)

/-- `prices.py:219-222`, `226-232` — the loop adding `min_increase` to each listed category in turn. -/
def applyIncreases (fl : ℚ → ℚ) (delta : ℚ) : List ℚ → List (ℕ × ℚ) → Py (List ℚ)
  | prices, [] => .ok prices
  | prices, (i, _) :: rest => do
    let pi ← pyGet prices i
    applyIncreases fl delta (prices.set i (fl (pi + delta))) rest

/-- `prices.py:174-232` — `increase_prices(increases, sum_upper_bound=0)`. -/
def increasePrices (fl : ℚ → ℚ) (v : SimultaneousAscendingPriceVectors) (increases : List (ℕ × ℚ)) : Py SimultaneousAscendingPriceVectors := do
  let iprs ← SimultaneousAscendingPriceVectors.increasesPerRecipe increases v.psRecipes
  if iprs.any (fun n => n ≠ 1) then .error .valueError
  else do
    let increaseToUpperBound := fl (0 - flDot fl v.prices (v.psRecipes.headD []))
    let toNew ← increasesToNewPrices fl v.prices increases
    let minToNew ← pyMin toNew
    let minIncrease := min minToNew increaseToUpperBound
    let prices' ← applyIncreases fl minIncrease v.prices increases
    if minIncrease = increaseToUpperBound then
      .ok { v with prices := prices', status := some .stoppedAtZeroSum }
    else
      .ok { v with prices := prices', status := some .stoppedAtAgentValue }

/-- `ascending_auction_recipetree_protocol.py:44-50` — `TradeWithMultipleRecipes.__init__`. -/
def treeTrade (fl : ℚ → ℚ) (categories : List AgentCategory) (tree : RecipeTree) (prices : List ℚ) : TreeAuction.TradeWithMultipleRecipes :=
  let e := tree.numOfDealsExplained (TreeAuction.sizeAt categories)
  ⟨categories, tree, prices, e.1, e.2.1, e.2.2, treeOptimalTradeGFT fl tree (TreeAuction.valuesAt categories)⟩

/-- `ascending_auction_recipetree_protocol.py:157-190` — the `while True` loop. -/
def treeLoop (fl : ℚ → ℚ) (tree : RecipeTree) :
    ℕ → List AgentCategory → SimultaneousAscendingPriceVectors → Py (Option (List AgentCategory × SimultaneousAscendingPriceVectors))
  | 0, _, _ => .ok none
  | fuel + 1, cats, prices =>
    let (_, combinedSize, indices) := tree.largestCategories (TreeAuction.sizeAt cats)
    if combinedSize = 0 then .ok (some (cats, prices))
    else do
      let incs ← TreeAuction.increases cats indices
      let prices' ← increasePrices fl prices incs
      if prices'.status = some .stoppedAtZeroSum then .ok (some (cats, prices'))
      else do
        let cats' ← TreeAuction.removeLosers cats prices'.prices
        treeLoop fl tree fuel cats' prices'

/-- `ascending_auction_recipetree_protocol.py:73-190` — `budget_balanced_ascending_auction(market, ps_recipe_struct)`. -/
def treeAuction (fl : ℚ → ℚ) (initialPrices : List (List ℕ) → ℚ → Py (List ℚ)) (market : Market) (struct : List PyObj) (fuel : ℕ) :
    Py (Option TreeAuction.TradeWithMultipleRecipes) := do
  let remaining ← market.clone
  let tree ← RecipeTree.init remaining.numCategories struct
  let recipes ← tree.recipes remaining.numCategories
  let _ ← treeOptimalTrade fl tree (TreeAuction.valuesAt remaining.categories)
  let p0 ← initialPrices recipes (-MAX_VALUE)
  let prices ← SimultaneousAscendingPriceVectors.init recipes p0
  match ← treeLoop fl tree fuel remaining.categories prices with
  | none => .ok none
  | some (cats, prices') => .ok (some (treeTrade fl cats tree prices'.prices))

end Auctions.Floating
