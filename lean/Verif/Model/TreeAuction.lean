import Verif.Model.RecipeTree
import Verif.Model.Markets
import Verif.Model.Prices

set_option autoImplicit false

/-!
# Model of `ascending_auction_recipetree_protocol.py`
-/

namespace Auctions.TreeAuction

open Auctions

/-- `categories[i].values`, the values a tree node sees (out of range, which a constructed tree never is: `[]`). -/
def valuesAt (cats : List AgentCategory) (i : ℕ) : List ℚ := match cats[i]? with
  | some c => c.values
  | none => []

/-- `categories[i].size()`, as a tree node sees it. -/
def sizeAt (cats : List AgentCategory) (i : ℕ) : ℕ := match cats[i]? with
  | some c => c.size
  | none => 0

/-- `ascending_auction_recipetree_protocol.py:39-70` — `class TradeWithMultipleRecipes` (its text is in `Model/Reports`).
The tree is bound to `categories`. -/
structure TradeWithMultipleRecipes where
  categories : List AgentCategory
  recipeTree : RecipeTree
  prices : List ℚ
  numOfDeals : ℕ
  kmin : ℕ
  kmax : ℕ
  gainFromTrade : ℚ
  deriving DecidableEq, Repr

/-- `ascending_auction_recipetree_protocol.py:44-50` — `__init__`. -/
def TradeWithMultipleRecipes.init (categories : List AgentCategory) (tree : RecipeTree) (prices : List ℚ) :
    TradeWithMultipleRecipes :=
  let e := tree.numOfDealsExplained (sizeAt categories)
  ⟨categories, tree, prices, e.1, e.2.1, e.2.2, tree.optimalTradeGFT (valuesAt categories)⟩

/-- `ascending_auction_recipetree_protocol.py:172` — `target_price` for one category. -/
def targetPrice (c : AgentCategory) : Py ℚ := if c.size > 0 then c.lowestAgentValue else .ok MAX_VALUE

/-- `ascending_auction_recipetree_protocol.py:169-173` — the list `increases`. -/
def increases (cats : List AgentCategory) : List ℕ → Py (List (ℕ × ℚ))
  | [] => .ok []
  | i :: is => do
    let c ← pyGet cats i
    let t ← targetPrice c
    let rest ← increases cats is
    .ok ((i, t) :: rest)

/-- `ascending_auction_recipetree_protocol.py:185-190` — the loop that removes, from every category that is not empty and whose
lowest value is at most the price, its lowest agent. -/
def removeLosers : List AgentCategory → List ℚ → Py (List AgentCategory)
  | [], _ => .ok []
  | _ :: _, [] => .error .indexError
  | c :: cs, p :: ps => do
    let c' ← if c.size > 0 then do
        let low ← c.lowestAgentValue
        if low ≤ p then c.removeLowestAgent else .ok c
      else .ok c
    let cs' ← removeLosers cs ps
    .ok (c' :: cs')

/-- `ascending_auction_recipetree_protocol.py:157-190` — the `while True` loop. The first argument is fuel: `.ok none` means that
the fuel ran out before the loop ended. -/
def loop (tree : RecipeTree) :
    ℕ → List AgentCategory → SimultaneousAscendingPriceVectors →
      Py (Option (List AgentCategory × SimultaneousAscendingPriceVectors))
  | 0, _, _ => .ok none
  | fuel + 1, cats, prices =>
    let (_, combinedSize, indices) := tree.largestCategories (sizeAt cats)
    if combinedSize = 0 then .ok (some (cats, prices))
    else do
      let incs ← increases cats indices
      let prices' ← prices.increasePrices incs
      if prices'.status = some .stoppedAtZeroSum then .ok (some (cats, prices'))
      else do
        let cats' ← removeLosers cats prices'.prices
        loop tree fuel cats' prices'

/-- `ascending_auction_recipetree_protocol.py:73-190` — `budget_balanced_ascending_auction(market, ps_recipe_struct)`.
`initialPrices recipes bound` stands for `prices.calculate_initial_prices` (`prices.py:240-275`), which calls
`scipy.optimize.linprog`. -/
def auction (initialPrices : List (List ℕ) → ℚ → Py (List ℚ)) (market : Market) (struct : List PyObj) (fuel : ℕ) :
    Py (Option TradeWithMultipleRecipes) := do
  let remaining ← market.clone
  let tree ← RecipeTree.init remaining.numCategories struct
  let recipes ← tree.recipes remaining.numCategories
  let _ ← tree.optimalTrade (valuesAt remaining.categories)
  let p0 ← initialPrices recipes (-MAX_VALUE)
  let prices ← SimultaneousAscendingPriceVectors.init recipes p0
  match ← loop tree fuel remaining.categories prices with
  | none => .ok none
  | some (cats, prices') => .ok (some (TradeWithMultipleRecipes.init cats tree prices'.prices))

end Auctions.TreeAuction
