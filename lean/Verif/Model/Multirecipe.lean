import Verif.Model.TreeAuction

set_option autoImplicit false

/-!
# Model of `old/ascending_auction_multirecipe_protocol.py`

An older auction for several recipes of zeros and ones. It is run with the current `agents.py`, `markets.py` and `prices.py`.

Two things that the code leaves open are parameters: `initialPrices`, as in `Model/TreeAuction`, and `order`, the order in which Python runs through a set of category indices (given as
an ascending list).
-/

namespace Auctions.Multirecipe

open Auctions

/-- `old/ascending_auction_multirecipe_protocol.py:277` — `containing_recipe_indices` of one category. (Recipes that are too short were rejected before.) -/
def containing (recipes : List (List ℕ)) (category : ℕ) : List ℕ :=
  (List.range recipes.length).filter (fun k => 0 < (recipes.getD k []).getD category 0)

/-- `old/ascending_auction_multirecipe_protocol.py:287` — what `_analyze_recipes` returns. -/
structure Analysis where
  recipeIndices : List (List ℕ)
  common : List ℕ
  unique : List (List ℕ)
  deriving DecidableEq, Repr

/-- `old/ascending_auction_multirecipe_protocol.py:276-286` — the loop over the categories. -/
def analyzeLoop (recipes : List (List ℕ)) : List ℕ → Analysis → Py Analysis
  | [], a => .ok a
  | c :: cs, a =>
    let found := containing recipes c
    let a := { a with recipeIndices := a.recipeIndices ++ [found] }
    if found.length = 0 then analyzeLoop recipes cs a
    else if found.length = 1 then analyzeLoop recipes cs { a with unique := a.unique.modify (found.headD 0) (· ++ [c]) }
    else if found.length = recipes.length then analyzeLoop recipes cs { a with common := a.common ++ [c] }
    else .error .valueError

/-- `old/ascending_auction_multirecipe_protocol.py:248-287` — `_analyze_recipes(num_categories, ps_recipes)`. The sets are ascending lists. -/
def analyzeRecipes (numCategories : ℕ) (recipes : List (List ℕ)) : Py Analysis :=
  analyzeLoop recipes (List.range numCategories) ⟨[], [], List.replicate recipes.length []⟩

/-- `old/ascending_auction_multirecipe_protocol.py:38-51`, `63` — the attributes of `TradeWithMultipleRecipes`. `psRecipes` is the caller's list: it shows which recipes were deleted from it. -/
structure Trade where
  categories : List AgentCategory
  psRecipes : List (List ℕ)
  prices : List ℚ
  numOfDeals : ℕ
  deriving DecidableEq, Repr

/-- `old/ascending_auction_multirecipe_protocol.py:57-60` — `map_recipe_index_to_ps_supported_by_unique_categories`. -/
def supported (cats : List AgentCategory) : List (List ℕ) → Py (List ℕ)
  | [] => .ok []
  | u :: us => do
    let x ← pyMinNat (u.map (TreeAuction.sizeAt cats))
    let xs ← supported cats us
    .ok (x :: xs)

/-- `old/ascending_auction_multirecipe_protocol.py:53-55` — `ps_supported_by_common_categories`. -/
def supportedByCommon (cats : List AgentCategory) (common : List ℕ) : Py ℕ :=
  if 0 < common.length then pyMinNat (common.map (TreeAuction.sizeAt cats)) else .ok 100000000

/-- `old/ascending_auction_multirecipe_protocol.py:43-63` — `TradeWithMultipleRecipes.__init__`. The number of deals is an integer: it is at most a sum of sizes, so the `MAX_VALUE` of
line 55 counts as a natural number. -/
def Trade.init (cats : List AgentCategory) (recipes : List (List ℕ)) (prices : List ℚ) : Py Trade := do
  let a ← analyzeRecipes cats.length recipes
  let common ← supportedByCommon cats a.common
  let unique ← supported cats a.unique
  .ok ⟨cats, recipes, prices, min unique.sum common⟩

/-- `old/ascending_auction_multirecipe_protocol.py:65-66`, `68-78` — `num_of_deals()` is the attribute; `gain_from_trade()`; `none`: `NotImplementedError` is raised. -/
def Trade.gainFromTrade (t : Trade) : Option ℚ := if t.numOfDeals = 0 then some 0 else none

/-- `old/ascending_auction_multirecipe_protocol.py:80-82` — the beginning of `__repr__`. Simplification: the text of other trades is not modelled. -/
def Trade.repr (t : Trade) : Option String := if t.numOfDeals = 0 then some "No trade" else none

/-- `old/ascending_auction_multirecipe_protocol.py:185-187` — `map_recipe_index_to_largest_unique_category_index`. -/
def largestUnique (order : List ℕ → List ℕ) (cats : List AgentCategory) : List (List ℕ) → Py (List ℕ)
  | [] => .ok []
  | u :: us => do
    let x ← pyMaxBy (fun i => (TreeAuction.sizeAt cats i : ℚ)) (order u)
    let xs ← largestUnique order cats us
    .ok (x :: xs)

/-- What one pass through the list of largest unique categories finds (`lines 211-227`): an empty category of recipe `k`, or the list of increases. -/
inductive Plan where
  | delete (k : ℕ)
  | increases (l : List (ℕ × ℚ))
  deriving DecidableEq, Repr

/-- `old/ascending_auction_multirecipe_protocol.py:211-227` — the loop that builds `increases`; `k` is `recipe_index`. -/
def plan (cats : List AgentCategory) : ℕ → List ℕ → List (ℕ × ℚ) → Py Plan
  | _, [], acc => .ok (.increases acc)
  | k, i :: is, acc => do
    let c ← pyGet cats i
    if c.size = 0 then .ok (.delete k)
    else do
      let low ← c.lowestAgentValue
      plan cats (k + 1) is (acc ++ [(i, low)])

/-- `old/ascending_auction_multirecipe_protocol.py:177-182` — `largest_common_category_index` and `largest_common_category_size`. (The index `None` of the case without common categories is
not used: here 0.) -/
def largestCommon (order : List ℕ → List ℕ) (cats : List AgentCategory) (common : List ℕ) : Py (ℕ × ℕ) :=
  if 0 < common.length then do
    let i ← pyMaxBy (fun i => (TreeAuction.sizeAt cats i : ℚ)) (order common)
    .ok (i, TreeAuction.sizeAt cats i)
  else .ok (0, 0)

/-- `old/ascending_auction_multirecipe_protocol.py:202-230` — which prices are raised: that of the common category (in all recipes), or those of the largest unique categories. -/
def decision (numRecipes : ℕ) (cats : List AgentCategory) (common : ℕ × ℕ) (largest : List ℕ) : Py Plan :=
  if (largest.map (TreeAuction.sizeAt cats)).sum ≤ common.2 then do
    let c ← pyGet cats common.1
    let low ← c.lowestAgentValue
    .ok (Plan.increases (List.replicate numRecipes (common.1, low)))
  else plan cats 0 largest []

/-- How the `while` loop ends: it returns the trade for these categories and prices, or it deletes recipe `k` and starts again. -/
inductive Outcome where
  | trade (cats : List AgentCategory) (prices : List ℚ)
  | restart (k : ℕ)
  deriving DecidableEq, Repr

/-- `old/ascending_auction_multirecipe_protocol.py:174-245` — the `while True` loop. The first argument is fuel (`.ok none`: it ran out). The loop that removes agents (`lines 239-244`)
is that of the recipe-tree auction. -/
def loop (order : List ℕ → List ℕ) (numRecipes : ℕ) (a : Analysis) :
    ℕ → List AgentCategory → SimultaneousAscendingPriceVectors → Py (Option Outcome)
  | 0, _, _ => .ok none
  | fuel + 1, cats, prices => do
    let common ← largestCommon order cats a.common
    let largest ← largestUnique order cats a.unique
    if largest.length = 0 then .error .valueError
    else if (largest.map (TreeAuction.sizeAt cats)).sum = 0 then .ok (some (.trade cats prices.prices))
    else do
      match ← decision numRecipes cats common largest with
      | .delete k => .ok (some (.restart k))
      | .increases l => do
        let prices' ← prices.increasePrices l
        if prices'.status = some .stoppedAtZeroSum then .ok (some (.trade cats prices'.prices))
        else do
          let cats' ← TreeAuction.removeLosers cats prices'.prices
          loop order numRecipes a fuel cats' prices'

/-- `old/ascending_auction_multirecipe_protocol.py:141-152` — the recipes that are rejected first. -/
def validRecipes (numCategories : ℕ) (recipes : List (List ℕ)) : Bool :=
  0 < recipes.length && recipes.all (fun r => r.length = numCategories && r.all (fun x => x = 1 || x = 0))

/-- `old/ascending_auction_multirecipe_protocol.py:100-245` — `budget_balanced_ascending_auction(market, ps_recipes)`. The first argument is the number of calls that are allowed: each
deletes a recipe (`.ok none`: there were more, or the fuel of a loop ran out). `lines 220-224`, the case that the last recipe is deleted, end here as if one more call were needed: they
are not reachable (`multirecipe_ends`). -/
def auctionLoop (order : List ℕ → List ℕ) (initialPrices : List (List ℕ) → ℚ → Py (List ℚ)) (market : Market) (fuel : ℕ) :
    ℕ → List (List ℕ) → Py (Option Trade)
  | 0, _ => .ok none
  | calls + 1, recipes => do
    if validRecipes market.numCategories recipes = false then .error .valueError
    else do
      let a ← analyzeRecipes market.numCategories recipes
      let remaining ← market.clone
      let p0 ← initialPrices recipes (-MAX_VALUE)
      let prices ← SimultaneousAscendingPriceVectors.init recipes p0
      match ← loop order recipes.length a fuel remaining.categories prices with
      | none => .ok none
      | some (.trade cats ps) => do
        let t ← Trade.init cats recipes ps
        .ok (some t)
      | some (.restart k) => if recipes.length = 1 then .ok none else auctionLoop order initialPrices market fuel calls (recipes.eraseIdx k)

/-- `old/ascending_auction_multirecipe_protocol.py:100-245` — `budget_balanced_ascending_auction(market, ps_recipes)`. -/
def auction (order : List ℕ → List ℕ) (initialPrices : List (List ℕ) → ℚ → Py (List ℚ)) (market : Market) (recipes : List (List ℕ)) (fuel : ℕ) : Py (Option Trade) :=
  auctionLoop order initialPrices market fuel (recipes.length + 1) recipes

end Auctions.Multirecipe
