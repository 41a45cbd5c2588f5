import Verif.Model.Heap

set_option autoImplicit false

/-!
# The recipe trees and the two tree auctions, with explicit objects

A node of a recipe tree refers to a category object of the market on which the tree was built (`recipetree.py:169`,
`recipetree_integer.py:295`): `cats` is that market's list of category references, and a node of category index `i` refers to `cats[i]`.
-/

namespace Auctions.Heap

open Auctions

/-- The concatenated contents of list objects (`sum(lists, [])`, as a value). -/
def readLists : List ℕ → HPy (List ℚ)
  | [] => pure []
  | l :: ls => do
    let vs ← readList l
    let rest ← readLists ls
    pure (vs ++ rest)

/-- `recipetree.py:229-242` — `combined_values()` for each tree of a forest: the list OBJECTS that the calls return. A leaf returns the list
object of its category itself (line 237); an inner node builds the list `sum(..., [])`, sorts it in place, and returns a new list. -/
def combinedValues (cats : List ℕ) : Forest → HPy (List ℕ)
  | .nil => pure []
  | .cons i ch siblings => do
    let r ← lift (pyGet cats i)
    let o ← readCat r
    let l ← match ch with
      | .nil => pure o.values
      | .cons .. => do
        let ls ← combinedValues cats ch
        let vs ← readLists ls
        let s ← newList vs
        writeList s (sortDesc vs)
        let selfValues ← readList o.values
        let childrenValues ← readList s
        newList (List.zipWith (· + ·) selfValues childrenValues)
    let rest ← combinedValues cats siblings
    pure (l :: rest)

/-- `recipetree.py:334-338` — `optimal_trade_GFT()`. -/
def treeGFT (cats : List ℕ) (tree : RecipeTree) : HPy ℚ := do
  let ls ← combinedValues cats tree.forest
  let vs ← readLists ls
  pure (vs.filter (fun v => v ≥ 0)).sum

/-- The values of all categories at this moment. -/
def allValues : List ℕ → HPy (List (List ℚ))
  | [] => pure []
  | r :: rs => do
    let vs ← values r
    let rest ← allValues rs
    pure (vs :: rest)

/-- `recipetree.py:321-332` — `optimal_trade()`. It only reads the categories: the list that `combined_values_detailed` sorts is the new list
`sum(..., [])` (lines 290-292), which is a value here. -/
def treeOptimalTrade (cats : List ℕ) (tree : RecipeTree) : HPy (List (List ℚ) × ℕ × ℚ) := do
  let vss ← allValues cats
  lift (tree.optimalTrade (fun i => vss.getD i []))

/-- A `TradeWithMultipleRecipes` object (`ascending_auction_recipetree_protocol.py:44-50`): it keeps the list of category references. -/
structure TreeTrade where
  categories : List ℕ
  recipeTree : RecipeTree
  prices : List ℚ
  numOfDeals : ℕ
  kmin : ℕ
  kmax : ℕ
  gainFromTrade : ℚ

/-- `ascending_auction_recipetree_protocol.py:44-50` — `TradeWithMultipleRecipes(categories, recipe_tree, prices)`. -/
def newTreeTrade (cats : List ℕ) (tree : RecipeTree) (prices : List ℚ) : HPy TreeTrade := do
  let ss ← sizes cats
  let e := tree.numOfDealsExplained (fun i => ss.getD i 0)
  let gft ← treeGFT cats tree
  pure ⟨cats, tree, prices, e.1, e.2.1, e.2.2, gft⟩

/-- `ascending_auction_recipetree_protocol.py:172` — `target_price` for one category. -/
def targetPrice (r : ℕ) : HPy ℚ := do
  let s ← size r
  if s > 0 then lowestAgentValue r else pure MAX_VALUE

/-- `ascending_auction_recipetree_protocol.py:169-173` — the list `increases`. -/
def increases (cats : List ℕ) : List ℕ → HPy (List (ℕ × ℚ))
  | [] => pure []
  | i :: is => do
    let r ← lift (pyGet cats i)
    let t ← targetPrice r
    let rest ← increases cats is
    pure ((i, t) :: rest)

/-- `ascending_auction_recipetree_protocol.py:185-190` — removal of the agents below the prices, in place. -/
def removeLosers : List ℕ → List ℚ → HPy Unit
  | [], _ => pure ()
  | _ :: _, [] => lift (.error .indexError)
  | c :: cs, p :: ps => do
    let s ← size c
    if s > 0 then do
      let low ← lowestAgentValue c
      if low ≤ p then do
        removeLowestAgent c
        removeLosers cs ps
      else removeLosers cs ps
    else removeLosers cs ps

/-- `ascending_auction_recipetree_protocol.py:157-190` — the `while True` loop, with fuel. -/
def treeLoop (cats : List ℕ) (tree : RecipeTree) :
    ℕ → SimultaneousAscendingPriceVectors → HPy (Option SimultaneousAscendingPriceVectors)
  | 0, _ => pure none
  | fuel + 1, prices => do
    let ss ← sizes cats
    let largest := tree.largestCategories (fun i => ss.getD i 0)
    if largest.2.1 = 0 then pure (some prices)
    else do
      let incs ← increases cats largest.2.2
      let prices' ← lift (prices.increasePrices incs)
      if prices'.status = some .stoppedAtZeroSum then pure (some prices')
      else do
        removeLosers cats prices'.prices
        treeLoop cats tree fuel prices'

/-- `ascending_auction_recipetree_protocol.py:73-190` — `budget_balanced_ascending_auction(market, ps_recipe_struct)`. -/
def treeAuction (initialPrices : List (List ℕ) → ℚ → Py (List ℚ)) (m : List ℕ) (struct : List PyObj) (fuel : ℕ) :
    HPy (Option TreeTrade) := do
  let remaining ← clone m
  let tree ← lift (RecipeTree.init remaining.length struct)
  let recipes ← lift (tree.recipes remaining.length)
  let _ ← treeOptimalTrade remaining tree
  let p0 ← lift (initialPrices recipes (-MAX_VALUE))
  let prices ← lift (SimultaneousAscendingPriceVectors.init recipes p0)
  let out ← treeLoop remaining tree fuel prices
  match out with
  | none => pure none
  | some prices' => do
    let t ← newTreeTrade remaining tree prices'.prices
    pure (some t)

/-! ### `recipetree_integer.py`, `ascending_auction_recipetree_integer_protocol.py` -/

/-- `recipetree_integer.py:357-381` — `combined_values()`, concatenated over the trees of a forest. Line 364 sorts the list object of the
category in place. The lists of sets are built by the function; they are values here. -/
def integerCombinedValues (cats : List ℕ) (cnt : ℕ → ℕ) : Forest → HPy (List (List ℚ))
  | .nil => pure []
  | .cons i ch siblings => do
    let r ← lift (pyGet cats i)
    let o ← readCat r
    let vs ← readList o.values
    writeList o.values (sortDesc vs)
    let selfValues ← readList o.values
    let sets := IntegerTree.sortBySumDesc (IntegerTree.blocks (cnt i) [] selfValues)
    let own ← match ch with
      | .nil => pure sets
      | .cons .. => do
        let childrenValues ← integerCombinedValues cats cnt ch
        pure (List.zipWith (· ++ ·) sets (IntegerTree.sortBySumDesc childrenValues))
    let rest ← integerCombinedValues cats cnt siblings
    pure (own ++ rest)

/-- `recipetree_integer.py:416-445` — `combined_values_detailed()`; line 425 sorts the list object of the category in place. -/
def integerCombinedValuesDetailed (cats : List ℕ) (cnt : ℕ → ℕ) (tree : RecipeTree) : HPy (List (List ℚ)) := do
  let r ← lift (pyGet cats tree.index)
  let o ← readCat r
  let vs ← readList o.values
  writeList o.values (sortDesc vs)
  let selfValues ← readList o.values
  let sets := IntegerTree.blocks (cnt tree.index) [] selfValues
  match tree.children with
  | .nil => pure sets
  | .cons .. => do
    let childrenValues ← integerCombinedValues cats cnt tree.children
    pure (List.zipWith (· ++ ·) sets (IntegerTree.sortBySumDesc childrenValues))

/-- `recipetree_integer.py:472-483` — `optimal_trade()`. -/
def integerOptimalTrade (cats : List ℕ) (cnt : ℕ → ℕ) (tree : RecipeTree) : HPy (List (List ℚ) × ℕ × ℚ) := do
  let vs ← integerCombinedValuesDetailed cats cnt tree
  let deals := vs.filter (fun vs => vs.sum ≥ 0)
  pure (deals, deals.length, deals.flatten.sum)

/-- `recipetree_integer.py:485-489` — `optimal_trade_GFT()`. -/
def integerGFT (cats : List ℕ) (cnt : ℕ → ℕ) (tree : RecipeTree) : HPy ℚ := do
  let vs ← integerCombinedValues cats cnt tree.forest
  pure ((vs.filter (fun vs => vs.sum ≥ 0)).map List.sum).sum

/-- `ascending_auction_recipetree_integer_protocol.py:40-52` — `TradeWithMultipleRecipes(categories, recipe_tree, prices)`. -/
def newIntegerTrade (cats : List ℕ) (cnt : ℕ → ℕ) (tree : RecipeTree) (prices : List ℚ) : HPy TreeTrade := do
  let ss ← sizes cats
  let e := (IntegerTree.numOfDealsExplained cnt (fun i => ss.getD i 0) tree.forest).headD (0, 0, 0)
  let gft ← integerGFT cats cnt tree
  pure ⟨cats, tree, prices, e.1, e.2.1, e.2.2, gft⟩

/-- `ascending_auction_recipetree_integer_protocol.py:161-195` — the `while True` loop, with fuel. -/
def integerLoop (cats : List ℕ) (cnt : ℕ → ℕ) (tree : RecipeTree) :
    ℕ → IntegerPrices.SimultaneousAscendingPriceVectors → HPy (Option IntegerPrices.SimultaneousAscendingPriceVectors)
  | 0, _ => pure none
  | fuel + 1, prices => do
    let ss ← sizes cats
    let largest := IntegerTree.largestCategories cnt (fun i => ss.getD i 0) tree.forest
    if largest.2.1 = 0 then pure (some prices)
    else do
      let incs ← increases cats largest.2.2
      let prices' ← lift (prices.increasePrices incs)
      if prices'.status = some .stoppedAtZeroSum then pure (some prices')
      else do
        removeLosers cats prices'.prices
        integerLoop cats cnt tree fuel prices'

/-- `ascending_auction_recipetree_integer_protocol.py:75-195` — `budget_balanced_ascending_auction(market, ps_recipe_struct, agent_counts)`,
including the call `recipe_tree.optimal_trade()` of line 154. -/
def integerAuction (m : List ℕ) (struct : List PyObj) (agentCounts : List ℕ) (fuel : ℕ) : HPy (Option TreeTrade) := do
  let remaining ← clone m
  let tree ← lift (IntegerTree.init remaining.length struct agentCounts)
  let recipes ← lift (IntegerTree.recipes tree remaining.length agentCounts)
  let _ ← integerOptimalTrade remaining (IntegerTree.countOf agentCounts) tree
  let prices ← lift (IntegerPrices.SimultaneousAscendingPriceVectors.init recipes (-MAX_VALUE) [])
  let out ← integerLoop remaining (IntegerTree.countOf agentCounts) tree fuel prices
  match out with
  | none => pure none
  | some prices' => do
    let t ← newIntegerTrade remaining (IntegerTree.countOf agentCounts) tree prices'.prices
    pure (some t)

end Auctions.Heap
