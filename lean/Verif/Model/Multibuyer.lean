import Verif.Model.Markets
import Verif.Model.Prices

set_option autoImplicit false

/-!
# Model of `old/ascending_auction_multibuyer_protocol.py`

An older auction for markets with several buyer categories and one seller category (the last one). It is run with the current `agents.py`, `markets.py` and `prices.py`.
-/

namespace Auctions.Multibuyer

open Auctions

/-- `old/ascending_auction_multibuyer_protocol.py:230-241` — the loop over the buyers' entries of one recipe. `i` is the index of the first entry of the list, `found` is
`nonzero_element_found`. Simplification: entries are non-negative integers. -/
def convertEntries (sellers : ℕ) : ℕ → Bool → List ℕ → List ℕ → Py (List ℕ)
  | _, _, [], counts => .ok counts
  | i, found, x :: xs, counts =>
    if x = 0 then convertEntries sellers (i + 1) found xs counts
    else if found then .error .valueError
    else if x ≠ 1 then .error .valueError
    else do
      let c ← pyGet counts i
      if c ≠ 0 then .error .valueError
      else convertEntries sellers (i + 1) true xs (counts.set i sellers)

/-- `old/ascending_auction_multibuyer_protocol.py:220-241` — the loop over the recipes. Simplification: every recipe is a list (the code raises `ValueError` for other types). -/
def convertRecipes (numCategories : ℕ) : List (List ℕ) → List ℕ → Py (List ℕ)
  | [], counts => .ok counts
  | r :: rs, counts =>
    if r.length ≠ numCategories then .error .valueError
    else do
      let sellers ← match r.getLast? with
        | none => .error .indexError
        | some x => .ok x
      let counts' ← convertEntries sellers 0 false r.dropLast counts
      convertRecipes numCategories rs counts'

/-- `old/ascending_auction_multibuyer_protocol.py:211-242` — `_convert_recipes_to_seller_counts(ps_recipes, num_categories)`. -/
def convertRecipesToSellerCounts (psRecipes : List (List ℕ)) (numCategories : ℕ) : Py (List ℕ) :=
  convertRecipes numCategories psRecipes (List.replicate (numCategories - 1) 0)

/-- The objects that the loops change: the buyer categories, the seller category and the price vector (`lines 146-152`). -/
structure State where
  buyers : List AgentCategory
  seller : AgentCategory
  prices : AscendingPriceVector
  deriving DecidableEq, Repr

/-- `old/ascending_auction_multibuyer_protocol.py:44`, `158`, `168` — `num_units_demanded`. -/
def unitsDemanded (counts : List ℕ) (buyers : List AgentCategory) : ℕ := (List.zipWith (fun c k => c.size * k) buyers counts).sum

/-- `old/ascending_auction_multibuyer_protocol.py:172`, `[category.lowest_agent_value() for category in buyer_categories]`. -/
def lowestValues : List AgentCategory → Py (List ℚ)
  | [] => .ok []
  | c :: cs => do
    let x ← c.lowestAgentValue
    let xs ← lowestValues cs
    .ok (x :: xs)

/-- `old/ascending_auction_multibuyer_protocol.py:174`, `[value / count for value,count in zip(…)]`. -/
def valuesPerUnit : List ℚ → List ℕ → Py (List ℚ)
  | v :: vs, c :: cs => do
    let x ← pyDiv v c
    let xs ← valuesPerUnit vs cs
    .ok (x :: xs)
  | _, _ => .ok []

/-- `old/ascending_auction_multibuyer_protocol.py:163-194` — the loops. The first argument is fuel (one unit per round of an inner loop; `.ok none`: it ran out); the second
tells whether the buyers' loop (`167-181`) or the sellers' loop (`186-193`) is running; the third is `target_unit_count`. The result is the state in which
`EmptyCategoryException` was raised, which is caught. (`target_unit_count` is at least 1 when it is decreased.) -/
def run (counts : List ℕ) : ℕ → Bool → ℕ → State → Py (Option State)
  | 0, _, _, _ => .ok none
  | fuel + 1, true, target, s =>
    if unitsDemanded counts s.buyers = 0 then .ok (some s)
    else if unitsDemanded counts s.buyers ≤ target then run counts fuel false target s
    else do
      let lows ← lowestValues s.buyers
      let perUnit ← valuesPerUnit lows counts
      -- `min(range(n), key=…)`: the first index with the smallest value
      let i ← pyMaxBy (fun i => -(perUnit.getD i 0)) (List.range s.buyers.length)
      let category ← pyGet s.buyers i
      let lowest ← category.lowestAgentValue
      let count ← pyGet counts i
      let price ← pyDiv lowest count
      let prices ← s.prices.increasePriceUpToBalance 0 price
      let category' ← category.removeLowestAgent
      run counts fuel true target { s with buyers := s.buyers.set i category', prices := prices }
  | fuel + 1, false, target, s =>
    if s.seller.size = 0 then .ok (some s)
    else if s.seller.size ≤ target then run counts fuel true (target - 1) s
    else do
      let lowest ← s.seller.lowestAgentValue
      let prices ← s.prices.increasePriceUpToBalance 1 lowest
      let seller ← s.seller.removeLowestAgent
      run counts fuel false target { s with seller := seller, prices := prices }

/-- `old/ascending_auction_multibuyer_protocol.py:31-45` — the attributes of `TradeWithMultipleRecipes`. -/
structure Trade where
  categories : List AgentCategory
  prices : List ℚ
  numUnitsOffered : ℕ
  numUnitsDemanded : ℕ
  deriving DecidableEq, Repr

/-- `old/ascending_auction_multibuyer_protocol.py:36-45` — `TradeWithMultipleRecipes.__init__`; the last category are the sellers. -/
def Trade.init (buyers : List AgentCategory) (seller : AgentCategory) (counts : List ℕ) (prices : List ℚ) : Trade :=
  ⟨buyers ++ [seller], prices, seller.size, unitsDemanded counts buyers⟩

/-- `old/ascending_auction_multibuyer_protocol.py:45-48` — `num_of_deals()`. -/
def Trade.numOfDeals (t : Trade) : ℕ := min t.numUnitsOffered t.numUnitsDemanded

/-- `old/ascending_auction_multibuyer_protocol.py:50-60` — `gain_from_trade()`; `none`: `NotImplementedError` is raised. -/
def Trade.gainFromTrade (t : Trade) : Option ℚ := if t.numOfDeals = 0 then some 0 else none

/-- `old/ascending_auction_multibuyer_protocol.py:62-65` — the beginning of `__repr__`. Simplification: the text of other trades is not modelled. -/
def Trade.repr (t : Trade) : Option String := if t.numOfDeals = 0 then some "No trade" else none

/-- `old/ascending_auction_multibuyer_protocol.py:84-207` — `budget_balanced_ascending_auction(market, ps_recipes)`. -/
def auction (market : Market) (psRecipes : List (List ℕ)) (fuel : ℕ) : Py (Option Trade) := do
  let counts ← convertRecipesToSellerCounts psRecipes market.numCategories
  let remaining ← market.clone
  let seller ← match remaining.categories.getLast? with
    | none => .error .indexError
    | some c => .ok c
  let buyers := remaining.categories.dropLast
  let target := min (unitsDemanded counts buyers) seller.size
  match ← run counts fuel true target ⟨buyers, seller, AscendingPriceVector.init [1, 1] (-MAX_VALUE)⟩ with
  | none => .ok none
  | some s => do
    let buyerPrice ← pyGet s.prices.prices 0
    let sellerPrice ← pyGet s.prices.prices 1
    .ok (some (Trade.init s.buyers s.seller counts (counts.map (fun (k : ℕ) => buyerPrice * (k : ℚ)) ++ [sellerPrice])))

end Auctions.Multibuyer
