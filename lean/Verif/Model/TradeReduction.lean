import Verif.Model.Markets
import Verif.Model.McAfee

set_option autoImplicit false

/-!
# Model of `trade_reduction_protocol.py`
-/

namespace Auctions.TradeReduction

open Auctions

/-- `trade_reduction_protocol.py:25-31` — `convert_category_index`: the loop from index `i` on;
past the end it returns `len(ps_recipe)-1` (for an empty recipe Python returns -1, here 0; unreachable). -/
def convertCategoryIndexLoop : ℕ → ℕ → List ℕ → ℕ
  | i, _, [] => i - 1
  | i, pivot, r :: rs => if pivot < r then i else convertCategoryIndexLoop (i + 1) (pivot - r) rs

/-- `trade_reduction_protocol.py:25-31` — `convert_category_index(ps_recipe, pivot_index)`. -/
def convertCategoryIndex (psRecipe : List ℕ) (pivot : ℕ) : ℕ := convertCategoryIndexLoop 0 pivot psRecipe

/-- `trade_reduction_protocol.py:227-235` — `pivot_indexes`, built from position `total` on. -/
def pivotIndexes : ℕ → List ℕ → List ℕ
  | _, [] => []
  | total, r :: rs => ((List.range r).reverse.map (fun i => total + i)) ++ pivotIndexes (total + r) rs

/-- `trade_reduction_protocol.py:228-235` — `pivot_index_to_category_index`, built from category `index` on. -/
def pivotIndexToCategoryIndex : ℕ → List ℕ → List ℕ
  | _, [] => []
  | index, r :: rs => List.replicate r index ++ pivotIndexToCategoryIndex (index + 1) rs

/-- The variables that the loop `trade_reduction_protocol.py:239-282` updates. -/
structure State where
  remaining : Market
  actualTraders : List AgentCategory
  latestPrices : Option (List ℚ)
  foundExternal : Bool
  deriving DecidableEq, Repr

/-- `actual_traders[pivot_index_to_category_index[pivot_index]].append(pivot_value)`
(`trade_reduction_protocol.py:246`, `261`, `282`). -/
def appendTrader (traders : List AgentCategory) (toCategory : List ℕ) (pivot : ℕ) (value : ℚ) :
    Py (List AgentCategory) := do
  let ci ← pyGet toCategory pivot
  let c ← pyGet traders ci
  .ok (traders.set ci (c.append value))

/-- `trade_reduction_protocol.py:243-276` — the body of the inner loop (the competition search) for one pivot.
`ps[pivot_index] = None` (line 274) is omitted: each position is visited once, so it is never read again. -/
def competeStep (market : Market) (psRecipe toCategory : List ℕ) (includingGft0 : Bool) (ps : List ℚ)
    (s : State) (pivot : ℕ) : Py State := do
  let value ← pyGet ps pivot
  if s.foundExternal then do
    let traders ← appendTrader s.actualTraders toCategory pivot value
    .ok { s with actualTraders := traders }
  else do
    let ci := convertCategoryIndex psRecipe pivot
    let _ ← pyGet market.categories ci
    let best ← s.remaining.bestContainingPS ci value
    let gft ← Market.weightedSum best psRecipe
    if gft > 0 ∨ (includingGft0 = true ∧ gft = 0) then do
      let prices ← market.calculatePricesByExternalCompetition ci value best psRecipe
      let traders ← appendTrader s.actualTraders toCategory pivot value
      .ok { s with foundExternal := true, latestPrices := some prices, actualTraders := traders }
    else do
      let remaining ← s.remaining.appendTrader ci value
      .ok { s with remaining := remaining }

/-- `trade_reduction_protocol.py:280-282` — the body of the inner loop once prices are known. -/
def tradeStep (toCategory : List ℕ) (ps : List ℚ) (s : State) (pivot : ℕ) : Py State := do
  let value ← pyGet ps pivot
  let traders ← appendTrader s.actualTraders toCategory pivot value
  .ok { s with actualTraders := traders }

/-- `trade_reduction_protocol.py:239-282` — the body of the outer loop for one procurement-set. -/
def psStep (market : Market) (psRecipe pivots toCategory : List ℕ) (includingGft0 : Bool) (s : State) (ps : List ℚ) :
    Py State :=
  match s.latestPrices with
  | none => pivots.foldlM (competeStep market psRecipe toCategory includingGft0 ps) s
  | some _ => pivots.foldlM (tradeStep toCategory ps) s

/-- `trade_reduction_protocol.py:34-286` — `budget_balanced_trade_reduction(market, ps_recipe, including_gft_0=True)`. -/
def tradeReduction (market : Market) (psRecipe : List ℕ) (includingGft0 : Bool := true) : Py TradeWithSinglePrice := do
  if psRecipe.length ≠ market.numCategories then .error .valueError
  else do
    let (optimal, remaining) ← market.optimalTrade psRecipe
    if optimal.procurementSets.length = 0 then
      TradeWithSinglePrice.init market.emptyAgentCategories psRecipe (some (List.replicate psRecipe.length 0))
    else do
      let highestNegative ← remaining.getHighestAgents psRecipe
      let (toCompete, remaining) ← match highestNegative with
        | some (x :: xs) => do
          let remaining' ← remaining.removeHighestAgents psRecipe
          .ok ((x :: xs) :: optimal.procurementSets, remaining')
        | _ => .ok (optimal.procurementSets, remaining)
      let remaining := McAfee.padEmpty remaining
      let s : State := ⟨remaining, market.emptyAgentCategories, none, false⟩
      let s ← toCompete.foldlM
        (psStep market psRecipe (pivotIndexes 0 psRecipe) (pivotIndexToCategoryIndex 0 psRecipe) includingGft0) s
      TradeWithSinglePrice.init s.actualTraders psRecipe s.latestPrices

end Auctions.TradeReduction
