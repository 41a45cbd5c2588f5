import Verif.Model.TreeExperiment
import Verif.Model.TreeAuctionInteger

set_option autoImplicit false

/-!
# Model of `experiment_ascending_auction_recipetree_integer_random.py`

As in `Model/TreeExperiment`: random numbers are an arbitrary function, the CSV file and the screen output are not modelled, except for the number of lines
`Warning GFT!!!`.
-/

namespace Auctions.IntegerExperiment

open Auctions TreeExperiment

/-- Python `round(x, 5)`. -/
def pyRound5 (x : ℚ) : ℚ := (pyRound (x * 100000) : ℚ) / 100000

/-- `experiment_ascending_auction_recipetree_integer_random.py:83-104` — the body of the inner loop after the market has been drawn. -/
def addMarket (fuel : ℕ) (recipe : List PyObj) (agentCounts : List ℕ) (market : Market) (s : Sums) : Py (Option Sums) := do
  let tree ← IntegerTree.init market.numCategories recipe agentCounts
  let optimal ← IntegerTree.optimalTradeWithCounters tree (IntegerTree.countOf agentCounts) (TreeAuction.valuesAt market.categories)
  match ← IntegerAuction.auction market recipe agentCounts fuel with
  | none => .ok none
  | some trade => do
    let warn ← if optimal.2.count > 0 then do
        let q ← pyDiv (optimal.2.gain * ((optimal.2.kmin : ℚ) - 1)) ((optimal.2.kmin : ℚ) + 2)
        Except.ok (decide (trade.gainFromTrade < q))
      else Except.ok false
    .ok (some ⟨s.optimalCount + optimal.2.count, s.auctionCount + trade.numOfDeals, s.optimalKmin + optimal.2.kmin,
      s.optimalKmax + optimal.2.kmax, s.optimalGft + optimal.2.gain, s.auctionTotalGft + trade.gainFromTrade,
      s.warnings + if warn then 1 else 0⟩)

/-- `experiment_ascending_auction_recipetree_integer_random.py:71-104` — the inner loop, from iteration `i` on. There are as many categories as entries
of `recipe_tree_agent_counts` (line 75). -/
def iterations (fuel : ℕ) (recipe : List PyObj) (treeCounts : List ℕ) (valueRanges : List (ℚ × ℚ)) (numOfAgents : ℕ)
    (agentCounts agentValues : List ℚ) (random : ℕ → ℕ → ℕ → ℚ) : ℕ → ℕ → Sums → Py (Option Sums)
  | 0, _, s => .ok (some s)
  | n + 1, i, s => do
    let market ← randomMarket treeCounts.length valueRanges numOfAgents agentCounts agentValues (random i)
    match ← addMarket fuel recipe treeCounts market s with
    | none => .ok none
    | some s' => iterations fuel recipe treeCounts valueRanges numOfAgents agentCounts agentValues random n (i + 1) s'

/-- `experiment_ascending_auction_recipetree_integer_random.py:113-127` — the row, rounded except for the mean of `kmin`. -/
def mkRow (numOfIterations numOfAgents : ℕ) (s : Sums) : Py Row := do
  let kminMean ← pyDiv s.optimalKmin numOfIterations
  let optimalCount ← pyDiv s.optimalCount numOfIterations
  let kmaxMean ← pyDiv s.optimalKmax numOfIterations
  let formula ← pyDiv (kminMean - 1) (kminMean + 1)
  let auctionCount ← pyDiv s.auctionCount numOfIterations
  let optimalGft ← pyDiv s.optimalGft numOfIterations
  let totalGft ← pyDiv s.auctionTotalGft numOfIterations
  .ok
    { iterations := numOfIterations
      numOfAgents := numOfAgents
      meanOptimalCount := pyRound5 optimalCount
      meanOptimalKmin := kminMean
      meanOptimalKmax := pyRound5 kmaxMean
      gftFormula := if formula > 0 then pyRound5 (formula * 100) else 0
      meanAuctionCount := pyRound5 auctionCount
      countRatio := if s.optimalCount = 0 then 0 else pyRound5 ((s.auctionCount : ℚ) / s.optimalCount * 100)
      meanOptimalGft := pyRound5 optimalGft
      meanAuctionTotalGft := pyRound5 totalGft
      totalGftRatio := if s.optimalGft = 0 then 0 else pyRound5 (s.auctionTotalGft / s.optimalGft * 100)
      warnings := s.warnings }

/-- `experiment_ascending_auction_recipetree_integer_random.py:68-127` — the outer loop, from row `i` on. -/
def rows (fuel : ℕ) (recipe : List PyObj) (treeCounts : List ℕ) (valueRanges : List (ℚ × ℚ)) (agentCounts agentValues : List ℚ)
    (numOfIterations : ℕ) (random : ℕ → ℕ → ℕ → ℕ → ℚ) : ℕ → List ℕ → Py (Option (List Row))
  | _, [] => .ok (some [])
  | i, n :: ns => do
    match ← iterations fuel recipe treeCounts valueRanges n agentCounts agentValues (random i) numOfIterations 0 ⟨0, 0, 0, 0, 0, 0, 0⟩ with
    | none => .ok none
    | some s => do
      let row ← mkRow numOfIterations n s
      match ← rows fuel recipe treeCounts valueRanges agentCounts agentValues numOfIterations random (i + 1) ns with
      | none => .ok none
      | some rest => .ok (some (row :: rest))

/-- `experiment_ascending_auction_recipetree_integer_random.py:48-128` — `experiment(…)`. -/
def experiment (fuel : ℕ) (recipe : List PyObj) (valueRanges : List (ℚ × ℚ)) (numsOfAgents : List ℕ) (numOfIterations : ℕ)
    (agentCounts agentValues : List ℚ) (treeCounts : List ℕ) (random : ℕ → ℕ → ℕ → ℕ → ℚ) : Py (Option (List Row)) :=
  rows fuel recipe treeCounts valueRanges agentCounts agentValues numOfIterations random 0 numsOfAgents

end Auctions.IntegerExperiment
