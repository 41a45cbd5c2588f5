import Verif.Model.Experiment
import Verif.Model.Counters
import Verif.Model.TreeAuction
import Verif.Model.TreeCalculations

set_option autoImplicit false

/-!
# Model of `experiment_ascending_auction_recipetree_random.py`

As in `Model/Experiment`, the random number generator is an arbitrary function, and the table is the list of its rows. The messages that are
printed are not modelled, except that `Sums` and `Row` count the lines `Warning!!!`.
-/

namespace Auctions.TreeExperiment

open Auctions

/-- `experiment_ascending_auction_recipetree_random.py:76-80` — the categories of the market of one iteration, from category `category` on,
`left` categories in all. A number of agents below 0 gives an empty category (`range` of a negative number). A list that is too short raises
`IndexError`. -/
def randomCategories (valueRanges : List (ℚ × ℚ)) (numOfAgents : ℕ) (agentCounts agentValues : List ℚ) (random : ℕ → ℕ → ℚ) :
    ℕ → ℕ → Py (List AgentCategory)
  | _, 0 => .ok []
  | category, left + 1 => do
    let sign := if category = 0 then 0 else 1
    let count ← pyGet agentCounts category
    let range ← pyGet valueRanges sign
    let factor ← pyGet agentValues category
    let rest ← randomCategories valueRanges numOfAgents agentCounts agentValues random (category + 1) left
    .ok (AgentCategory.uniformlyRandom "agent" (pyInt (numOfAgents * count)).toNat (range.1 * factor) (range.2 * factor) (random category)
      :: rest)

/-- `experiment_ascending_auction_recipetree_random.py:75-82` — the market of one iteration, for `numCategories` categories. -/
def randomMarket (numCategories : ℕ) (valueRanges : List (ℚ × ℚ)) (numOfAgents : ℕ) (agentCounts agentValues : List ℚ)
    (random : ℕ → ℕ → ℚ) : Py Market := do
  let categories ← randomCategories valueRanges numOfAgents agentCounts agentValues random 0 numCategories
  Market.init categories

/-- `experiment_ascending_auction_recipetree_random.py:70-71` — the sums; `warnings` is the number of lines `Warning!!!` printed so far. -/
structure Sums where
  optimalCount : ℕ
  auctionCount : ℕ
  optimalKmin : ℕ
  optimalKmax : ℕ
  optimalGft : ℚ
  auctionTotalGft : ℚ
  warnings : ℕ
  deriving DecidableEq, Repr

/-- `experiment_ascending_auction_recipetree_random.py:84-110` — the body of the inner loop after the market has been drawn. -/
def addMarket (initialPrices : List (List ℕ) → ℚ → Py (List ℚ)) (fuel : ℕ) (recipe : List PyObj) (market : Market) (s : Sums) :
    Py (Option Sums) := do
  let tree ← RecipeTree.init market.numCategories recipe
  let optimal := tree.optimalTradeWithCounters (TreeAuction.valuesAt market.categories)
  match ← TreeAuction.auction initialPrices market recipe fuel with
  | none => .ok none
  | some trade =>
    .ok (some ⟨s.optimalCount + optimal.count, s.auctionCount + trade.numOfDeals, s.optimalKmin + optimal.kmin, s.optimalKmax + optimal.kmax,
      s.optimalGft + optimal.gain, s.auctionTotalGft + trade.gainFromTrade,
      s.warnings + if (trade.numOfDeals : ℤ) < optimal.count - 2 then 1 else 0⟩)

/-- `experiment_ascending_auction_recipetree_random.py:72-110` — the inner loop, from iteration `i` on. -/
def iterations (initialPrices : List (List ℕ) → ℚ → Py (List ℚ)) (fuel : ℕ) (recipe : List PyObj) (numCategories : ℕ)
    (valueRanges : List (ℚ × ℚ)) (numOfAgents : ℕ) (agentCounts agentValues : List ℚ) (random : ℕ → ℕ → ℕ → ℚ) :
    ℕ → ℕ → Sums → Py (Option Sums)
  | 0, _, s => .ok (some s)
  | n + 1, i, s => do
    let market ← randomMarket numCategories valueRanges numOfAgents agentCounts agentValues (random i)
    match ← addMarket initialPrices fuel recipe market s with
    | none => .ok none
    | some s' => iterations initialPrices fuel recipe numCategories valueRanges numOfAgents agentCounts agentValues random n (i + 1) s'

/-- `experiment_ascending_auction_recipetree_random.py:115-128` — a row of the table (without the text of the recipe), and the number of lines
`Warning!!!` printed while it was computed. -/
structure Row where
  iterations : ℕ
  numOfAgents : ℕ
  meanOptimalCount : ℚ
  meanOptimalKmin : ℚ
  meanOptimalKmax : ℚ
  gftFormula : ℚ
  meanAuctionCount : ℚ
  countRatio : ℚ
  meanOptimalGft : ℚ
  meanAuctionTotalGft : ℚ
  totalGftRatio : ℚ
  warnings : ℕ
  deriving DecidableEq, Repr

/-- `experiment_ascending_auction_recipetree_random.py:114-128` — the row: `ZeroDivisionError` when there are no iterations. -/
def mkRow (numOfIterations numOfAgents : ℕ) (s : Sums) : Py Row := do
  let kminMean ← pyDiv s.optimalKmin numOfIterations
  let optimalCount ← pyDiv s.optimalCount numOfIterations
  let kmaxMean ← pyDiv s.optimalKmax numOfIterations
  let formula ← pyDiv (kminMean - 1) (kminMean + 1)
  let auctionCount ← pyDiv s.auctionCount numOfIterations
  let optimalGft ← pyDiv s.optimalGft numOfIterations
  let totalGft ← pyDiv s.auctionTotalGft numOfIterations
  .ok
    { iterations := numOfIterations
      numOfAgents := numOfAgents
      meanOptimalCount := optimalCount
      meanOptimalKmin := kminMean
      meanOptimalKmax := kmaxMean
      gftFormula := if formula > 0 then formula * 100 else 0
      meanAuctionCount := auctionCount
      countRatio := if s.optimalCount = 0 then 0 else (s.auctionCount : ℚ) / s.optimalCount * 100
      meanOptimalGft := optimalGft
      meanAuctionTotalGft := totalGft
      totalGftRatio := if s.optimalGft = 0 then 0 else s.auctionTotalGft / s.optimalGft * 100
      warnings := s.warnings }

/-- `experiment_ascending_auction_recipetree_random.py:69-128` — the outer loop, from row `i` on. -/
def rows (initialPrices : List (List ℕ) → ℚ → Py (List ℚ)) (fuel : ℕ) (recipe : List PyObj) (numCategories : ℕ)
    (valueRanges : List (ℚ × ℚ)) (agentCounts agentValues : List ℚ) (numOfIterations : ℕ) (random : ℕ → ℕ → ℕ → ℕ → ℚ) :
    ℕ → List ℕ → Py (Option (List Row))
  | _, [] => .ok (some [])
  | i, n :: ns => do
    match ← iterations initialPrices fuel recipe numCategories valueRanges n agentCounts agentValues (random i) numOfIterations 0
        ⟨0, 0, 0, 0, 0, 0, 0⟩ with
    | none => .ok none
    | some s => do
      let row ← mkRow numOfIterations n s
      match ← rows initialPrices fuel recipe numCategories valueRanges agentCounts agentValues numOfIterations random (i + 1) ns with
      | none => .ok none
      | some rest => .ok (some (row :: rest))

/-- `experiment_ascending_auction_recipetree_random.py:48-129` — `experiment(…)`. The numbers of categories and of children are computed first
(lines 67-68); `children_counts` is not used afterwards. -/
def experiment (initialPrices : List (List ℕ) → ℚ → Py (List ℚ)) (fuel : ℕ) (recipe : List PyObj) (valueRanges : List (ℚ × ℚ))
    (numsOfAgents : List ℕ) (numOfIterations : ℕ) (agentCounts agentValues : List ℚ) (random : ℕ → ℕ → ℕ → ℕ → ℚ) :
    Py (Option (List Row)) := do
  let categorySizeList ← TreeCalculations.getAgentsAnalyze recipe
  let _ ← TreeCalculations.getChildrenCounts recipe categorySizeList.length
  rows initialPrices fuel recipe categorySizeList.length valueRanges agentCounts agentValues numOfIterations random 0 numsOfAgents

end Auctions.TreeExperiment
