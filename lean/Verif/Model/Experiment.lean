import Verif.Model.Ascending
import Verif.Model.McAfee
import Verif.Model.TradeReduction
import Mathlib.Data.Rat.Floor

set_option autoImplicit false

/-!
# Model of `experiment.py` and of the random categories of `agents.py`

The random number generator is an arbitrary function `random`: the theorems hold whatever it returns. Writing the table to a
file (`TeeTable`) is not modelled: the result is the list of rows.
-/

namespace Auctions

/-- Python `round(x)`: the nearest integer, a half to the even one. -/
def pyRound (x : ℚ) : ℤ :=
  if x - ⌊x⌋ < 1 / 2 then ⌊x⌋
  else if 1 / 2 < x - ⌊x⌋ then ⌊x⌋ + 1
  else if ⌊x⌋ % 2 = 0 then ⌊x⌋ else ⌊x⌋ + 1

/-- Python `round(x, 2)`, on exact numbers. -/
def pyRound2 (x : ℚ) : ℚ := (pyRound (x * 100) : ℚ) / 100

/-- Python `int(x)`, which drops the fraction. -/
def pyInt (x : ℚ) : ℤ := if 0 ≤ x then ⌊x⌋ else ⌈x⌉

/-- `agents.py:116-119` — `AgentCategory.uniformly_random(name, num_of_agents, min_value, max_value)`. `random j` is the
`j`-th number between 0 and 1 that the generator returns; `random.uniform(a,b)` is `a + (b-a)*random()`. -/
def AgentCategory.uniformlyRandom (name : String) (numOfAgents : ℕ) (minValue maxValue : ℚ) (random : ℕ → ℚ) : AgentCategory :=
  AgentCategory.init name ((List.range numOfAgents).map fun j => (pyRound (minValue + (maxValue - minValue) * random j) : ℚ))

namespace Experiment

/-- An auction function: `none` stands for not having returned within the fuel of the model. -/
abbrev AuctionFunction := Market → List ℕ → Py (Option TradeWithSinglePrice)

/-- `experiment.py:58-61` — the categories of the market of one iteration, from category `category` on.
`value_ranges[category]` raises `IndexError` when the list is too short. -/
def randomCategories (numOfAgents : ℕ) (valueRanges : List (ℚ × ℚ)) (random : ℕ → ℕ → ℚ) :
    ℕ → List ℕ → Py (List AgentCategory)
  | _, [] => .ok []
  | category, count :: recipe => do
    let range ← pyGet valueRanges category
    let rest ← randomCategories numOfAgents valueRanges random (category + 1) recipe
    .ok (AgentCategory.uniformlyRandom "agent" (numOfAgents * count) range.1 range.2 (random category) :: rest)

/-- `experiment.py:58-61` — the market of one iteration. -/
def randomMarket (recipe : List ℕ) (numOfAgents : ℕ) (valueRanges : List (ℚ × ℚ)) (random : ℕ → ℕ → ℚ) : Py Market := do
  let categories ← randomCategories numOfAgents valueRanges random 0 recipe
  Market.init categories

/-- `experiment.py:55-56` — the sums. -/
structure Sums where
  optimalCount : ℕ
  auctionCount : ℕ
  optimalGft : ℚ
  auctionTotalGft : ℚ
  auctionMarketGft : ℚ
  deriving DecidableEq, Repr

/-- `experiment.py:62-70` — the body of the inner loop after the market has been drawn. -/
def addMarket (auctionFunction : AuctionFunction) (recipe : List ℕ) (market : Market) (s : Sums) : Py (Option Sums) := do
  let (optimal, _) ← market.optimalTrade recipe
  match ← auctionFunction market recipe with
  | none => .ok none
  | some trade => do
    let total ← trade.gainFromTrade true
    let marketGft ← trade.gainFromTrade false
    .ok (some ⟨s.optimalCount + optimal.numOfDeals, s.auctionCount + trade.numOfDeals, s.optimalGft + optimal.gainFromTrade,
      s.auctionTotalGft + total, s.auctionMarketGft + marketGft⟩)

/-- `experiment.py:57-70` — the inner loop, from iteration `i` on, with `fuel` iterations left. -/
def iterations (auctionFunction : AuctionFunction) (recipe : List ℕ) (numOfAgents : ℕ) (valueRanges : List (ℚ × ℚ))
    (random : ℕ → ℕ → ℕ → ℚ) : ℕ → ℕ → Sums → Py (Option Sums)
  | 0, _, s => .ok (some s)
  | n + 1, i, s => do
    let market ← randomMarket recipe numOfAgents valueRanges (random i)
    match ← addMarket auctionFunction recipe market s with
    | none => .ok none
    | some s' => iterations auctionFunction recipe numOfAgents valueRanges random n (i + 1) s'

/-- `experiment.py:74-87` — a row of the table (the name of the auction and the text of the recipe are omitted). -/
structure Row where
  iterations : ℕ
  numOfAgents : ℕ
  meanOptimalCount : ℚ
  meanAuctionCount : ℚ
  countRatio : ℚ
  meanOptimalGft : ℚ
  meanAuctionTotalGft : ℚ
  totalGftRatio : ℚ
  meanAuctionMarketGft : ℚ
  marketGftRatio : ℚ
  deriving DecidableEq, Repr

/-- `experiment.py:74-87` — the row: `ZeroDivisionError` when there are no iterations. -/
def mkRow (numOfIterations numOfAgents : ℕ) (s : Sums) : Py Row := do
  let optimalCount ← pyDiv s.optimalCount numOfIterations
  let auctionCount ← pyDiv s.auctionCount numOfIterations
  let optimalGft ← pyDiv s.optimalGft numOfIterations
  let totalGft ← pyDiv s.auctionTotalGft numOfIterations
  let marketGft ← pyDiv s.auctionMarketGft numOfIterations
  .ok
    { iterations := numOfIterations
      numOfAgents := numOfAgents
      meanOptimalCount := pyRound2 optimalCount
      meanAuctionCount := pyRound2 auctionCount
      countRatio := if s.optimalCount = 0 then 0 else (pyInt ((s.auctionCount : ℚ) / s.optimalCount * 10000) : ℚ) / 100
      meanOptimalGft := pyRound2 optimalGft
      meanAuctionTotalGft := pyRound2 totalGft
      totalGftRatio := if s.optimalGft = 0 then 0 else pyRound2 (s.auctionTotalGft / s.optimalGft * 100)
      meanAuctionMarketGft := pyRound2 marketGft
      marketGftRatio := if s.optimalGft = 0 then 0 else pyRound2 (s.auctionMarketGft / s.optimalGft * 100) }

/-- `experiment.py:54-87` — the outer loop, from row `i` on. `random i j c a` is the number drawn for row `i`, iteration `j`,
category `c`, agent `a`. -/
def rows (auctionFunction : AuctionFunction) (recipe : List ℕ) (valueRanges : List (ℚ × ℚ)) (numOfIterations : ℕ)
    (random : ℕ → ℕ → ℕ → ℕ → ℚ) : ℕ → List ℕ → Py (Option (List Row))
  | _, [] => .ok (some [])
  | i, n :: ns => do
    match ← iterations auctionFunction recipe n valueRanges (random i) numOfIterations 0 ⟨0, 0, 0, 0, 0⟩ with
    | none => .ok none
    | some s => do
      let row ← mkRow numOfIterations n s
      match ← rows auctionFunction recipe valueRanges numOfIterations random (i + 1) ns with
      | none => .ok none
      | some rest => .ok (some (row :: rest))

/-- `experiment.py:41-88` — `experiment(…)`. -/
def experiment (auctionFunction : AuctionFunction) (recipe : List ℕ) (valueRanges : List (ℚ × ℚ)) (numsOfAgents : List ℕ)
    (numOfIterations : ℕ) (random : ℕ → ℕ → ℕ → ℕ → ℚ) : Py (Option (List Row)) :=
  rows auctionFunction recipe valueRanges numOfIterations random 0 numsOfAgents

end Experiment

end Auctions
