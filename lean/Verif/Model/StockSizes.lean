import Verif.Model.StockExperiment

set_option autoImplicit false

/-!
# Model of `stock/experiment_compare_iterations_autions_without_mcafee.py`

The prices are the argument `stocks_prices`, as lists of exact numbers, and `nums_of_agents` is given. The names of the auctions only occur in the
column names; they and the text of the recipe are not modelled, nor are the CSV file and what is printed, except for the number of warnings.
-/

namespace Auctions.StockSizes

open Experiment (AuctionFunction)

/-- What lines 85-108 of `stock/experiment_compare_iterations_autions_without_mcafee.py` (lines 101-130 of `stock/experiment_compare_sbb_shufled_stock.py`)
measure on one market: `optimal_count`, `optimal_count_with_gft_zero`, `optimal_gft`, and for each auction the number of deals and the gain without the auctioneer. -/
structure Measures where
  optimalCount : ℕ
  optimalCountWithZero : ℕ
  optimalGft : ℚ
  auctions : List (ℕ × ℚ)
  deriving DecidableEq, Repr

/-- `stock/experiment_compare_iterations_autions_without_mcafee.py:95-108` (and `stock/experiment_compare_sbb_shufled_stock.py:111-130`) — the auctions,
one after the other. -/
def runAuctions (recipe : List ℕ) (market : Market) : List AuctionFunction → Py (Option (List (ℕ × ℚ)))
  | [] => .ok (some [])
  | auctionFunction :: rest => do
    match ← auctionFunction market recipe with
    | none => .ok none
    | some trade => do
      let gft ← trade.gainFromTrade false
      match ← runAuctions recipe market rest with
      | none => .ok none
      | some others => .ok (some ((trade.numOfDeals, gft) :: others))

/-- `stock/experiment_compare_iterations_autions_without_mcafee.py:85-108` (and `stock/experiment_compare_sbb_shufled_stock.py:101-130`) — the measures
on one market, and the name of the stock. -/
def measure (auctions : List AuctionFunction) (recipe : List ℕ) (stockNames : List String) (i : ℕ) (market : Market) : Py (Option (String × Measures)) := do
  let (optimal, _) ← market.optimalTrade recipe 10000000 false
  let (optimalWithZero, _) ← market.optimalTrade recipe 10000000
  let name ← pyGet stockNames i
  match ← runAuctions recipe market auctions with
  | none => .ok none
  | some outcomes => .ok (some (name, ⟨optimal.numOfDeals, optimalWithZero.numOfDeals, optimal.gainFromTrade, outcomes⟩))

/-- `stock/experiment_compare_iterations_autions_without_mcafee.py:109-113` — the four entries for an auction; `round(k, 2)` of an integer is the integer. -/
structure Columns where
  count : ℕ
  countRatio : ℚ
  gft : ℚ
  gftRatio : ℚ
  deriving DecidableEq, Repr

/-- `stock/experiment_compare_iterations_autions_without_mcafee.py:91-113` — a row of the table. -/
structure Row where
  stockName : String
  numPossibleTrades : ℕ
  optimalCount : ℕ
  optimalCountWithZero : ℕ
  optimalGft : ℚ
  auctions : List Columns
  deriving DecidableEq, Repr

/-- `stock/experiment_compare_iterations_autions_without_mcafee.py:91-113`. -/
def mkRow (name : String) (numOfPossiblePs : ℕ) (x : Measures) : Row :=
  { stockName := name
    numPossibleTrades := numOfPossiblePs
    optimalCount := x.optimalCount
    optimalCountWithZero := x.optimalCountWithZero
    optimalGft := pyRound2 x.optimalGft
    auctions := x.auctions.map fun a =>
      { count := a.1
        countRatio := if x.optimalCountWithZero = 0 then 0 else (pyInt ((a.1 : ℚ) / x.optimalCountWithZero * 100000) : ℚ) / 1000
        gft := pyRound2 a.2
        gftRatio := if x.optimalGft = 0 then 0 else pyRound3 (a.2 / x.optimalGft * 100) } }

/-- `stock/experiment_compare_iterations_autions_without_mcafee.py:100` — how often the warning is printed for one market. -/
def warnings (x : Measures) : ℕ := (x.auctions.filter fun a => a.1 > x.optimalCountWithZero).length

/-- `stock/experiment_compare_iterations_autions_without_mcafee.py:84` — the categories with the first `n*recipe[j]` prices, from category `j` on. -/
def slices (n : ℕ) (recipe : List ℕ) : ℕ → List (List ℚ) → Py (List AgentCategory)
  | _, [] => .ok []
  | j, prices :: rest => do
    let count ← pyGet recipe j
    let others ← slices n recipe (j + 1) rest
    .ok (AgentCategory.init "agent" (prices.take (n * count)) :: others)

/-- `stock/experiment_compare_iterations_autions_without_mcafee.py:77-84` — the categories: all prices if there are too few buyers. -/
def categories (n : ℕ) (tooLarge : Bool) (recipe : List ℕ) (prices : List (List ℚ)) : Py (List AgentCategory) :=
  if tooLarge then .ok (prices.map (AgentCategory.init "agent")) else slices n recipe 0 prices

/-- `stock/experiment_compare_iterations_autions_without_mcafee.py:73-115` — the loop over the sizes for one stock; `last` is `last_iteration`. -/
def sizes (auctions : List AuctionFunction) (recipe : List ℕ) (stockNames : List String) (i : ℕ) (prices : List (List ℚ)) :
    Bool → List ℕ → Py (Option (List Row × ℕ))
  | _, [] => .ok (some ([], 0))
  | last, n :: ns => do
    let first ← pyGet prices 0
    let numOfPossiblePs := min n first.length
    if last = true ∧ numOfPossiblePs < n then .ok (some ([], 0))
    else do
      let cats ← categories numOfPossiblePs (decide (numOfPossiblePs < n)) recipe prices
      let market ← Market.init cats
      match ← measure auctions recipe stockNames i market with
      | none => .ok none
      | some (name, x) => do
        match ← sizes auctions recipe stockNames i prices (last || decide (numOfPossiblePs < n)) ns with
        | none => .ok none
        | some (table, w) => .ok (some (mkRow name numOfPossiblePs x :: table, warnings x + w))

/-- `stock/experiment_compare_iterations_autions_without_mcafee.py:71-115` — the loop over the stocks, from number `i` on. -/
def stocks (auctions : List AuctionFunction) (recipe : List ℕ) (stockNames : List String) (numsOfAgents : List ℕ) :
    ℕ → List (List (List ℚ)) → Py (Option (List Row × ℕ))
  | _, [] => .ok (some ([], 0))
  | i, prices :: rest => do
    match ← sizes auctions recipe stockNames i prices false numsOfAgents with
    | none => .ok none
    | some (table, w) => do
      match ← stocks auctions recipe stockNames numsOfAgents (i + 1) rest with
      | none => .ok none
      | some (table', w') => .ok (some (table ++ table', w + w'))

/-- `stock/experiment_compare_iterations_autions_without_mcafee.py:46-116` — `experiment(…)`: the rows and the number of warnings. -/
def experiment (auctions : List AuctionFunction) (recipe : List ℕ) (numsOfAgents : List ℕ) (stocksPrices : List (List (List ℚ))) (stockNames : List String) :
    Py (Option (List Row × ℕ)) :=
  stocks auctions recipe stockNames numsOfAgents 0 stocksPrices

end Auctions.StockSizes
