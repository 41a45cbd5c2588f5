import Verif.Model.TreeExperiment

set_option autoImplicit false

/-!
# Model of `experiment_ascending_auction_recipetree_stock.py` and of `get_prices_tree` of `get_stocks_data.py`

The prices of the stocks are the argument `stocks_prices`, as lists of exact numbers. `random.shuffle` is an arbitrary function `shuffle i it j` from
lists to lists, for category `j` in iteration `it` of stock `i`. What is printed is not modelled, except for the number of lines
`Warning count!!!`. `recipe_str`, the text of the recipe, is left out of the rows.
-/

namespace Auctions

/-- Python `l[0:k]`; a negative `k` counts from the end. -/
def pySlice (l : List ℚ) (k : ℤ) : List ℚ := if 0 ≤ k then l.take k.toNat else l.take (l.length - (-k).toNat)

namespace TreeStockExperiment

/-- `experiment_ascending_auction_recipetree_stock.py:119-130` — the list `results` (without the text of the recipe); also the sums in
`total_results` (lines 132-138), and the averages. -/
structure Results where
  stockName : String
  numPossibleTrades : ℕ
  optimalCount : ℚ
  optimalKmin : ℚ
  optimalKmax : ℚ
  optimalGft : ℚ
  auctionCount : ℚ
  countRatio : ℚ
  gft : ℚ
  gftRatio : ℚ
  deriving DecidableEq, Repr

/-- `experiment_ascending_auction_recipetree_stock.py:74-76` — `total_results`; `none` stands for the empty list. The keys `str(n)` are modelled by
`n`. With the number of lines `Warning count!!!` printed so far. -/
structure State where
  results : ℕ → Option Results
  warnings : ℕ

/-- `experiment_ascending_auction_recipetree_stock.py:136-138` — adding the entries from index 3 on. -/
def Results.add (r x : Results) : Results :=
  { r with
    optimalCount := r.optimalCount + x.optimalCount
    optimalKmin := r.optimalKmin + x.optimalKmin
    optimalKmax := r.optimalKmax + x.optimalKmax
    optimalGft := r.optimalGft + x.optimalGft
    auctionCount := r.auctionCount + x.auctionCount
    countRatio := r.countRatio + x.countRatio
    gft := r.gft + x.gft
    gftRatio := r.gftRatio + x.gftRatio }

/-- `experiment_ascending_auction_recipetree_stock.py:132-138` — the entry of `total_results` for `n`. -/
def State.add (s : State) (n : ℕ) (x : Results) (warn : Bool) : State :=
  ⟨fun k => if k = n then
      match s.results n with
      | none => some x
      | some r => some (r.add x)
    else s.results k,
   s.warnings + if warn then 1 else 0⟩

/-- `experiment_ascending_auction_recipetree_stock.py:93` — the categories from category `j` on, each with its first
`int(num_of_possible_ps*agent_counts[j])` prices. -/
def firstPrices (numOfPossiblePs : ℕ) (agentCounts : List ℚ) : ℕ → List (List ℚ) → Py (List AgentCategory)
  | _, [] => .ok []
  | j, prices :: rest => do
    let count ← pyGet agentCounts j
    let cats ← firstPrices numOfPossiblePs agentCounts (j + 1) rest
    .ok (AgentCategory.init "agent" (pySlice prices (pyInt (numOfPossiblePs * count))) :: cats)

/-- `experiment_ascending_auction_recipetree_stock.py:96-138` — what is done with one market. -/
def addMarket (initialPrices : List (List ℕ) → ℚ → Py (List ℚ)) (fuel : ℕ) (recipe : List PyObj) (stockName : String)
    (n numOfPossiblePs : ℕ) (market : Market) (s : State) : Py (Option State) := do
  let tree ← RecipeTree.init market.numCategories recipe
  let optimal := tree.optimalTradeWithCounters (TreeAuction.valuesAt market.categories)
  match ← TreeAuction.auction initialPrices market recipe fuel with
  | none => .ok none
  | some trade =>
    .ok (some (s.add n
      { stockName := stockName
        numPossibleTrades := numOfPossiblePs
        optimalCount := optimal.count
        optimalKmin := optimal.kmin
        optimalKmax := optimal.kmax
        optimalGft := optimal.gain
        auctionCount := trade.numOfDeals
        countRatio := if optimal.count = 0 then 0 else (trade.numOfDeals : ℚ) / optimal.count * 100
        gft := trade.gainFromTrade
        gftRatio := if optimal.gain = 0 then 0 else trade.gainFromTrade / optimal.gain * 100 }
      (decide (optimal.count < trade.numOfDeals))))

/-- `experiment_ascending_auction_recipetree_stock.py:82-138` — the loop over the remaining `nums_of_agents`, for one stock with the shuffled prices
`prices`; `last` is `last_iteration`. -/
def sizes (initialPrices : List (List ℕ) → ℚ → Py (List ℚ)) (fuel : ℕ) (recipe : List PyObj) (agentCounts : List ℚ) (stockName : String)
    (prices : List (List ℚ)) : List ℕ → Bool → State → Py (Option State)
  | [], _, s => .ok (some s)
  | n :: ns, last, s => do
    let first ← pyGet prices 0
    let numOfPossiblePs := min n first.length
    if last = true ∧ numOfPossiblePs < n then .ok (some s)
    else if numOfPossiblePs < n then do
      let market ← Market.init (prices.map (AgentCategory.init "agent"))
      match ← addMarket initialPrices fuel recipe stockName n numOfPossiblePs market s with
      | none => .ok none
      | some s' => sizes initialPrices fuel recipe agentCounts stockName prices ns true s'
    else do
      let cats ← firstPrices numOfPossiblePs agentCounts 0 prices
      let market ← Market.init cats
      match ← addMarket initialPrices fuel recipe stockName n numOfPossiblePs market s with
      | none => .ok none
      | some s' => sizes initialPrices fuel recipe agentCounts stockName prices ns last s'

/-- `experiment_ascending_auction_recipetree_stock.py:80-81` — the categories from `j` on, shuffled. -/
def shuffleAll (shuffle : ℕ → List ℚ → List ℚ) : ℕ → List (List ℚ) → List (List ℚ)
  | _, [] => []
  | j, prices :: rest => shuffle j prices :: shuffleAll shuffle (j + 1) rest

/-- `experiment_ascending_auction_recipetree_stock.py:78-138` — the iterations for one stock, from iteration `it` on. The prices are shuffled in
place: each iteration shuffles the lists the previous one has left. -/
def iterations (initialPrices : List (List ℕ) → ℚ → Py (List ℚ)) (fuel : ℕ) (recipe : List PyObj) (agentCounts : List ℚ)
    (numsOfAgents : List ℕ) (stockName : String) (shuffle : ℕ → ℕ → List ℚ → List ℚ) :
    ℕ → ℕ → List (List ℚ) → State → Py (Option State)
  | 0, _, _, s => .ok (some s)
  | left + 1, it, prices, s => do
    let prices' := shuffleAll (shuffle it) 0 prices
    match ← sizes initialPrices fuel recipe agentCounts stockName prices' numsOfAgents false s with
    | none => .ok none
    | some s' => iterations initialPrices fuel recipe agentCounts numsOfAgents stockName shuffle left (it + 1) prices' s'

/-- `experiment_ascending_auction_recipetree_stock.py:77-138` — the loop over the stocks, from stock `i` on. `stocks_prices[i]` is evaluated in the
first iteration (line 80), so not at all if there are no iterations. (The lists of different stocks are taken to be different objects.) -/
def stocks (initialPrices : List (List ℕ) → ℚ → Py (List ℚ)) (fuel : ℕ) (recipe : List PyObj) (agentCounts : List ℚ)
    (numsOfAgents : List ℕ) (numOfIterations : ℕ) (stocksPrices : List (List (List ℚ))) (shuffle : ℕ → ℕ → ℕ → List ℚ → List ℚ) :
    ℕ → List String → State → Py (Option State)
  | _, [], s => .ok (some s)
  | i, name :: names, s => do
    let prices ← if numOfIterations = 0 then .ok [] else pyGet stocksPrices i
    match ← iterations initialPrices fuel recipe agentCounts numsOfAgents name (shuffle i) numOfIterations 0 prices s with
    | none => .ok none
    | some s' => stocks initialPrices fuel recipe agentCounts numsOfAgents numOfIterations stocksPrices shuffle (i + 1) names s'

/-- `experiment_ascending_auction_recipetree_stock.py:139-155` — a row of the table: the averages, if there are any results for this size, and the
column `gftformula`. -/
structure Row where
  average : Option Results
  gftFormula : ℚ
  deriving DecidableEq, Repr

/-- `experiment_ascending_auction_recipetree_stock.py:149` — `x/len(stock_names)/num_of_iterations`. -/
def divide (numStocks numOfIterations : ℕ) (x : ℚ) : Py ℚ := do
  let y ← pyDiv x numStocks
  pyDiv y numOfIterations

/-- `experiment_ascending_auction_recipetree_stock.py:140-154` — the row for the entry `r` of `total_results`. -/
def mkRow (numStocks numOfIterations : ℕ) : Option Results → Py Row
  | none => .ok ⟨none, 0⟩
  | some r => do
    let optimalCount ← divide numStocks numOfIterations r.optimalCount
    let optimalKmin ← divide numStocks numOfIterations r.optimalKmin
    let optimalKmax ← divide numStocks numOfIterations r.optimalKmax
    let optimalGft ← divide numStocks numOfIterations r.optimalGft
    let auctionCount ← divide numStocks numOfIterations r.auctionCount
    let countRatio ← divide numStocks numOfIterations r.countRatio
    let gft ← divide numStocks numOfIterations r.gft
    let gftRatio ← divide numStocks numOfIterations r.gftRatio
    let formula ← if optimalKmin ≤ 1 then Except.ok 0 else do
      let q ← pyDiv 1 optimalKmin
      Except.ok ((1 - q) * 100)
    .ok ⟨some ⟨"Average", r.numPossibleTrades, optimalCount, optimalKmin, optimalKmax, optimalGft, auctionCount, countRatio, gft, gftRatio⟩, formula⟩

/-- `experiment_ascending_auction_recipetree_stock.py:50-156` — `experiment(…)` with the arguments `stocks_prices` and `stock_names` given: the rows,
and the number of warnings. The numbers in `nums_of_agents` are taken to be different (the last loop changes the entry of a repeated number
twice). -/
def experiment (initialPrices : List (List ℕ) → ℚ → Py (List ℚ)) (fuel : ℕ) (recipe : List PyObj) (agentCounts : List ℚ)
    (numsOfAgents : List ℕ) (numOfIterations : ℕ) (stocksPrices : List (List (List ℚ))) (stockNames : List String)
    (shuffle : ℕ → ℕ → ℕ → List ℚ → List ℚ) : Py (Option (List Row × ℕ)) := do
  let _ ← TreeCalculations.getAgentsAnalyze recipe
  match ← stocks initialPrices fuel recipe agentCounts numsOfAgents numOfIterations stocksPrices shuffle 0 stockNames ⟨fun _ => none, 0⟩ with
  | none => .ok none
  | some s => do
    let rows ← numsOfAgents.mapM (fun n => mkRow stockNames.length numOfIterations (s.results n))
    .ok (some (rows, s.warnings))

/-- `get_stocks_data.py:105-108` — the inner loop, for category `agentIndex`; `dataIndex` is `data_index`. It appends
`sign * data[data_index] * agents_values[agent_index]` and advances `data_index`. -/
def splitInner (data : List ℚ) (sign : ℚ) (agentsValues : List ℚ) (agentIndex : ℕ) : ℕ → ℕ → Py (List ℚ × ℕ)
  | 0, dataIndex => .ok ([], dataIndex)
  | left + 1, dataIndex => do
    let price ← pyGet data dataIndex
    let factor ← pyGet agentsValues agentIndex
    let rest ← splitInner data sign agentsValues agentIndex left (dataIndex + 1)
    .ok (sign * price * factor :: rest.1, rest.2)

/-- `get_stocks_data.py:104-108` — the loop over the categories from `agentIndex` on; a number of repetitions below 0 gives an empty list. -/
def splitLoop (data : List ℚ) (recipeSize : ℚ) (agentsValues : List ℚ) : ℕ → List ℚ → ℕ → Py (List (List ℚ))
  | _, [], _ => .ok []
  | agentIndex, count :: counts, dataIndex => do
    let q ← pyDiv data.length recipeSize
    let x ← splitInner data (if agentIndex > 0 then -1 else 1) agentsValues agentIndex (pyInt (q * count)).toNat dataIndex
    let rest ← splitLoop data recipeSize agentsValues (agentIndex + 1) counts x.2
    .ok (x.1 :: rest)

/-- `get_stocks_data.py:93-109` — `get_prices_tree(stock_file, agents_counts, agents_values)`. `columns` are the four columns of the file, in the order
of `TYPES`. -/
def getPricesTree (columns : List (List ℚ)) (shuffle : List ℚ → List ℚ) (agentsCounts agentsValues : List ℚ) : Py (List (List ℚ)) :=
  let data := shuffle (columns.flatten.map (fun price => (pyInt (price * 1000) : ℚ)))
  splitLoop data agentsCounts.sum agentsValues 0 agentsCounts 0

end TreeStockExperiment

end Auctions
