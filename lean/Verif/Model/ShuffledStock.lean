import Verif.Model.StockSizes

set_option autoImplicit false

/-!
# Model of `stock/experiment_compare_sbb_shufled_stock.py` and of the shuffled prices in `get_stocks_data.py`

The prices are the argument `stocks_prices`, as lists of exact numbers, and `nums_of_agents` is given. The names of the auctions occur in the column names and in two tests: it is
assumed that they contain neither `mcafee` nor `ratio`. They and the text of the recipe are not modelled, nor are the CSV file and what is printed, except for the number of warnings.
-/

namespace Auctions.ShuffledStock

open Experiment (AuctionFunction)
open StockSizes (Measures)

/-- `stock/experiment_compare_sbb_shufled_stock.py:131-135` — the four entries for an auction. -/
structure Columns where
  count : ℚ
  countRatio : ℚ
  gft : ℚ
  gftRatio : ℚ
  deriving DecidableEq, Repr

/-- `stock/experiment_compare_sbb_shufled_stock.py:107-135` — the list `results`, without the text of the recipe; also the sums and the averages. -/
structure Results where
  stockName : String
  numPossibleTrades : ℕ
  optimalCount : ℚ
  optimalCountWithZero : ℚ
  optimalGft : ℚ
  auctions : List Columns
  deriving DecidableEq, Repr

/-- `stock/experiment_compare_sbb_shufled_stock.py:107-135` — the entries from what was measured. -/
def ofMeasures (name : String) (numOfPossiblePs : ℕ) (x : Measures) : Results :=
  { stockName := name
    numPossibleTrades := numOfPossiblePs
    optimalCount := x.optimalCount
    optimalCountWithZero := x.optimalCountWithZero
    optimalGft := x.optimalGft
    auctions := x.auctions.map fun a =>
      { count := a.1
        countRatio := if x.optimalCountWithZero = 0 then 0 else (a.1 : ℚ) / x.optimalCountWithZero * 100
        gft := a.2
        gftRatio := if x.optimalGft = 0 then 0 else a.2 / x.optimalGft * 100 } }

/-- `stock/experiment_compare_sbb_shufled_stock.py:141-144, 162-165` — adding the entries of an auction. -/
def Columns.add (s x : Columns) : Columns :=
  { count := s.count + x.count
    countRatio := s.countRatio + x.countRatio
    gft := s.gft + x.gft
    gftRatio := s.gftRatio + x.gftRatio }

/-- `stock/experiment_compare_sbb_shufled_stock.py:141-144, 162-165` — adding the entries from index 3 on. -/
def Results.add (s x : Results) : Results :=
  { s with
    optimalCount := s.optimalCount + x.optimalCount
    optimalCountWithZero := s.optimalCountWithZero + x.optimalCountWithZero
    optimalGft := s.optimalGft + x.optimalGft
    auctions := List.zipWith Columns.add s.auctions x.auctions }

/-- `stock/experiment_compare_sbb_shufled_stock.py:138-144, 159-165` — the first entry, or the sum. -/
def sumUp (s : Option Results) (x : Results) : Results :=
  match s with
  | none => x
  | some y => y.add x

/-- `stock/experiment_compare_sbb_shufled_stock.py:149-154` — division by the number of iterations, which is not 0 when there are entries. -/
def Results.divide (s : Results) (iterations : ℚ) : Results :=
  { s with
    optimalCount := s.optimalCount / iterations
    optimalCountWithZero := s.optimalCountWithZero / iterations
    optimalGft := s.optimalGft / iterations
    auctions := s.auctions.map fun c => ⟨c.count / iterations, c.countRatio / iterations, c.gft / iterations, c.gftRatio / iterations⟩ }

/-- Python `round(x, 1)`, on exact numbers. -/
def pyRound1 (x : ℚ) : ℚ := (pyRound (x * 10) : ℚ) / 10

/-- Python `int(x*1000)/1000`. -/
def cut3 (x : ℚ) : ℚ := (pyInt (x * 1000) : ℚ) / 1000

/-- `stock/experiment_compare_sbb_shufled_stock.py:170-177` — the averages over `count` stocks; this number is not 0 when there are entries. -/
def Results.average (s : Results) (count : ℚ) : Results :=
  { stockName := "Average"
    numPossibleTrades := s.numPossibleTrades
    optimalCount := pyRound1 (s.optimalCount / count)
    optimalCountWithZero := pyRound1 (s.optimalCountWithZero / count)
    optimalGft := pyRound1 (s.optimalGft / count)
    auctions := s.auctions.map fun c => ⟨pyRound1 (c.count / count), cut3 (c.countRatio / count), pyRound1 (c.gft / count), cut3 (c.gftRatio / count)⟩ }

/-- `stock/experiment_compare_sbb_shufled_stock.py:91-98` — the categories, from position `index` of the prices on. -/
def categories (recipeSum buyerAgentCount numOfPossiblePs : ℕ) (prices : List ℚ) : ℕ → List ℕ → List AgentCategory
  | _, [] => []
  | index, category :: recipe =>
    AgentCategory.init "agent" (((prices.drop index).take (numOfPossiblePs * category)).map fun price =>
        (pyInt (price * if 0 < index then -1 * (buyerAgentCount : ℚ) else (recipeSum : ℚ) - buyerAgentCount) : ℚ)) ::
      categories recipeSum buyerAgentCount numOfPossiblePs prices (index + numOfPossiblePs * category) recipe

/-- `stock/experiment_compare_sbb_shufled_stock.py:84` — `int(len(stock_prices)/recipe_sum)`, as the exact quotient (a float division of numbers below 2^53). -/
def possible (prices : List ℚ) (recipe : List ℕ) : Py ℕ :=
  if recipe.sum = 0 then .error .zeroDivisionError else .ok (prices.length / recipe.sum)

/-- `stock/experiment_compare_sbb_shufled_stock.py:83-144` — the iterations for one stock and one size: `last` is `last_iteration`, `total` the entry of `total_results`.
The last number counts the warnings. -/
def iterate (auctions : List AuctionFunction) (recipe : List ℕ) (stockNames : List String) (i : ℕ) (prices : List ℚ) (n : ℕ) :
    ℕ → Bool → Option Results → Py (Option (Bool × Option Results × ℕ))
  | 0, last, total => .ok (some (last, total, 0))
  | left + 1, last, total => do
    let most ← possible prices recipe
    let numOfPossiblePs := min n most
    if last = true ∧ numOfPossiblePs < n then .ok (some (last, total, 0))
    else do
      let buyerAgentCount ← pyGet recipe 0
      let market ← Market.init (categories recipe.sum buyerAgentCount numOfPossiblePs prices 0 recipe)
      match ← StockSizes.measure auctions recipe stockNames i market with
      | none => .ok none
      | some (name, x) => do
        match ← iterate auctions recipe stockNames i prices n left true (some (sumUp total (ofMeasures name numOfPossiblePs x))) with
        | none => .ok none
        | some (last', total', w) => .ok (some (last', total', StockSizes.warnings x + w))

/-- A dictionary with an entry changed. (The keys `str(n)` are modelled by `n`; `none` stands for the empty list.) -/
def update (d : ℕ → Option Results) (n : ℕ) (x : Option Results) : ℕ → Option Results := fun k => if k = n then x else d k

/-- `stock/experiment_compare_sbb_shufled_stock.py:82-144` — the sizes for one stock. -/
def sizes (auctions : List AuctionFunction) (recipe : List ℕ) (stockNames : List String) (iterations i : ℕ) (prices : List ℚ) :
    Bool → (ℕ → Option Results) → List ℕ → Py (Option ((ℕ → Option Results) × ℕ))
  | _, total, [] => .ok (some (total, 0))
  | last, total, n :: ns => do
    match ← iterate auctions recipe stockNames i prices n iterations last (total n) with
    | none => .ok none
    | some (last', x, w) => do
      match ← sizes auctions recipe stockNames iterations i prices last' (update total n x) ns with
      | none => .ok none
      | some (total', w') => .ok (some (total', w + w'))

/-- `stock/experiment_compare_sbb_shufled_stock.py:145-165` — the rows of one stock, and `average_total_results`. The lists in `total_results` are changed in place; those
in `average_total_results` are copies. -/
def stockRows (iterations : ℕ) : (ℕ → Option Results) → (ℕ → Option Results) → List ℕ → List Results × (ℕ → Option Results)
  | _, average, [] => ([], average)
  | total, average, n :: ns =>
    match total n with
    | none => stockRows iterations total average ns
    | some x =>
      let y := x.divide iterations
      let (rows, average') := stockRows iterations (update total n (some y)) (update average n (some (sumUp (average n) y))) ns
      (y :: rows, average')

/-- `stock/experiment_compare_sbb_shufled_stock.py:76-165` — the stocks, from number `i` on. -/
def stocks (auctions : List AuctionFunction) (recipe : List ℕ) (stockNames : List String) (iterations : ℕ) (numsOfAgents : List ℕ) :
    ℕ → (ℕ → Option Results) → List (List ℚ) → Py (Option (List Results × (ℕ → Option Results) × ℕ))
  | _, average, [] => .ok (some ([], average, 0))
  | i, average, prices :: rest => do
    match ← sizes auctions recipe stockNames iterations i prices false (fun _ => none) numsOfAgents with
    | none => .ok none
    | some (total, w) => do
      let (rows, average') := stockRows iterations total average numsOfAgents
      match ← stocks auctions recipe stockNames iterations numsOfAgents (i + 1) average' rest with
      | none => .ok none
      | some (rows', average'', w') => .ok (some (rows ++ rows', average'', w + w'))

/-- `stock/experiment_compare_sbb_shufled_stock.py:166-178` — the rows of averages. The lists are changed in place. -/
def averageRows (count : ℕ) : (ℕ → Option Results) → List ℕ → List Results
  | _, [] => []
  | average, n :: ns =>
    match average n with
    | none => averageRows count average ns
    | some x => x.average count :: averageRows count (update average n (some (x.average count))) ns

/-- `stock/experiment_compare_sbb_shufled_stock.py:48-179` — `experiment(…)`: the rows and the number of warnings. -/
def experiment (auctions : List AuctionFunction) (recipe : List ℕ) (iterations : ℕ) (numsOfAgents : List ℕ) (stocksPrices : List (List ℚ)) (stockNames : List String) :
    Py (Option (List Results × ℕ)) := do
  match ← stocks auctions recipe stockNames iterations numsOfAgents 0 (fun _ => none) stocksPrices with
  | none => .ok none
  | some (rows, average, w) => .ok (some (rows ++ averageRows stocksPrices.length average numsOfAgents, w))

/-- `get_stocks_data.py:64-78` — `getAllPricesShuffled(stockFile, stockName)`: `kept` is `keep_all_prices`, and the file is given by its four columns, in the order of
`TYPES`; `shuffle` stands for `random.shuffle`, the first and the second time. The list is kept before it is shuffled the second time, but as it is the same object, it is the
list that is returned. -/
def getAllPricesShuffled (kept : String → Option (List ℚ)) (columns : List (List ℚ)) (stockName : String) (shuffle : ℕ → List ℚ → List ℚ) :
    List ℚ × (String → Option (List ℚ)) :=
  match kept stockName with
  | some prices => (prices, kept)
  | none =>
    let prices := shuffle 1 (shuffle 0 (columns.flatten.map fun price => (pyInt (price * 1000) : ℚ)))
    (prices, fun name => if name = stockName then some prices else kept name)

end Auctions.ShuffledStock
