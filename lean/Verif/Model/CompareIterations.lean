import Verif.Model.Experiment

set_option autoImplicit false

/-!
# Model of `stock/experiment_compare_iterations_autions.py`

The prices of the stocks are the argument `stocks_prices`, as lists of exact numbers. `random.shuffle` and the random number generator are arbitrary functions. The
functions and names of the auctions are a list of functions, each with a mark that says whether its name contains `SBB` (lines 155 and
183; the names are not used otherwise). `recipe_str` is left out of the rows. What is printed is not modelled, nor is the text that is appended to the files
`diff_in_sbbs_gft.txt` and `diff_in_sbbs_k.txt`: only how often this happens.
-/

namespace Auctions.CompareIterations

open Auctions Experiment

/-- `stock/experiment_compare_iterations_autions.py:130-147` — the nine entries for an auction. -/
structure AuctionColumns where
  count : ℚ
  countRatio : ℚ
  totalGft : ℚ
  totalGftRatio : ℚ
  marketGft : ℚ
  marketGftRatio : ℚ
  withoutZeroCountRatio : ℚ
  withoutZeroTotalGft : ℚ
  withoutZeroTotalGftRatio : ℚ
  deriving DecidableEq, Repr

/-- `stock/experiment_compare_iterations_autions.py:120-147` — the list `results`, without the number of iterations and the text of the recipe; also
the sums in `total_results` (lines 206-212), and the averages. -/
structure Results where
  stockName : String
  numPossibleTrades : ℕ
  optimalCount : ℚ
  gftRatioFormula : ℚ
  optimalCountWithZero : ℚ
  optimalGft : ℚ
  optimalGftWithZero : ℚ
  auctions : List AuctionColumns
  deriving DecidableEq, Repr

/-- `stock/experiment_compare_iterations_autions.py:209-212` — adding the entries of an auction. -/
def AuctionColumns.add (r x : AuctionColumns) : AuctionColumns :=
  { count := r.count + x.count
    countRatio := r.countRatio + x.countRatio
    totalGft := r.totalGft + x.totalGft
    totalGftRatio := r.totalGftRatio + x.totalGftRatio
    marketGft := r.marketGft + x.marketGft
    marketGftRatio := r.marketGftRatio + x.marketGftRatio
    withoutZeroCountRatio := r.withoutZeroCountRatio + x.withoutZeroCountRatio
    withoutZeroTotalGft := r.withoutZeroTotalGft + x.withoutZeroTotalGft
    withoutZeroTotalGftRatio := r.withoutZeroTotalGftRatio + x.withoutZeroTotalGftRatio }

/-- `stock/experiment_compare_iterations_autions.py:209-212` — adding the entries from index 4 on. -/
def Results.add (r x : Results) : Results :=
  { r with
    optimalCount := r.optimalCount + x.optimalCount
    gftRatioFormula := r.gftRatioFormula + x.gftRatioFormula
    optimalCountWithZero := r.optimalCountWithZero + x.optimalCountWithZero
    optimalGft := r.optimalGft + x.optimalGft
    optimalGftWithZero := r.optimalGftWithZero + x.optimalGftWithZero
    auctions := List.zipWith AuctionColumns.add r.auctions x.auctions }

/-- `stock/experiment_compare_iterations_autions.py:85-87` — `total_results` (`none` stands for the empty list; the keys `str(n)` are modelled by
`n`), and how often each of the two files has been written to. -/
structure State where
  results : ℕ → Option Results
  gftWrites : ℕ
  kWrites : ℕ

/-- `stock/experiment_compare_iterations_autions.py:206-212` — the entry of `total_results` for `n`. -/
def State.add (s : State) (n : ℕ) (x : Results) (gftWrites kWrites : ℕ) : State :=
  { results := fun k => if k = n then
      match s.results n with
      | none => some x
      | some r => some (r.add x)
    else s.results k
    gftWrites := s.gftWrites + gftWrites
    kWrites := s.kWrites + kWrites }

/-- `stock/experiment_compare_iterations_autions.py:95-96` — `while len(stock_prices) < target: stock_prices = stock_prices + stock_prices`; `none`
stands for a loop that does not end. `target` steps are enough, unless the list is empty. -/
def doubledLoop (target : ℕ) : ℕ → List ℚ → Option (List ℚ)
  | 0, prices => if prices.length < target then none else some prices
  | fuel + 1, prices => if prices.length < target then doubledLoop target fuel (prices ++ prices) else some prices

/-- `stock/experiment_compare_iterations_autions.py:95-96`. -/
def doubled (target : ℕ) (prices : List ℚ) : Option (List ℚ) := doubledLoop target target prices

/-- `stock/experiment_compare_iterations_autions.py:98-104` — the categories from the prices of the stock, from position `index` of the list on. `sign` is
`recipe_sum_for_buyer`. -/
def stockCategories (n : ℕ) (sign : ℚ) (prices : List ℚ) : ℕ → List ℕ → List AgentCategory
  | _, [] => []
  | index, category :: recipe =>
    AgentCategory.init "agent" (((prices.drop index).take (n * category)).map fun price => (pyInt (price * if index = 0 then sign else -1) : ℚ)) ::
      stockCategories n sign prices (index + n * category) recipe

/-- `stock/experiment_compare_iterations_autions.py:106-111` — the random categories, from number `index` on. -/
def randomCategories (n : ℕ) (sign : ℚ) (random : ℕ → ℕ → ℚ) : ℕ → List ℕ → List AgentCategory
  | _, [] => []
  | index, category :: recipe =>
    AgentCategory.uniformlyRandom "agent" (n * category) (if 0 < index then -100000 else sign) (if 0 < index then -1 else 100000 * sign) (random index) ::
      randomCategories n sign random (index + 1) recipe

/-- `stock/experiment_compare_iterations_autions.py:125` — the theoretical bound on the ratio of the gains, in percent. The condition
`min(recipe) == max(recipe) and recipe[0] == 1` says that all counts are 1. -/
def formula (recipe : List ℕ) (optimalCount : ℕ) : ℚ :=
  if 1 < optimalCount then ((optimalCount : ℚ) - 1) * 100 / (if ∀ x ∈ recipe, x = 1 then (optimalCount : ℚ) else optimalCount + 1) else 0

/-- Python `0 if guard == 0 else x / y * 100`. -/
def ratio (guard x y : ℚ) : Py ℚ :=
  if guard = 0 then .ok 0 else (pyDiv x y).map (· * 100)

/-- `stock/experiment_compare_iterations_autions.py:130-147` — the entries for one auction. -/
def auctionColumns (k kZero : ℕ) (gft gftZero : ℚ) (trade : TradeWithSinglePrice) : Py AuctionColumns := do
  let totalGft ← trade.gainFromTrade true
  let marketGft ← trade.gainFromTrade false
  let countRatio ← ratio k trade.numOfDeals kZero
  let totalGftRatio ← ratio gft totalGft gftZero
  let marketGftRatio ← ratio gft marketGft gftZero
  let withoutZeroCountRatio ← ratio k trade.numOfDeals k
  let withoutZeroTotalGftRatio ← ratio gft totalGft gft
  .ok
    { count := trade.numOfDeals
      countRatio := countRatio
      totalGft := totalGft
      totalGftRatio := totalGftRatio
      marketGft := marketGft
      marketGftRatio := marketGftRatio
      withoutZeroCountRatio := withoutZeroCountRatio
      withoutZeroTotalGft := totalGft
      withoutZeroTotalGftRatio := withoutZeroTotalGftRatio }

/-- `stock/experiment_compare_iterations_autions.py:129-147` — the auctions, one after the other. -/
def runAuctions (recipe : List ℕ) (market : Market) (k kZero : ℕ) (gft gftZero : ℚ) :
    List (Bool × AuctionFunction) → Py (Option (List AuctionColumns))
  | [] => .ok (some [])
  | (_, auctionFunction) :: rest => do
    match ← auctionFunction market recipe with
    | none => .ok none
    | some trade => do
      let columns ← auctionColumns k kZero gft gftZero trade
      match ← runAuctions recipe market k kZero gft gftZero rest with
      | none => .ok none
      | some others => .ok (some (columns :: others))

/-- `stock/experiment_compare_iterations_autions.py:150-175, 178-203` — one pass over the entries of one kind, in their order: whether there is one that `differs`
from the value remembered, `toCompare`, which is the first one that is not negative; the pass stops there. -/
def differenceFound (differs : ℚ → ℚ → Bool) : ℚ → List ℚ → Bool
  | _, [] => false
  | toCompare, value :: rest =>
    if toCompare < 0 then differenceFound differs value rest
    else if differs toCompare value then true
    else differenceFound differs toCompare rest

/-- `stock/experiment_compare_iterations_autions.py:154-156, 182-184` — the values whose label contains `SBB` and ends with `totalgft`: there are two for each
auction. -/
def gftValues (auctions : List (Bool × AuctionFunction)) (columns : List AuctionColumns) : List ℚ :=
  (auctions.zip columns).flatMap fun x => if x.1.1 then [x.2.totalGft, x.2.withoutZeroTotalGft] else []

/-- `stock/experiment_compare_iterations_autions.py:166, 194` — the values whose label contains `SBB` and ends with `count`. -/
def kValues (auctions : List (Bool × AuctionFunction)) (columns : List AuctionColumns) : List ℚ :=
  (auctions.zip columns).flatMap fun x => if x.1.1 then [x.2.count] else []

/-- `stock/experiment_compare_iterations_autions.py:148-203` — how often a file is written to, for the values of one kind. -/
def writes (reportDiff : Bool) (values : List ℚ) : ℕ :=
  (if reportDiff ∧ differenceFound (fun x y => decide (x ≠ y)) (-1) values then 1 else 0) +
    (if differenceFound (fun x y => decide (x > y)) (-1) values then 1 else 0)

/-- `stock/experiment_compare_iterations_autions.py:113-212` — what is done with one market. -/
def addMarket (auctions : List (Bool × AuctionFunction)) (recipe : List ℕ) (stockNames : List String) (reportDiff : Bool) (i n : ℕ) (market : Market)
    (s : State) : Py (Option State) := do
  let (optimal, _) ← market.optimalTrade recipe 10000000 false
  let (optimalWithZero, _) ← market.optimalTrade recipe 10000000
  let name ← pyGet stockNames i
  match ← runAuctions recipe market optimal.numOfDeals optimalWithZero.numOfDeals optimal.gainFromTrade optimalWithZero.gainFromTrade auctions with
  | none => .ok none
  | some columns =>
    .ok (some (s.add n
      { stockName := name
        numPossibleTrades := n
        optimalCount := optimal.numOfDeals
        gftRatioFormula := formula recipe optimal.numOfDeals
        optimalCountWithZero := optimalWithZero.numOfDeals
        optimalGft := optimal.gainFromTrade
        optimalGftWithZero := optimalWithZero.gainFromTrade
        auctions := columns }
      (writes reportDiff (gftValues auctions columns)) (writes reportDiff (kValues auctions columns))))

/-- The arguments of `experiment(…)` that do not change, and `recipe_sum_for_buyer` (line 81). -/
structure Setting where
  auctions : List (Bool × AuctionFunction)
  recipe : List ℕ
  sign : ℚ
  stockNames : List String
  numOfIterations : ℕ
  runWithStockPrices : Bool
  reportDiff : Bool

/-- `stock/experiment_compare_iterations_autions.py:92-212` — the iterations for one stock and one size, from iteration `it` on. The list of prices is doubled and
shuffled in place: what one iteration leaves, the next one finds. -/
def iterations (c : Setting) (i n : ℕ) (shuffle : ℕ → List ℚ → List ℚ) (random : ℕ → ℕ → ℕ → ℚ) :
    ℕ → ℕ → List ℚ → State → Py (Option (List ℚ × State))
  | 0, _, prices, s => .ok (some (prices, s))
  | left + 1, it, prices, s =>
    match if c.runWithStockPrices then (doubled (n * c.recipe.sum) prices).map (shuffle it) else some prices with
    | none => .ok none
    | some prices' => do
      let market ← Market.init (if c.runWithStockPrices then stockCategories n c.sign prices' 0 c.recipe else randomCategories n c.sign (random it) 0 c.recipe)
      match ← addMarket c.auctions c.recipe c.stockNames c.reportDiff i n market s with
      | none => .ok none
      | some s' => iterations c i n shuffle random left (it + 1) prices' s'

/-- `stock/experiment_compare_iterations_autions.py:91-212` — the sizes for one stock, from size number `j` on. -/
def sizes (c : Setting) (i : ℕ) (shuffle : ℕ → ℕ → List ℚ → List ℚ) (random : ℕ → ℕ → ℕ → ℕ → ℚ) :
    ℕ → List ℕ → List ℚ → State → Py (Option State)
  | _, [], _, s => .ok (some s)
  | j, n :: ns, prices, s => do
    match ← iterations c i n (shuffle j) (random j) c.numOfIterations 0 prices s with
    | none => .ok none
    | some (prices', s') => sizes c i shuffle random (j + 1) ns prices' s'

/-- `stock/experiment_compare_iterations_autions.py:89-214` — the stocks, from number `i` on. (The lists of different stocks are taken to be different objects.) Line 214
prints the name of the stock. -/
def stocks (c : Setting) (numsOfAgents : List ℕ) (shuffle : ℕ → ℕ → ℕ → List ℚ → List ℚ) (random : ℕ → ℕ → ℕ → ℕ → ℕ → ℚ) :
    ℕ → List (List ℚ) → State → Py (Option State)
  | _, [], s => .ok (some s)
  | i, prices :: rest, s => do
    match ← sizes c i (shuffle i) (random i) 0 numsOfAgents prices s with
    | none => .ok none
    | some s' => do
      let _ ← pyGet c.stockNames i
      stocks c numsOfAgents shuffle random (i + 1) rest s'

/-- `stock/experiment_compare_iterations_autions.py:233-236` — `padding_zeroes(x, d)`: the text of `x` cut after `d` decimals (and filled with zeroes), as a number. On
floats that Python writes with an exponent the function does something else. -/
def cut (d : ℕ) (x : ℚ) : ℚ := (pyInt (x * 10 ^ d) : ℚ) / 10 ^ d

/-- `stock/experiment_compare_iterations_autions.py:221-225` — the averages of the entries of an auction. -/
def AuctionColumns.average (x : AuctionColumns) (division : ℚ) : AuctionColumns :=
  { count := cut 2 (x.count / division)
    countRatio := cut 2 (x.countRatio / division)
    totalGft := cut 2 (x.totalGft / division)
    totalGftRatio := cut 3 (x.totalGftRatio / division)
    marketGft := cut 2 (x.marketGft / division)
    marketGftRatio := cut 3 (x.marketGftRatio / division)
    withoutZeroCountRatio := cut 2 (x.withoutZeroCountRatio / division)
    withoutZeroTotalGft := cut 2 (x.withoutZeroTotalGft / division)
    withoutZeroTotalGftRatio := cut 3 (x.withoutZeroTotalGftRatio / division) }

/-- `stock/experiment_compare_iterations_autions.py:221-227` — the row: averages, with three decimals if the label contains `gftratio` and two otherwise. -/
def Results.average (x : Results) (division : ℚ) : Results :=
  { stockName := "Average"
    numPossibleTrades := x.numPossibleTrades
    optimalCount := cut 2 (x.optimalCount / division)
    gftRatioFormula := cut 3 (x.gftRatioFormula / division)
    optimalCountWithZero := cut 2 (x.optimalCountWithZero / division)
    optimalGft := cut 2 (x.optimalGft / division)
    optimalGftWithZero := cut 2 (x.optimalGftWithZero / division)
    auctions := x.auctions.map (·.average division) }

/-- `stock/experiment_compare_iterations_autions.py:219-229` — the rows for the sizes; `none` is a row without entries. The lists in `total_results` are changed in
place: if a size occurs twice, the second time texts are divided, which raises `TypeError`. Entries exist only if there are stocks and iterations, so the number by which is
divided is not 0. -/
def rows (division : ℕ) (results : ℕ → Option Results) : List ℕ → List ℕ → Py (List (Option Results))
  | _, [] => .ok []
  | done, n :: ns =>
    match results n with
    | none => (rows division results (n :: done) ns).map (none :: ·)
    | some x =>
      if n ∈ done then .error .typeError
      else (rows division results (n :: done) ns).map (some (x.average division) :: ·)

/-- The result: the table, and how often each of the two files was written to. -/
structure Outcome where
  table : List (Option Results)
  gftWrites : ℕ
  kWrites : ℕ
  deriving DecidableEq, Repr

/-- `stock/experiment_compare_iterations_autions.py:51-225` — `experiment(…)`, when the file does not exist yet and prices, names and numbers of agents are given. Line 81
raises `IndexError` on an empty recipe and `ZeroDivisionError` if its first count is 0. -/
def experiment (auctions : List (Bool × AuctionFunction)) (recipe : List ℕ) (numsOfAgents : List ℕ) (stocksPrices : List (List ℚ)) (stockNames : List String)
    (numOfIterations : ℕ) (runWithStockPrices reportDiff : Bool) (shuffle : ℕ → ℕ → ℕ → List ℚ → List ℚ) (random : ℕ → ℕ → ℕ → ℕ → ℕ → ℚ) :
    Py (Option Outcome) := do
  let first ← pyGet recipe 0
  let sign ← pyDiv ((recipe.sum : ℚ) - first) first
  match ← stocks ⟨auctions, recipe, sign, stockNames, numOfIterations, runWithStockPrices, reportDiff⟩ numsOfAgents shuffle random 0 stocksPrices
      ⟨fun _ => none, 0, 0⟩ with
  | none => .ok none
  | some s => do
    let table ← rows (numOfIterations * stocksPrices.length) s.results [] numsOfAgents
    .ok (some ⟨table, s.gftWrites, s.kWrites⟩)

end Auctions.CompareIterations
