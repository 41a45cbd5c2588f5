import Verif.Model.Experiment

set_option autoImplicit false

/-!
# Model of `stock/experiment_stock.py`

The prices are the argument `stocks_prices`, as lists of exact numbers. What is printed is not modelled, except for the number of warnings; neither are
the name of the auction and the text of the recipe in the rows, nor the CSV file.
-/

namespace Auctions

/-- Python `round(x, 3)`, on exact numbers. -/
def pyRound3 (x : ℚ) : ℚ := (pyRound (x * 1000) : ℚ) / 1000

namespace StockExperiment

open Experiment (AuctionFunction)

/-- `stock/experiment_stock.py:78-91` — a row of the table. `round(n, 2)` of an integer is the integer. -/
structure Row where
  stockName : String
  numPossibleTrades : ℤ
  optimalCount : ℕ
  auctionCount : ℕ
  countRatio : ℚ
  optimalGft : ℚ
  auctionGft : ℚ
  auctionGftRatio : ℚ
  auctionMarketGft : ℚ
  marketGftRatio : ℚ
  deriving DecidableEq, Repr

/-- `stock/experiment_stock.py:65` — the list `[len(stocks_prices[i][j])/recipe[j] for j in …]`, from category `j` on. -/
def shares (recipe : List ℕ) : ℕ → List (List ℚ) → Py (List ℚ)
  | _, [] => .ok []
  | j, prices :: rest => do
    let count ← pyGet recipe j
    let share ← pyDiv prices.length count
    let shares ← shares recipe (j + 1) rest
    .ok (share :: shares)

/-- Python `min(l)` of a list of numbers. -/
def pyMin : List ℚ → Py ℚ
  | [] => .error .valueError
  | x :: l => .ok (l.foldl min x)

/-- `stock/experiment_stock.py:64-91` — the row for stock `i`, and whether the warning is printed. -/
def stockRow (auctionFunction : AuctionFunction) (recipe : List ℕ) (stockNames : List String) (i : ℕ) (prices : List (List ℚ)) :
    Py (Option (Row × Bool)) := do
  let market ← Market.init (prices.map (AgentCategory.init "agent"))
  let shares ← shares recipe 0 prices
  let numOfPossiblePs ← pyMin shares
  let (optimal, _) ← market.optimalTrade recipe
  match ← auctionFunction market recipe with
  | none => .ok none
  | some trade => do
    let auctionGft ← trade.gainFromTrade true
    let marketGft ← trade.gainFromTrade false
    let name ← pyGet stockNames i
    .ok (some (
      { stockName := name
        numPossibleTrades := pyRound numOfPossiblePs
        optimalCount := optimal.numOfDeals
        auctionCount := trade.numOfDeals
        countRatio := if optimal.numOfDeals = 0 then 0 else
          (pyInt ((trade.numOfDeals : ℚ) / optimal.numOfDeals * 100000) : ℚ) / 1000
        optimalGft := pyRound2 optimal.gainFromTrade
        auctionGft := pyRound2 auctionGft
        auctionGftRatio := if optimal.gainFromTrade = 0 then 0 else pyRound3 (auctionGft / optimal.gainFromTrade * 100)
        auctionMarketGft := pyRound2 marketGft
        marketGftRatio := if optimal.gainFromTrade = 0 then 0 else pyRound3 (marketGft / optimal.gainFromTrade * 100) },
      decide (optimal.numOfDeals < trade.numOfDeals)))

/-- `stock/experiment_stock.py:63-91` — the loop over the stocks, from stock `i` on: the rows and the number of warnings. -/
def rows (auctionFunction : AuctionFunction) (recipe : List ℕ) (stockNames : List String) : ℕ → List (List (List ℚ)) → Py (Option (List Row × ℕ))
  | _, [] => .ok (some ([], 0))
  | i, prices :: rest => do
    match ← stockRow auctionFunction recipe stockNames i prices with
    | none => .ok none
    | some (row, warn) => do
      match ← rows auctionFunction recipe stockNames (i + 1) rest with
      | none => .ok none
      | some (table, warnings) => .ok (some (row :: table, (if warn then 1 else 0) + warnings))

/-- `stock/experiment_stock.py:47-92` — `experiment(…)` with the arguments `stocks_prices` and `stock_names` given. -/
def experiment (auctionFunction : AuctionFunction) (recipe : List ℕ) (stocksPrices : List (List (List ℚ))) (stockNames : List String) :
    Py (Option (List Row × ℕ)) :=
  rows auctionFunction recipe stockNames 0 stocksPrices

end StockExperiment

end Auctions
