import Verif.Model.Experiment

set_option autoImplicit false

/-!
# Model of `getPrices` of `get_stocks_data.py`

The four columns of the file are lists of exact numbers, all of the same length (they are columns of one table). Reading the file and printing are not
modelled.
-/

namespace Auctions.StockData

/-- `get_stocks_data.py:38-50` — the branch for all other recipes: the prices of the buyers, multiplied by the number of sellers in a deal, each
`recipe[0]` times; the prices of the sellers are dealt out to the other categories in turn, `len(recipe)-1` rounds, each `recipe[j]` times. -/
def split (buyers sellers : List ℚ) (recipe : List ℕ) : Py (List (List ℚ)) := do
  let first ← pyGet recipe 0
  let sumSellers : ℚ := (recipe.sum - first : ℕ)
  let start : List (List ℚ) := (List.replicate recipe.length []).modify 0 (· ++ buyers.flatMap (fun buyer => List.replicate first (buyer * sumSellers)))
  .ok ((List.range (sellers.length * (recipe.length - 1))).foldl (fun data i =>
    data.modify (i % (recipe.length - 1) + 1) (· ++ List.replicate (recipe.getD (i % (recipe.length - 1) + 1) 0) (sellers.getD (i % sellers.length) 0))) start)

/-- `get_stocks_data.py:21-62` — `getPrices(stockFile, recipe)`, for the columns `High`, `Close`, `Open` and `Low`. -/
def getPrices (high close opening low : List ℚ) (recipe : List ℕ) : Py (List (List ℚ)) := do
  let d2 := opening.map (-1 * ·)
  let d3 := low.map (-1 * ·)
  let data ←
    if recipe = [1, 1] then Except.ok [high ++ close, d2 ++ d3]
    else if recipe = [2, 1] then Except.ok [high ++ close, List.zipWith (· + ·) d2 d3]
    else if recipe = [1, 2] then Except.ok [List.zipWith (· + ·) high close, d2 ++ d3]
    else if recipe = [2, 1, 1] then Except.ok [high ++ close, d2, d3]
    else if recipe = [1, 1, 1] then Except.ok [List.zipWith (· + ·) high close, d2, d3]
    else if recipe.length = 3 ∧ recipe.tail = recipe.dropLast then Except.ok [List.zipWith (· + ·) high close, d2, d3]
    else split (high ++ close) (d2 ++ d3) recipe
  .ok (data.map (fun category => category.map (fun x => (pyInt (x * 1000) : ℚ))))

/-- The four columns of a file. -/
structure StockFile where
  high : List ℚ
  close : List ℚ
  opening : List ℚ
  low : List ℚ

/-- `get_stocks_data.py:84-86` — `getStocksPrices(recipe)`; the files of the directory are given. -/
def getStocksPrices (files : List StockFile) (recipe : List ℕ) : Py (List (List (List ℚ))) :=
  files.mapM (fun f => getPrices f.high f.close f.opening f.low recipe)

end Auctions.StockData
