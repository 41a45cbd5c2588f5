import Verif.Model.ShuffledStock
import Verif.Spec.StockSizes

set_option autoImplicit false

/-!
# What the table of the comparison on shuffled prices says

Only the types of rows and measures of the model are used.
-/

namespace Auctions.Spec

open Auctions

/-- The market for `k` procurement-sets from a list of prices: category 0 gets the first `k * r[0]` prices, category 1 the next `k * r[1]`, and so on. Prices are multiplied with
`r[1] + r[2] + …` for the buyers, and with `-r[0]` for the sellers, and made whole numbers by leaving out the decimals. -/
def MarketFrom (r : List ℕ) (prices : List ℚ) (k : ℕ) (m : Market) : Prop :=
  m.numCategories = r.length ∧ ∀ j < r.length, (m.valueLists.getD j []).Perm
    (((prices.drop (k * (r.take j).sum)).take (k * r.getD j 0)).map fun price =>
      (pyInt (price * if j = 0 then (r.sum : ℚ) - r.getD 0 0 else -(r.getD 0 0 : ℚ)) : ℚ))

/-- The sizes that get a row for a stock from which `L` procurement-sets can be made, and the number by which the row is divided wrongly: the first size, with `N` iterations,
and all other sizes that fit. -/
def rowsFor (N L : ℕ) : List ℕ → List (ℕ × ℕ)
  | [] => []
  | n :: ns => (n, if n ≤ L then 1 else N) :: (ns.filter (· ≤ L)).map fun n => (n, 1)

/-- The row shows the measures `x`, divided by `d`. -/
structure ShowsTrial (row : ShuffledStock.Results) (name : String) (k d : ℕ) (x : StockSizes.Measures) : Prop where
  stockName : row.stockName = name
  possible : row.numPossibleTrades = k
  optimalCount : row.optimalCount * d = x.optimalCount
  optimalCountWithZero : row.optimalCountWithZero * d = x.optimalCountWithZero
  optimalGft : row.optimalGft * d = x.optimalGft
  auctions : List.Forall₂ (fun (c : ShuffledStock.Columns) (a : ℕ × ℚ) => c.count * d = (a.1 : ℚ) ∧ c.gft * d = a.2 ∧ c.countRatio * d = percentage x.optimalCountWithZero a.1 x.optimalCountWithZero ∧
    c.gftRatio * d = percentage x.optimalGft a.2 x.optimalGft) row.auctions x.auctions

/-- `x` is shown with one decimal as `y`. -/
def Rounded1 (x y : ℚ) : Prop := |y - x| ≤ 1 / 20 ∧ ∃ z : ℤ, y * 10 = z

/-- The row shows the sums of the given rows, divided by `S`. -/
structure ShowsAverage (row : ShuffledStock.Results) (S A : ℕ) (rows : List ShuffledStock.Results) : Prop where
  stockName : row.stockName = "Average"
  possible : (rows.map (·.numPossibleTrades)).head? = some row.numPossibleTrades
  optimalCount : Rounded1 ((rows.map (·.optimalCount)).sum / S) row.optimalCount
  optimalCountWithZero : Rounded1 ((rows.map (·.optimalCountWithZero)).sum / S) row.optimalCountWithZero
  optimalGft : Rounded1 ((rows.map (·.optimalGft)).sum / S) row.optimalGft
  length : row.auctions.length = A
  auctions : ∀ j (hj : j < row.auctions.length),
    Rounded1 ((rows.map fun x => (x.auctions.getD j ⟨0, 0, 0, 0⟩).count).sum / S) row.auctions[j].count ∧
    CutTo 3 ((rows.map fun x => (x.auctions.getD j ⟨0, 0, 0, 0⟩).countRatio).sum / S) row.auctions[j].countRatio ∧
    Rounded1 ((rows.map fun x => (x.auctions.getD j ⟨0, 0, 0, 0⟩).gft).sum / S) row.auctions[j].gft ∧
    CutTo 3 ((rows.map fun x => (x.auctions.getD j ⟨0, 0, 0, 0⟩).gftRatio).sum / S) row.auctions[j].gftRatio

/-- The rows of size `n` in a table of pairs of size and row. -/
def rowsOfSize (n : ℕ) (pairs : List (ℕ × ShuffledStock.Results)) : List ShuffledStock.Results := (pairs.filter (·.1 = n)).map Prod.snd

/-- What theory predicts for a row, whether it is of a stock or an average. -/
structure ShuffledAsPredicted (row : ShuffledStock.Results) : Prop where
  zero : 0 ≤ row.optimalCount ∧ row.optimalCount ≤ row.optimalCountWithZero
  count : ∀ c ∈ row.auctions, c.count ≤ row.optimalCountWithZero ∧ row.optimalCountWithZero ≤ c.count + 1
  countRatio : ∀ c ∈ row.auctions, 0 ≤ c.countRatio ∧ c.countRatio ≤ 100
  gain : ∀ c ∈ row.auctions, 0 ≤ c.gft ∧ c.gft ≤ row.optimalGft
  ratio : ∀ c ∈ row.auctions, 0 ≤ c.gftRatio ∧ c.gftRatio ≤ 100

/-- Prices for which the experiment on recipe `r` is sensible: all counts of the recipe are positive; there is a name for every stock; the numbers are within the limits of the code. -/
structure SensibleShuffled (r : List ℕ) (stocks : List (List ℚ)) (names : List String) : Prop where
  recipe : r ≠ []
  positive : ∀ x ∈ r, 0 < x
  names : stocks.length ≤ names.length
  bounded : ∃ B : ℚ, (∀ s ∈ stocks, ∀ v ∈ s, |v| ≤ B) ∧ (r.sum : ℚ) * (B * r.sum) < MAX_VALUE
  agents : ∀ s ∈ stocks, s.length ≤ 2000000

end Auctions.Spec
