import Verif.Model.TreeStockExperiment
import Verif.Spec.TreeExperiment

set_option autoImplicit false

/-!
# What the table of a recipe-tree experiment with stock prices says

Written without the code of `experiment_ascending_auction_recipetree_stock.py`, except for the types of its rows.
-/

namespace Auctions.Spec

open Auctions

/-- The size at position `p` of `sizes` is measured for a stock with `available` prices in its first category: at most one of the sizes up to and
including this one is larger than `available`. (For increasing sizes: all sizes that are not larger, and the first one that is.) -/
def SizeMeasured (available : ℕ) (sizes : List ℕ) (p : ℕ) : Prop := ((sizes.take (p + 1)).filter (fun n => available < n)).length ≤ 1

instance (available : ℕ) (sizes : List ℕ) (p : ℕ) : Decidable (SizeMeasured available sizes p) := by unfold SizeMeasured; infer_instance

/-- `m` is a market of size `n` from the lists `prices`: some order of each list is chosen; if `n` is not larger than the first list, category `j` has
the values of the first `counts[j] * n` prices, rounded down, of list `j`; otherwise it has the whole list. -/
def StockMarket (prices : List (List ℚ)) (counts : List ℚ) (n : ℕ) (m : Market) : Prop :=
  ∃ order : List (List ℚ), List.Forall₂ List.Perm order prices ∧ m.numCategories = prices.length ∧
    ∀ j (_ : j < prices.length), (m.valueLists.getD j []).Perm
      (if n ≤ (prices.getD 0 []).length then (order.getD j []).take ⌊n * counts.getD j 0⌋.toNat else order.getD j [])

/-- The row for size `n` reports the measurements `xs`, in an experiment with `S` stocks and `N` iterations: a row without measurements has no
averages; in the others, the "averages" are the sums over the measurements, divided by `S` and by `N`. The ratios are averages of ratios (in
percent; a ratio to zero is shown as 0). -/
structure TreeStockReports (row : TreeStockExperiment.Row) (S N : ℕ) (xs : List TreeMeasurement) : Prop where
  none : row.average = none ↔ xs = []
  no_formula : xs = [] → row.gftFormula = 0
  some : ∀ a, row.average = some a →
    a.optimalCount = total (fun x => x.optimalDeals) xs / S / N ∧
    a.optimalKmin = total (fun x => x.kmin) xs / S / N ∧
    a.optimalKmax = total (fun x => x.kmax) xs / S / N ∧
    a.optimalGft = total (fun x => x.optimalGain) xs / S / N ∧
    a.auctionCount = total (fun x => x.deals) xs / S / N ∧
    a.countRatio = total (fun x => if x.optimalDeals = 0 then 0 else (x.deals : ℚ) / x.optimalDeals * 100) xs / S / N ∧
    a.gft = total (fun x => x.gain) xs / S / N ∧
    a.gftRatio = total (fun x => if x.optimalGain = 0 then 0 else x.gain / x.optimalGain * 100) xs / S / N ∧
    row.gftFormula = if a.optimalKmin ≤ 1 then 0 else (1 - 1 / a.optimalKmin) * 100

/-- What can be said of every row, whatever the prices, when the size is measured for `M` of the `S` stocks: on "average" the auction does at most as many
deals as the optimal trade and does not gain more; no gain is negative; the ratios are at most `M / S`, in percent. -/
structure TreeStockAsPredicted (row : TreeStockExperiment.Row) (M S : ℕ) : Prop where
  formula_nonneg : 0 ≤ row.gftFormula
  formula_lt : row.gftFormula < 100
  average : ∀ a, row.average = some a → a.auctionCount ≤ a.optimalCount ∧ 0 ≤ a.gft ∧ a.gft ≤ a.optimalGft ∧
    0 ≤ a.countRatio ∧ a.countRatio ≤ 100 * M / S ∧ 0 ≤ a.gftRatio ∧ a.gftRatio ≤ 100 * M / S

end Auctions.Spec
