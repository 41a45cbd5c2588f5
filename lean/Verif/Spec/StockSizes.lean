import Verif.Model.StockSizes
import Verif.Spec.StockExperiment
import Verif.Spec.View
import Verif.Spec.CompareIterations

set_option autoImplicit false

/-!
# What the table of a comparison of auctions on stock prices, for several sizes of the market, says

Only the types of rows and measures of the model are used.
-/

namespace Auctions.Spec

open Auctions

/-- `x` is measured on market `m`. -/
def TrialOn (auctions : List Experiment.AuctionFunction) (r : List ℕ) (m : Market) (x : StockSizes.Measures) : Prop :=
  ∃ opt rem opt0 rem0, m.optimalTrade r 10000000 false = .ok (opt, rem) ∧ m.optimalTrade r 10000000 true = .ok (opt0, rem0) ∧
    x.optimalCount = opt.numOfDeals ∧ x.optimalCountWithZero = opt0.numOfDeals ∧ x.optimalGft = opt.gainFromTrade ∧
    List.Forall₂ (fun auction y => ∃ t, auction m r = .ok (some t) ∧ y.1 = t.numOfDeals ∧ t.gainFromTrade false = .ok y.2) auctions x.auctions

/-- The market of size `n`: the first `n * r[j]` prices in each category, or all prices if there are less than `n` buyers. -/
def MarketOfSize (r : List ℕ) (prices : List (List ℚ)) (n : ℕ) (m : Market) : Prop :=
  m.numCategories = prices.length ∧ ∀ j < prices.length, (m.valueLists.getD j []).Perm
    (if n ≤ (prices.getD 0 []).length then (prices.getD j []).take (n * r.getD j 0) else prices.getD j [])

/-- The sizes that get a row: the list ends before the second size that is larger than `L`. -/
def shownSizes (L : ℕ) : List ℕ → List ℕ
  | [] => []
  | n :: ns => n :: (if n ≤ L then shownSizes L ns else ns.takeWhile (· ≤ L))

/-- The row reports the measures `x`. -/
structure ReportsTrial (row : StockSizes.Row) (name : String) (n : ℕ) (x : StockSizes.Measures) : Prop where
  stockName : row.stockName = name
  possible : row.numPossibleTrades = n
  optimalCount : row.optimalCount = x.optimalCount
  optimalCountWithZero : row.optimalCountWithZero = x.optimalCountWithZero
  optimalGft : Rounded x.optimalGft row.optimalGft
  auctions : List.Forall₂ (fun c a => c.count = a.1 ∧ Rounded a.2 c.gft ∧
    (if x.optimalCountWithZero = 0 then c.countRatio = 0 else
      c.countRatio ≤ (a.1 : ℚ) / x.optimalCountWithZero * 100 ∧ (a.1 : ℚ) / x.optimalCountWithZero * 100 < c.countRatio + 1 / 1000) ∧
    (if x.optimalGft = 0 then c.gftRatio = 0 else Rounded3 (a.2 / x.optimalGft * 100) c.gftRatio)) row.auctions x.auctions

/-- What theory predicts for the entries of a strongly budget balanced auction. -/
structure TrialAsPredicted (row : StockSizes.Row) (c : StockSizes.Columns) : Prop where
  count_le : c.count ≤ row.optimalCountWithZero
  loses_one : row.optimalCountWithZero ≤ c.count + 1
  countRatio : 0 ≤ c.countRatio ∧ c.countRatio ≤ 100
  gain : 0 ≤ c.gft ∧ c.gft ≤ row.optimalGft
  ratio : 0 ≤ c.gftRatio ∧ c.gftRatio ≤ 100
  bound : 0 < row.optimalGft → 0 < row.optimalCountWithZero → (1 - 1 / (row.optimalCountWithZero : ℚ)) * 100 - 1 / 2000 ≤ c.gftRatio

/-- What theory predicts for a row. -/
structure RowAsPredicted (row : StockSizes.Row) : Prop where
  zero : row.optimalCount ≤ row.optimalCountWithZero
  within : row.optimalCountWithZero ≤ row.numPossibleTrades
  auctions : ∀ c ∈ row.auctions, TrialAsPredicted row c

end Auctions.Spec
