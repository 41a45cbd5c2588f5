import Verif.Model.StockExperiment
import Verif.Spec.Experiment

set_option autoImplicit false

/-!
# What a row of the experiment with stock prices says
-/

namespace Auctions.Spec

open Auctions

/-- `q` is the largest number (in general a fraction) of procurement-sets for which there are enough agents in all categories. -/
def Possible (r : List ℕ) (prices : List (List ℚ)) (q : ℚ) : Prop :=
  (∀ j < prices.length, q * r.getD j 0 ≤ ((prices.getD j []).length : ℚ)) ∧
    ∃ j < prices.length, q * r.getD j 0 = ((prices.getD j []).length : ℚ)

/-- `x` is shown with three decimals as `y`. -/
def Rounded3 (x y : ℚ) : Prop := |y - x| ≤ 1 / 2000 ∧ ∃ z : ℤ, y * 1000 = z

/-- The row of a stock reports the measurement `x`, on a market with the given prices. -/
structure StockReports (row : StockExperiment.Row) (name : String) (r : List ℕ) (prices : List (List ℚ)) (x : Measurement) : Prop where
  stockName : row.stockName = name
  possible : ∃ q, Possible r prices q ∧ |(row.numPossibleTrades : ℚ) - q| ≤ 1 / 2
  optimalCount : row.optimalCount = x.optimalDeals
  auctionCount : row.auctionCount = x.deals
  countRatio : if x.optimalDeals = 0 then row.countRatio = 0 else
    row.countRatio ≤ (x.deals : ℚ) / x.optimalDeals * 100 ∧ (x.deals : ℚ) / x.optimalDeals * 100 < row.countRatio + 1 / 1000
  optimalGft : Rounded x.optimalGain row.optimalGft
  auctionGft : Rounded x.gain row.auctionGft
  marketGft : Rounded x.marketGain row.auctionMarketGft
  ratio : if x.optimalGain = 0 then row.auctionGftRatio = 0 else Rounded3 (x.gain / x.optimalGain * 100) row.auctionGftRatio
  marketRatio : if x.optimalGain = 0 then row.marketGftRatio = 0 else Rounded3 (x.marketGain / x.optimalGain * 100) row.marketGftRatio

/-- What theory predicts for the row of a stock (`stock/experiment_stock.py:18-31`): the auction does as many deals as the optimal trade, or one less;
there are at most as many deals as procurement-sets; the gain of the auction is between 0 and the optimal gain, and at least `1 - 1/k` of it;
the traders get at most the whole gain. -/
structure StockAsPredicted (row : StockExperiment.Row) : Prop where
  count_le : row.auctionCount ≤ row.optimalCount
  loses_one : row.optimalCount ≤ row.auctionCount + 1
  within : (row.optimalCount : ℤ) ≤ row.numPossibleTrades
  countRatio : 0 ≤ row.countRatio ∧ row.countRatio ≤ 100
  gain : 0 ≤ row.auctionGft ∧ row.auctionGft ≤ row.optimalGft
  ratio : 0 ≤ row.auctionGftRatio ∧ row.auctionGftRatio ≤ 100
  bound : 0 < row.optimalGft → 0 < row.optimalCount → (1 - 1 / (row.optimalCount : ℚ)) * 100 - 1 / 2000 ≤ row.auctionGftRatio
  market_le : row.auctionMarketGft ≤ row.auctionGft
  marketRatio_le : row.marketGftRatio ≤ row.auctionGftRatio

/-- Prices for which the experiment on recipe `r` is sensible: all counts of the recipe are positive; there is a name for every stock, and a list of
prices for every count of the recipe; the numbers are within the limits of the code. -/
structure SensibleStocks (r : List ℕ) (stocks : List (List (List ℚ))) (names : List String) : Prop where
  recipe : r ≠ []
  positive : ∀ x ∈ r, 0 < x
  names : stocks.length ≤ names.length
  categories : ∀ s ∈ stocks, s.length = r.length
  low : ∀ s ∈ stocks, ∀ l ∈ s, ∀ v ∈ l, -MAX_VALUE ≤ v
  high : ∀ s ∈ stocks, ∀ l ∈ s, ∀ v ∈ l, (r.sum : ℚ) * v < MAX_VALUE
  agents : ∀ s ∈ stocks, (s.map List.length).sum ≤ 2000000

end Auctions.Spec
