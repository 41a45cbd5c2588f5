import Verif.Model.Experiment

set_option autoImplicit false

/-!
# What the table of an experiment says

Written without the code of `experiment.py`: from measurements of the single iterations to the columns documented at the top of
that file.
-/

namespace Auctions.Spec

open Auctions

/-- What is measured in one iteration: deals and gain of the optimal trade; deals, gain and gain without the auctioneer of the
auction. -/
structure Measurement where
  optimalDeals : ℕ
  deals : ℕ
  optimalGain : ℚ
  gain : ℚ
  marketGain : ℚ

/-- `x` is measured on market `m`: the optimal trade and the trade of the auction both exist, and the five numbers are theirs. -/
def Measured (auction : Market → List ℕ → Py (Option TradeWithSinglePrice)) (r : List ℕ) (m : Market) (x : Measurement) : Prop :=
  ∃ opt rem t, m.optimalTrade r = .ok (opt, rem) ∧ auction m r = .ok (some t) ∧
    x.optimalDeals = opt.numOfDeals ∧ x.deals = t.numOfDeals ∧ x.optimalGain = opt.gainFromTrade ∧
    t.gainFromTrade true = .ok x.gain ∧ t.gainFromTrade false = .ok x.marketGain

/-- The mean of `f` over the iterations. -/
def mean (f : Measurement → ℚ) (xs : List Measurement) : ℚ := (xs.map f).sum / xs.length

/-- `x` is shown with two decimals as `y`. -/
def Rounded (x y : ℚ) : Prop := |y - x| ≤ 1 / 200 ∧ ∃ z : ℤ, y * 100 = z

/-- The row for `n` procurement-sets per category reports the iterations `xs`: means with two decimals, the ratio of the numbers
of deals in percent cut to two decimals, the ratios of the gains in percent with two decimals; a ratio to zero is shown as 0. -/
structure Reports (row : Experiment.Row) (n : ℕ) (xs : List Measurement) : Prop where
  iterations : row.iterations = xs.length
  agents : row.numOfAgents = n
  optimalCount : Rounded (mean (fun x => x.optimalDeals) xs) row.meanOptimalCount
  auctionCount : Rounded (mean (fun x => x.deals) xs) row.meanAuctionCount
  optimalGft : Rounded (mean (fun x => x.optimalGain) xs) row.meanOptimalGft
  totalGft : Rounded (mean (fun x => x.gain) xs) row.meanAuctionTotalGft
  marketGft : Rounded (mean (fun x => x.marketGain) xs) row.meanAuctionMarketGft
  countRatio : if (xs.map (fun x => (x.optimalDeals : ℚ))).sum = 0 then row.countRatio = 0 else
    row.countRatio ≤ (xs.map (fun x => (x.deals : ℚ))).sum / (xs.map (fun x => (x.optimalDeals : ℚ))).sum * 100 ∧
    (xs.map (fun x => (x.deals : ℚ))).sum / (xs.map (fun x => (x.optimalDeals : ℚ))).sum * 100 < row.countRatio + 1 / 100
  totalRatio : if (xs.map (fun x => x.optimalGain)).sum = 0 then row.totalGftRatio = 0 else
    Rounded ((xs.map (fun x => x.gain)).sum / (xs.map (fun x => x.optimalGain)).sum * 100) row.totalGftRatio
  marketRatio : if (xs.map (fun x => x.optimalGain)).sum = 0 then row.marketGftRatio = 0 else
    Rounded ((xs.map (fun x => x.marketGain)).sum / (xs.map (fun x => x.optimalGain)).sum * 100) row.marketGftRatio

/-- A market drawn for recipe `r` with `n` procurement-sets per category from the given ranges of values: `n * r[c]` agents in
category `c`, whose values are whole numbers at most 1/2 outside the range of the category. -/
def Drawn (r : List ℕ) (n : ℕ) (ranges : List (ℚ × ℚ)) (m : Market) : Prop :=
  m.numCategories = r.length ∧ ∀ c (hc : c < m.categories.length),
    m.categories[c].size = n * r.getD c 0 ∧
    ∀ v ∈ m.categories[c].values, (∃ z : ℤ, v = z) ∧
      (ranges.getD c 0).1 - 1 / 2 ≤ v ∧ v ≤ (ranges.getD c 0).2 + 1 / 2

/-- Parameters for which an experiment on recipe `r` is sensible: every category takes part in a deal, there is a range of values for every
category, and it stays far enough from the largest number the code knows; there is at least one iteration; the generator returns
numbers between 0 and 1. -/
structure Sensible (r : List ℕ) (ranges : List (ℚ × ℚ)) (ns : List ℕ) (iterations : ℕ) (random : ℕ → ℕ → ℕ → ℕ → ℚ) : Prop where
  recipe : r ≠ []
  positive : ∀ x ∈ r, 0 < x
  enough : r.length ≤ ranges.length
  range : ∀ x ∈ ranges, 1 / 2 - MAX_VALUE ≤ x.1 ∧ x.1 ≤ x.2 ∧ (r.sum : ℚ) * (x.2 + 1 / 2) < MAX_VALUE
  some : 0 < iterations
  agents : ∀ n ∈ ns, n * r.sum ≤ 2000000
  unit : ∀ i j c a, 0 ≤ random i j c a ∧ random i j c a ≤ 1

/-- What theory predicts for a row (`experiment.py:10-22`, except for the bound `1 - 1/k` on the ratio of the gains, which the theorems
state separately): the auction makes at most the optimal number of deals and loses at most one on average; there are at most as many
deals as procurement-sets; the gain of the auction is between 0 and the optimal gain; the traders get at most the whole gain. -/
structure AsPredicted (row : Experiment.Row) : Prop where
  count_le : row.meanAuctionCount ≤ row.meanOptimalCount
  loses_one : row.meanOptimalCount ≤ row.meanAuctionCount + 1
  within : row.meanOptimalCount ≤ row.numOfAgents
  countRatio_nonneg : 0 ≤ row.countRatio
  countRatio_le : row.countRatio ≤ 100
  gain_nonneg : 0 ≤ row.meanAuctionTotalGft
  gain_le : row.meanAuctionTotalGft ≤ row.meanOptimalGft
  ratio_nonneg : 0 ≤ row.totalGftRatio
  ratio_le : row.totalGftRatio ≤ 100
  market_le : row.meanAuctionMarketGft ≤ row.meanAuctionTotalGft
  marketRatio_le : row.marketGftRatio ≤ row.totalGftRatio

/-- All optimal trades of the iterations of a row have at least `k` deals. -/
def AtLeast (k : ℕ) (r : List ℕ) (ranges : List (ℚ × ℚ)) (n N : ℕ) (random : ℕ → ℕ → ℕ → ℚ) : Prop :=
  ∀ j < N, ∀ m opt rem, Experiment.randomMarket r n ranges (random j) = .ok m → m.optimalTrade r = .ok (opt, rem) → k ≤ opt.numOfDeals

end Auctions.Spec
