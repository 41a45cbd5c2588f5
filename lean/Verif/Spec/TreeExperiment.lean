import Verif.Model.TreeExperiment
import Verif.Spec.Tree
import Verif.Spec.Ties
import Verif.Spec.View

set_option autoImplicit false

/-!
# What the table of an experiment on a recipe tree says

Written without the code of `experiment_ascending_auction_recipetree_random.py`.
-/

namespace Auctions.Spec

open Auctions

/-- What is measured in one iteration: number of deals, total gain and smallest and largest number of deals on a path of the optimal trade;
number of deals and total gain of the auction. -/
structure TreeMeasurement where
  optimalDeals : ℕ
  kmin : ℕ
  kmax : ℕ
  deals : ℕ
  optimalGain : ℚ
  gain : ℚ

/-- `x` is measured on market `m`: the tree exists, the auction returns a trade, and the numbers are those of `optimal_trade_with_counters()` and of
the trade. -/
def TreeMeasured (f : List (List ℕ) → ℚ → Py (List ℚ)) (fuel : ℕ) (recipe : List PyObj) (m : Market) (x : TreeMeasurement) : Prop :=
  ∃ t trade, RecipeTree.init m.numCategories recipe = .ok t ∧ TreeAuction.auction f m recipe fuel = .ok (some trade) ∧
    ∃ r, r = t.optimalTradeWithCounters (TreeAuction.valuesAt m.categories) ∧
    x = ⟨r.count, r.kmin, r.kmax, trade.numOfDeals, r.gain, trade.gainFromTrade⟩

/-- The sum of `f` over the iterations. -/
def total (f : TreeMeasurement → ℚ) (xs : List TreeMeasurement) : ℚ := (xs.map f).sum

/-- The row for `n` agents per category reports the iterations `xs`: the columns are exact means; the formula is that of the mean of `kmin`, in
percent and at least 0; the ratios of the sums are in percent, a ratio to zero is shown as 0. A warning has been printed for every iteration in
which the auction did at least three deals less than the optimal trade. -/
structure TreeReports (row : TreeExperiment.Row) (n : ℕ) (xs : List TreeMeasurement) : Prop where
  iterations : row.iterations = xs.length
  agents : row.numOfAgents = n
  optimalCount : row.meanOptimalCount = total (fun x => x.optimalDeals) xs / xs.length
  kmin : row.meanOptimalKmin = total (fun x => x.kmin) xs / xs.length
  kmax : row.meanOptimalKmax = total (fun x => x.kmax) xs / xs.length
  formula : row.gftFormula = max 0 ((row.meanOptimalKmin - 1) / (row.meanOptimalKmin + 1) * 100)
  auctionCount : row.meanAuctionCount = total (fun x => x.deals) xs / xs.length
  countRatio : (total (fun x => x.optimalDeals) xs = 0 → row.countRatio = 0) ∧ (total (fun x => x.optimalDeals) xs ≠ 0 →
    row.countRatio * total (fun x => x.optimalDeals) xs = 100 * total (fun x => x.deals) xs)
  optimalGft : row.meanOptimalGft = total (fun x => x.optimalGain) xs / xs.length
  totalGft : row.meanAuctionTotalGft = total (fun x => x.gain) xs / xs.length
  ratio : (total (fun x => x.optimalGain) xs = 0 → row.totalGftRatio = 0) ∧ (total (fun x => x.optimalGain) xs ≠ 0 →
    row.totalGftRatio * total (fun x => x.optimalGain) xs = 100 * total (fun x => x.gain) xs)
  warnings : row.warnings = (xs.filter (fun x => x.deals + 3 ≤ x.optimalDeals)).length

/-- A market drawn with `k` categories: category `c` has `counts[c] * n` agents, rounded down; their values are whole numbers between
`low * values[c]` and `high * values[c]`, up to the rounding of these ends, where `low` and `high` are the first range for category 0 and the second
range for all other categories. -/
def TreeDrawn (k n : ℕ) (ranges : List (ℚ × ℚ)) (counts values : List ℚ) (m : Market) : Prop :=
  m.numCategories = k ∧ ∀ c (hc : c < m.categories.length),
    ((m.categories[c].size : ℚ) ≤ n * counts.getD c 0 ∧ n * counts.getD c 0 < m.categories[c].size + 1) ∧
    ∀ v ∈ m.categories[c].values, (∃ z : ℤ, v = z) ∧
      (ranges.getD (if c = 0 then 0 else 1) 0).1 * values.getD c 0 - 1 / 2 ≤ v ∧
      v ≤ (ranges.getD (if c = 0 then 0 else 1) 0).2 * values.getD c 0 + 1 / 2

/-- Parameters for which an experiment with `K` categories is sensible: two ranges of values; a count and a factor, both at least 0, for every
category; no value below the smallest number the code knows; the generator returns numbers between 0 and 1. -/
structure TreeSensible (K : ℕ) (ranges : List (ℚ × ℚ)) (counts values : List ℚ) (random : ℕ → ℕ → ℕ → ℕ → ℚ) : Prop where
  two : 2 ≤ ranges.length
  ordered : ∀ x ∈ ranges, x.1 ≤ x.2
  enough : K ≤ counts.length
  counts_nonneg : ∀ x ∈ counts, 0 ≤ x
  factors : K ≤ values.length
  factors_nonneg : ∀ x ∈ values, 0 ≤ x
  low : ∀ x ∈ ranges, ∀ v ∈ values, 1 / 2 - MAX_VALUE ≤ x.1 * v
  unit : ∀ i j c a, 0 ≤ random i j c a ∧ random i j c a ≤ 1

/-- What can be said of every row, whatever the markets: on average the auction does at most as many deals as the optimal trade and does not gain
more; no gain is negative; the two ratios are percentages. -/
structure TreeAsPredicted (row : TreeExperiment.Row) : Prop where
  count_le : row.meanAuctionCount ≤ row.meanOptimalCount
  countRatio_nonneg : 0 ≤ row.countRatio
  countRatio_le : row.countRatio ≤ 100
  gain_nonneg : 0 ≤ row.meanAuctionTotalGft
  gain_le : row.meanAuctionTotalGft ≤ row.meanOptimalGft
  ratio_nonneg : 0 ≤ row.totalGftRatio
  ratio_le : row.totalGftRatio ≤ 100
  formula_nonneg : 0 ≤ row.gftFormula
  formula_le : row.gftFormula < 100

/-- A market without ties, in which no value is outside `[-B, B]`. -/
structure TieFreeMarket (tree : Forest) (B : ℚ) (m : Market) : Prop where
  bound : ∀ l ∈ m.valueLists, ∀ x ∈ l, -B ≤ x ∧ x ≤ B
  ties : TieFree (fun c => m.valueLists.getD c []) tree

end Auctions.Spec
