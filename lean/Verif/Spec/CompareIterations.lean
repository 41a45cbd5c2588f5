import Verif.Model.CompareIterations
import Verif.Spec.Experiment
import Verif.Spec.View
import Verif.Model.Ascending
import Verif.Model.TradeReduction
import Verif.Model.McAfee

set_option autoImplicit false

/-!
# What the table of a comparison of several auctions says

Written without the code of `stock/experiment_compare_iterations_autions.py`, except for the types of its rows.
-/

namespace Auctions.Spec

open Auctions

/-- What an auction did on a market. -/
structure Achieved where
  deals : ℕ
  gain : ℚ
  marketGain : ℚ

/-- What is measured on one market: deals and gain of the optimal trade without, and with, the procurement-sets that gain nothing; what each auction did. -/
structure Contest where
  optimalDeals : ℕ
  optimalDealsWithZero : ℕ
  optimalGain : ℚ
  optimalGainWithZero : ℚ
  achieved : List Achieved

/-- The contest `x` is held on market `m`. -/
def Contested (auctions : List (Bool × Experiment.AuctionFunction)) (r : List ℕ) (m : Market) (x : Contest) : Prop :=
  ∃ opt rem opt0 rem0, m.optimalTrade r 10000000 false = .ok (opt, rem) ∧ m.optimalTrade r 10000000 true = .ok (opt0, rem0) ∧
    x.optimalDeals = opt.numOfDeals ∧ x.optimalDealsWithZero = opt0.numOfDeals ∧
    x.optimalGain = opt.gainFromTrade ∧ x.optimalGainWithZero = opt0.gainFromTrade ∧
    List.Forall₂ (fun auction y => ∃ t, auction.2 m r = .ok (some t) ∧ y.deals = t.numOfDeals ∧
      t.gainFromTrade true = .ok y.gain ∧ t.gainFromTrade false = .ok y.marketGain) auctions x.achieved

/-- `y` is `x` without the decimals after the first `d`. -/
def CutTo (d : ℕ) (x y : ℚ) : Prop := (∃ z : ℤ, y * 10 ^ d = z) ∧ |x - y| * 10 ^ d < 1 ∧ |y| ≤ |x| ∧ 0 ≤ x * y

/-- `x` as a percentage of `y`; 0 if `guard` is. -/
def percentage (guard x y : ℚ) : ℚ := if guard = 0 then 0 else x / y * 100

/-- The share of the optimal gain that theory promises when the optimal trade has `k` deals, in percent: `(k-1)/k` for recipes of ones, and
`(k-1)/(k+1)` in general. -/
def promised (r : List ℕ) (k : ℕ) : ℚ :=
  if k ≤ 1 then 0 else if r = List.replicate r.length 1 then (k - 1) / k * 100 else (k - 1) / (k + 1) * 100

/-- The mean of `f` over the contests. -/
def average (f : Contest → ℚ) (xs : List Contest) : ℚ := (xs.map f).sum / xs.length

/-- The columns of auction `j` report the contests `xs`. -/
structure ReportsAuction (c : CompareIterations.AuctionColumns) (xs : List Contest) (of : Contest → Achieved) : Prop where
  count : CutTo 2 (average (fun x => (of x).deals) xs) c.count
  countRatio : CutTo 2 (average (fun x => percentage x.optimalDeals (of x).deals x.optimalDealsWithZero) xs) c.countRatio
  totalGft : CutTo 2 (average (fun x => (of x).gain) xs) c.totalGft
  totalGftRatio : CutTo 3 (average (fun x => percentage x.optimalGain (of x).gain x.optimalGainWithZero) xs) c.totalGftRatio
  marketGft : CutTo 2 (average (fun x => (of x).marketGain) xs) c.marketGft
  marketGftRatio : CutTo 3 (average (fun x => percentage x.optimalGain (of x).marketGain x.optimalGainWithZero) xs) c.marketGftRatio
  withoutZeroCountRatio : CutTo 2 (average (fun x => percentage x.optimalDeals (of x).deals x.optimalDeals) xs) c.withoutZeroCountRatio
  withoutZeroTotalGft : CutTo 2 (average (fun x => (of x).gain) xs) c.withoutZeroTotalGft
  withoutZeroTotalGftRatio : CutTo 3 (average (fun x => percentage x.optimalGain (of x).gain x.optimalGain) xs) c.withoutZeroTotalGftRatio

/-- The row for `n` procurement-sets reports the contests `xs` of `A` auctions. All columns are means over the contests. -/
structure ReportsContests (row : CompareIterations.Results) (r : List ℕ) (n A : ℕ) (xs : List Contest) : Prop where
  stockName : row.stockName = "Average"
  possible : row.numPossibleTrades = n
  optimalCount : CutTo 2 (average (fun x => x.optimalDeals) xs) row.optimalCount
  formula : CutTo 3 (average (fun x => promised r x.optimalDeals) xs) row.gftRatioFormula
  optimalCountWithZero : CutTo 2 (average (fun x => x.optimalDealsWithZero) xs) row.optimalCountWithZero
  optimalGft : CutTo 2 (average (fun x => x.optimalGain) xs) row.optimalGft
  optimalGftWithZero : CutTo 2 (average (fun x => x.optimalGainWithZero) xs) row.optimalGftWithZero
  length : row.auctions.length = A
  auctions : ∀ j (hj : j < row.auctions.length), ReportsAuction row.auctions[j] xs (fun x => x.achieved.getD j ⟨0, 0, 0⟩)

/-- `m` is dealt from the prices of a stock for size `n`: the list of prices is repeated `2 ^ e` times and brought into some order; category 0 gets the first
`n * r[0]` prices, category 1 the next `n * r[1]`, and so on. Prices are made whole numbers by leaving out the decimals, after multiplication with
`(r[1] + r[2] + …) / r[0]` for the buyers, and with -1 for the sellers. The list is not repeated more often than needed for one of the sizes `sizes`. -/
def DealtFrom (prices : List ℚ) (r : List ℕ) (sizes : List ℕ) (n : ℕ) (m : Market) : Prop :=
  ∃ (e : ℕ) (order : List ℚ), order.Perm (List.replicate (2 ^ e) prices).flatten ∧ n * r.sum ≤ order.length ∧
    (e ≠ 0 → ∃ n' ∈ sizes, 2 ^ (e - 1) * prices.length < n' * r.sum) ∧
    m.numCategories = r.length ∧ ∀ j < r.length, (m.valueLists.getD j []).Perm
      (((order.drop (n * (r.take j).sum)).take (n * r.getD j 0)).map fun price =>
        (pyInt (price * if j = 0 then ((r.sum : ℚ) - r.getD 0 0) / r.getD 0 0 else -1) : ℚ))

/-- The ranges of the values when prices are not used: from `s` to `100000 * s` for the buyers, where `s = (r[1] + r[2] + …) / r[0]`, and from -100000 to -1
for the sellers. -/
def ranges (r : List ℕ) : List (ℚ × ℚ) :=
  (((r.sum : ℚ) - r.getD 0 0) / r.getD 0 0, 100000 * (((r.sum : ℚ) - r.getD 0 0) / r.getD 0 0)) :: List.replicate (r.length - 1) (-100000, -1)

/-- How many notes are filed on the values `vs` that several auctions reached on one market: one if some value differs from the first one, but only if such
notes are asked for; and one if some value is less than the first one. -/
def notes (asked : Bool) : List ℚ → ℕ
  | [] => 0
  | v :: vs => (if asked = true ∧ ∃ w ∈ vs, w ≠ v then 1 else 0) + (if ∃ w ∈ vs, w < v then 1 else 0)

/-- The achievements of the marked auctions. -/
def marked (auctions : List (Bool × Experiment.AuctionFunction)) (x : Contest) : List Achieved :=
  ((auctions.zip x.achieved).filter (fun a => a.1.1)).map Prod.snd

/-- The notes that a contest calls for: on the gains of the marked auctions. -/
def gainNotes (b : Bool) (auctions : List (Bool × Experiment.AuctionFunction)) (x : Contest) : ℕ := notes b ((marked auctions x).map Achieved.gain)

/-- The notes that a contest calls for: on the numbers of deals of the marked auctions. -/
def dealNotes (b : Bool) (auctions : List (Bool × Experiment.AuctionFunction)) (x : Contest) : ℕ := notes b ((marked auctions x).map fun a => (a.deals : ℚ))

/-- The contests for size number `i`: `N` iterations for each of `S` stocks. -/
def contestsOf (S N i : ℕ) (X : ℕ → ℕ → ℕ → Contest) : List Contest := (List.range S).flatMap fun a => (List.range N).map (X a i)

/-- All contests, for `S` stocks, `I` sizes and `N` iterations. -/
def allContests (S I N : ℕ) (X : ℕ → ℕ → ℕ → Contest) : List Contest :=
  (List.range S).flatMap fun a => (List.range I).flatMap fun i => (List.range N).map (X a i)

/-- An auction for whose trades theory makes predictions, on markets for recipe `r` with at most `A` agents: the ascending auction (with enough steps), trade
reduction by external competition, or McAfee's auction; the last only for recipes of ones, and without the heuristic if there are not two categories. -/
inductive Predictable (r : List ℕ) (A : ℕ) : Experiment.AuctionFunction → Prop
  | ascending (fuel : ℕ) (h : A < fuel) : Predictable r A (fun m r => Ascending.auction m r fuel)
  | reduction : Predictable r A (fun m r => (TradeReduction.tradeReduction m r).map some)
  | mcafee (heuristic : Bool) (hr : r = List.replicate r.length 1) (h : heuristic = false ∨ r.length = 2) :
    Predictable r A (fun m r => (McAfee.mcafeeTradeReduction m r heuristic).map some)

/-- A strongly budget balanced auction among them. -/
inductive Balanced (A : ℕ) : Experiment.AuctionFunction → Prop
  | ascending (fuel : ℕ) (h : A < fuel) : Balanced A (fun m r => Ascending.auction m r fuel)
  | reduction : Balanced A (fun m r => (TradeReduction.tradeReduction m r).map some)

/-- Arguments for which the comparison is sensible: all counts of the recipe are positive, there is a name for every stock, no size occurs twice, no market has more
than 2000000 agents; prices exist, and are within the limits of the code; without prices, the counts of the recipe add up to at most 31, for the same
reason; shuffling a list keeps its members; the generator returns numbers between 0 and 1. -/
structure SensibleContests (r : List ℕ) (ns : List ℕ) (prices : List (List ℚ)) (names : List String) (stockMode : Bool)
    (shuffle : ℕ → ℕ → ℕ → List ℚ → List ℚ) (random : ℕ → ℕ → ℕ → ℕ → ℕ → ℚ) : Prop where
  recipe : r ≠ []
  positive : ∀ x ∈ r, 0 < x
  names : prices.length ≤ names.length
  sizes : ns.Nodup
  agents : ∀ n ∈ ns, n * r.sum ≤ 2000000
  prices : stockMode = true → ∃ B : ℚ, (∀ p ∈ prices, p ≠ [] ∧ ∀ x ∈ p, |x| ≤ B) ∧ (r.sum : ℚ) * (B * r.sum + 1 / 2) < MAX_VALUE
  drawn : stockMode = false → r.sum ≤ 31
  shuffle : ∀ a i l p, (shuffle a i l p).Perm p
  unit : ∀ a i l c k, 0 ≤ random a i l c k ∧ random a i l c k ≤ 1

/-- What theory predicts for the columns of an auction. The last but one line is the bound on the gain: the share of the optimal gain that is
reached is at least what `promised` says. -/
structure AuctionAsPredicted (row : CompareIterations.Results) (c : CompareIterations.AuctionColumns) : Prop where
  count_le : c.count ≤ row.optimalCountWithZero
  loses_one : row.optimalCountWithZero ≤ c.count + 1
  countRatio : 0 ≤ c.countRatio ∧ c.countRatio ≤ 100
  gain : 0 ≤ c.totalGft ∧ c.totalGft ≤ row.optimalGft
  ratio_le : c.totalGftRatio ≤ 100
  market_le : c.marketGft ≤ c.totalGft
  marketRatio_le : c.marketGftRatio ≤ c.totalGftRatio
  withoutZero : c.withoutZeroTotalGft = c.totalGft ∧ c.withoutZeroTotalGftRatio = c.totalGftRatio ∧ c.countRatio ≤ c.withoutZeroCountRatio
  bound : row.gftRatioFormula ≤ c.totalGftRatio

/-- What theory predicts for a row. -/
structure ContestsAsPredicted (row : CompareIterations.Results) : Prop where
  zero_count : 0 ≤ row.optimalCount ∧ row.optimalCount ≤ row.optimalCountWithZero
  within : row.optimalCountWithZero ≤ row.numPossibleTrades
  zero_gain : row.optimalGft = row.optimalGftWithZero
  formula : 0 ≤ row.gftRatioFormula ∧ row.gftRatioFormula ≤ 100
  auctions : ∀ c ∈ row.auctions, AuctionAsPredicted row c

end Auctions.Spec
