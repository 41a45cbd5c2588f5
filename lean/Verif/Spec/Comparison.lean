import Verif.Model.ComparingExperiment
import Verif.Spec.Experiment

set_option autoImplicit false

/-!
# Hypotheses of the comparisons of the two strongly budget balanced auctions
-/

namespace Auctions.Spec

open Auctions

/-- All counts but the last are 1. -/
def OnesThen (r : List ℕ) : Prop := ∃ c x, 0 < x ∧ r = List.replicate c 1 ++ [x]

/-- Parameters for which the comparison is sensible: recipes of positive counts, a range of values for every category, far enough from the largest
number the code knows; the generator returns numbers between 0 and 1. -/
structure SensibleComparison (recipes : List (List ℕ)) (ranges : List (ℚ × ℚ)) (ns : List ℕ) (random : ℕ → ℕ → ℕ → ℕ → ℕ → ℚ) : Prop where
  recipe : ∀ r ∈ recipes, r ≠ [] ∧ (∀ x ∈ r, 0 < x) ∧ r.length ≤ ranges.length
  range : ∀ x ∈ ranges, x.1 ≤ x.2
  bounded : ∀ r ∈ recipes, ∀ x ∈ ranges, (r.sum : ℚ) * (r.sum * |x.1| + 1) ≤ MAX_VALUE ∧ (r.sum : ℚ) * (r.sum * |x.2| + 1) ≤ MAX_VALUE
  agents : ∀ r ∈ recipes, ∀ n ∈ ns, n * r.sum ≤ 2000000
  unit : ∀ i j l c a, 0 ≤ random i j l c a ∧ random i j l c a ≤ 1

/-- The trades of the two auctions for one number of agents, one per iteration: number of deals and gain from trade. -/
structure Duel where
  external : List (ℕ × ℚ)
  ascending : List (ℕ × ℚ)

/-- Total number of deals. -/
def deals (xs : List (ℕ × ℚ)) : ℕ := (xs.map Prod.fst).sum

/-- Total gain from trade. -/
def gains (xs : List (ℕ × ℚ)) : ℚ := (xs.map Prod.snd).sum

/-- The trade `t` has this number of deals and this gain from trade. -/
def HasOutcome (t : TradeWithSinglePrice) (x : ℕ × ℚ) : Prop := t.numOfDeals = x.1 ∧ t.gainFromTrade = .ok x.2

/-- The duel on the given markets: in iteration `j` both auctions run on market `j`. -/
def Duel.On (d : Duel) (r : List ℕ) (fuel : ℕ) (markets : ℕ → Py Market) (N : ℕ) : Prop :=
  ∃ (h : d.external.length = N) (h' : d.ascending.length = N), ∀ j (hj : j < N), ∃ m t t', markets j = .ok m ∧
    TradeReduction.tradeReduction m r = .ok t ∧ Ascending.auction m r fuel = .ok (some t') ∧
    HasOutcome t d.external[j] ∧ HasOutcome t' d.ascending[j]

/-- The row of a recipe reports the duels, one per number of agents: how many were won by trade reduction, tied, and won by the ascending auction, by
total gain from trade, and the same as whole percentages, by total gain and by total number of deals. -/
structure ReportsDuels (row : ComparingExperiment.Row) (ds : List Duel) : Prop where
  externalWins : row.externalWins = ds.countP (fun d => gains d.ascending < gains d.external)
  tie : row.tie = ds.countP (fun d => gains d.external = gains d.ascending)
  ascendingWins : row.ascendingWins = ds.countP (fun d => gains d.external < gains d.ascending)
  externalWinsGft : row.externalWinsGft = ⌊((ds.countP (fun d => gains d.ascending < gains d.external) : ℕ) : ℚ) * 100 / ds.length⌋
  tieGft : row.tieGft = ⌊((ds.countP (fun d => gains d.external = gains d.ascending) : ℕ) : ℚ) * 100 / ds.length⌋
  ascendingWinsGft : row.ascendingWinsGft = ⌊((ds.countP (fun d => gains d.external < gains d.ascending) : ℕ) : ℚ) * 100 / ds.length⌋
  externalWinsK : row.externalWinsK = ⌊((ds.countP (fun d => deals d.ascending < deals d.external) : ℕ) : ℚ) * 100 / ds.length⌋
  tieK : row.tieK = ⌊((ds.countP (fun d => deals d.external = deals d.ascending) : ℕ) : ℚ) * 100 / ds.length⌋
  ascendingWinsK : row.ascendingWinsK = ⌊((ds.countP (fun d => deals d.external < deals d.ascending) : ℕ) : ℚ) * 100 / ds.length⌋

end Auctions.Spec
