import Verif.Model.Experiment

set_option autoImplicit false

/-!
# Model of `experiment_comparing_sbb.py`

The random number generator is an arbitrary function; the table is the list of its rows.
-/

namespace Auctions.ComparingExperiment

open Auctions Experiment Ascending TradeReduction

/-- `experiment_comparing_sbb.py:58-59` — the sums over the iterations. -/
structure Totals where
  externalCount : ℕ
  ascendingCount : ℕ
  externalGft : ℚ
  ascendingGft : ℚ
  deriving DecidableEq, Repr

/-- `experiment_comparing_sbb.py:55-56` — how often each auction was better. -/
structure Wins where
  external : ℕ
  tie : ℕ
  ascending : ℕ
  deriving DecidableEq, Repr

/-- `experiment_comparing_sbb.py:60-65` — `agents_recipe_values` and the ranges from which the values of the categories are drawn. The
recipe is `first :: rest`: line 60 raises `IndexError` on an empty recipe. -/
def scaledRanges (first : ℕ) (rest : List ℕ) (valueRanges : List (ℚ × ℚ)) : List (ℚ × ℚ) :=
  List.zipWith (fun (range : ℚ × ℚ) (factor : ℕ) => (range.1 * factor, range.2 * factor)) valueRanges
    (((first :: rest).sum - first) :: rest.map (fun _ => first))

/-- `experiment_comparing_sbb.py:68-76` — one iteration after the market has been drawn. -/
def addMarket (recipe : List ℕ) (fuel : ℕ) (market : Market) (s : Totals) : Py (Option Totals) := do
  let _ ← market.optimalTrade recipe
  let external ← tradeReduction market recipe
  match ← auction market recipe fuel with
  | none => .ok none
  | some ascending => do
    let externalGft ← external.gainFromTrade
    let ascendingGft ← ascending.gainFromTrade
    .ok (some ⟨s.externalCount + external.numOfDeals, s.ascendingCount + ascending.numOfDeals,
      s.externalGft + externalGft, s.ascendingGft + ascendingGft⟩)

/-- `experiment_comparing_sbb.py:61-76` — the iterations, from number `i` on. -/
def iterations (recipe : List ℕ) (numOfAgents : ℕ) (ranges : List (ℚ × ℚ)) (fuel : ℕ) (random : ℕ → ℕ → ℕ → ℚ) :
    ℕ → ℕ → Totals → Py (Option Totals)
  | 0, _, s => .ok (some s)
  | n + 1, i, s => do
    let market ← randomMarket recipe numOfAgents ranges (random i)
    match ← addMarket recipe fuel market s with
    | none => .ok none
    | some s' => iterations recipe numOfAgents ranges fuel random n (i + 1) s'

/-- `experiment_comparing_sbb.py:78-83, 85-90` — one more comparison. -/
def Wins.count (w : Wins) (external ascending : ℚ) : Wins :=
  if external > ascending then { w with external := w.external + 1 }
  else if external = ascending then { w with tie := w.tie + 1 }
  else { w with ascending := w.ascending + 1 }

/-- `experiment_comparing_sbb.py:57-90` — the numbers of agents, from number `i` on: the counts of wins by gain from trade and by number of deals. -/
def sizes (recipe : List ℕ) (ranges : List (ℚ × ℚ)) (numOfIterations fuel : ℕ) (random : ℕ → ℕ → ℕ → ℕ → ℚ) :
    ℕ → List ℕ → Wins × Wins → Py (Option (Wins × Wins))
  | _, [], w => .ok (some w)
  | i, n :: ns, (gft, k) => do
    match ← iterations recipe n ranges fuel (random i) numOfIterations 0 ⟨0, 0, 0, 0⟩ with
    | none => .ok none
    | some s =>
      sizes recipe ranges numOfIterations fuel random (i + 1) ns
        (gft.count s.externalGft s.ascendingGft, k.count s.externalCount s.ascendingCount)

/-- `experiment_comparing_sbb.py:93-104` — a row of the table. -/
structure Row where
  recipe : List ℕ
  externalWinsGft : ℤ
  tieGft : ℤ
  ascendingWinsGft : ℤ
  externalWinsK : ℤ
  tieK : ℤ
  ascendingWinsK : ℤ
  externalWins : ℕ
  tie : ℕ
  ascendingWins : ℕ
  deriving DecidableEq, Repr

/-- `experiment_comparing_sbb.py:93-104` — `int(wins*100 / num_agents)`. -/
def percent (wins numAgents : ℕ) : Py ℤ := (pyDiv ((wins : ℚ) * 100) (numAgents : ℚ)).map pyInt

/-- `experiment_comparing_sbb.py:91-104` — the row of a recipe: `ZeroDivisionError` when there are no numbers of agents. -/
def mkRow (recipe : List ℕ) (numAgents : ℕ) (gft k : Wins) : Py Row := do
  let a ← percent gft.external numAgents
  let b ← percent gft.tie numAgents
  let c ← percent gft.ascending numAgents
  let d ← percent k.external numAgents
  let e ← percent k.tie numAgents
  let f ← percent k.ascending numAgents
  .ok ⟨recipe, a, b, c, d, e, f, gft.external, gft.tie, gft.ascending⟩

/-- `experiment_comparing_sbb.py:52-104` — the row of one recipe. An empty recipe raises `IndexError` at line 60 if there are numbers of
agents, and the row raises `ZeroDivisionError` if there are none. -/
def recipeRow (recipe : List ℕ) (valueRanges : List (ℚ × ℚ)) (numsOfAgents : List ℕ) (numOfIterations fuel : ℕ)
    (random : ℕ → ℕ → ℕ → ℕ → ℚ) : Py (Option Row) :=
  match recipe with
  | [] => if numsOfAgents = [] then .error .zeroDivisionError else .error .indexError
  | first :: rest => do
    match ← sizes (first :: rest) (scaledRanges first rest valueRanges) numOfIterations fuel random 0 numsOfAgents (⟨0, 0, 0⟩, ⟨0, 0, 0⟩) with
    | none => .ok none
    | some (gft, k) => do
      let row ← mkRow (first :: rest) numsOfAgents.length gft k
      .ok (some row)

/-- `experiment_comparing_sbb.py:41-105` — `experiment(…)`, from recipe `i` on. -/
def rows (valueRanges : List (ℚ × ℚ)) (numsOfAgents : List ℕ) (numOfIterations fuel : ℕ) (random : ℕ → ℕ → ℕ → ℕ → ℕ → ℚ) :
    ℕ → List (List ℕ) → Py (Option (List Row))
  | _, [] => .ok (some [])
  | i, recipe :: recipes => do
    match ← recipeRow recipe valueRanges numsOfAgents numOfIterations fuel (random i) with
    | none => .ok none
    | some row => do
      match ← rows valueRanges numsOfAgents numOfIterations fuel random (i + 1) recipes with
      | none => .ok none
      | some rest => .ok (some (row :: rest))

/-- `experiment_comparing_sbb.py:41-105` — `experiment(…)`. `random i j l c a` is the number drawn for recipe `i`, number of agents `j`,
iteration `l`, category `c`, agent `a`. -/
def experiment (recipes : List (List ℕ)) (valueRanges : List (ℚ × ℚ)) (numsOfAgents : List ℕ) (numOfIterations fuel : ℕ)
    (random : ℕ → ℕ → ℕ → ℕ → ℕ → ℚ) : Py (Option (List Row)) :=
  rows valueRanges numsOfAgents numOfIterations fuel random 0 recipes

end Auctions.ComparingExperiment
