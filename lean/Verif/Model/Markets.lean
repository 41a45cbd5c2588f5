import Verif.Model.Agents
import Verif.Model.Trade

set_option autoImplicit false

/-!
# Model of `markets.py`
-/

namespace Auctions

/-- `markets.py:17-35` — `class Market`. The cached attribute `num_categories` is `categories.length`
(no method changes the number of categories); `size_of_smallest_category` is never read and is omitted. -/
structure Market where
  categories : List AgentCategory
  deriving DecidableEq, Repr

namespace Market

/-- `markets.py:27-35` — `__init__`: `min([])` raises `ValueError` for a market without categories. -/
def init (categories : List AgentCategory) : Py Market :=
  match categories with
  | [] => .error .valueError
  | _ :: _ => .ok ⟨categories⟩

/-- `markets.py:34` — `num_categories`. -/
def numCategories (m : Market) : ℕ := m.categories.length

/-- `markets.py:38-44` — `append_trader(category_index, value)`. -/
def appendTrader (m : Market) (i : ℕ) (v : ℚ) : Py Market :=
  match m.categories[i]? with
  | none => .error .indexError
  | some c => .ok ⟨m.categories.set i (c.append v)⟩

/-- `markets.py:53-54` — the loop of `append_PS` from index `i` on. -/
def appendPSLoop (m : Market) : ℕ → List ℚ → Py Market
  | _, [] => .ok m
  | i, v :: vs => do
    let m' ← m.appendTrader i v
    m'.appendPSLoop (i + 1) vs

/-- `markets.py:46-54` — `append_PS(ps)`. -/
def appendPS (m : Market) (ps : List ℚ) : Py Market :=
  if ps.length ≠ m.categories.length then .error .valueError else m.appendPSLoop 0 ps

/-- `markets.py:56-57` — `has_empty_category()`. -/
def hasEmptyCategory (m : Market) : Bool := m.categories.any (fun c => c.size = 0)

/-- `markets.py:77-85` — the loop of `get_highest_agents`: `none` models returning `None`. -/
def getHighestAgentsLoop : List AgentCategory → List ℕ → Py (Option (List ℚ))
  | [], _ => .ok (some [])
  | _ :: _, [] => .error .indexError
  | c :: cs, r :: rs =>
    if c.size < r then .ok none
    else do
      match ← getHighestAgentsLoop cs rs with
      | none => .ok none
      | some ps => .ok (some (c.highestAgentValues r ++ ps))

/-- `markets.py:59-85` — `get_highest_agents(ps_recipe)`. -/
def getHighestAgents (m : Market) (psRecipe : List ℕ) : Py (Option (List ℚ)) :=
  getHighestAgentsLoop m.categories psRecipe

/-- `markets.py:92-95` — the loop of `remove_highest_agents`. -/
def removeHighestAgentsLoop : List AgentCategory → List ℕ → Py (List AgentCategory)
  | [], _ => .ok []
  | _ :: _, [] => .error .indexError
  | c :: cs, r :: rs => do
    let c' ← c.removeHighestAgents r
    let cs' ← removeHighestAgentsLoop cs rs
    .ok (c' :: cs')

/-- `markets.py:87-95` — `remove_highest_agents(ps_recipe)`. -/
def removeHighestAgents (m : Market) (psRecipe : List ℕ) : Py Market := do
  let cs ← removeHighestAgentsLoop m.categories psRecipe
  .ok ⟨cs⟩

/-- `markets.py:106-114` — `empty_agent_categories()`. -/
def emptyAgentCategories (m : Market) : List AgentCategory :=
  m.categories.map (fun c => AgentCategory.init c.name [])

/-- `markets.py:227-228` — `clone()`. -/
def clone (m : Market) : Py Market := init (m.categories.map AgentCategory.clone)

/-- `markets.py:165-174` — the loop of `optimal_trade`; the first argument is the number of iterations left. -/
def optimalTradeLoop (psRecipe : List ℕ) (includeZero : Bool) :
    ℕ → Market → List (List ℚ) → Py (List (List ℚ) × Market)
  | 0, remaining, trade => .ok (trade, remaining)
  | n + 1, remaining, trade => do
    match ← remaining.getHighestAgents psRecipe with
    | none => .ok (trade, remaining)
    | some ps =>
      let gft := ps.sum
      if gft < 0 ∨ (gft = 0 ∧ includeZero = false) then .ok (trade, remaining)
      else do
        let remaining' ← remaining.removeHighestAgents psRecipe
        optimalTradeLoop psRecipe includeZero n remaining' (trade ++ [ps])

/-- `markets.py:116-176` — `optimal_trade(ps_recipe, max_iterations=2000000, include_zero_gft_ps=True)`. -/
def optimalTrade (m : Market) (psRecipe : List ℕ) (maxIterations : ℕ := 2000000) (includeZero : Bool := true) :
    Py (TradeWithMaterialBalance × Market) := do
  if psRecipe.length ≠ m.numCategories then .error .valueError
  else
    let remaining ← m.clone
    let (trade, remaining') ← optimalTradeLoop psRecipe includeZero maxIterations remaining []
    .ok (⟨sortBySum trade⟩, remaining')

/-- `markets.py:194-200` — the loop of `best_containing_PS`, from category index `i` on. -/
def bestContainingPSLoop (categoryIndex : ℕ) (value : ℚ) : ℕ → List AgentCategory → Py (List ℚ)
  | _, [] => .ok []
  | i, c :: cs => do
    let x ← if i = categoryIndex then .ok value else c.highestAgentValue
    let rest ← bestContainingPSLoop categoryIndex value (i + 1) cs
    .ok (x :: rest)

/-- `markets.py:179-200` — `best_containing_PS(category_index, value)`. -/
def bestContainingPS (m : Market) (categoryIndex : ℕ) (value : ℚ) : Py (List ℚ) :=
  bestContainingPSLoop categoryIndex value 0 m.categories

/-- `markets.py:214-215`, also `trade_reduction_protocol.py:253` —
`sum([best_containing_PS[i]*ps_recipe[i] for i in range(len(best_containing_PS))])`:
`IndexError` if the recipe is shorter than the procurement-set. -/
def weightedSum : List ℚ → List ℕ → Py ℚ
  | [], _ => .ok 0
  | _ :: _, [] => .error .indexError
  | x :: xs, r :: rs => do
    let s ← weightedSum xs rs
    .ok (x * r + s)

/-- `markets.py:211-218` — the loop of `calculate_prices_by_external_competition` from category `i` on,
over `n` remaining categories. -/
def pricesLoop (pivotIndex : ℕ) (pivotValue : ℚ) (best : List ℚ) (psRecipe : List ℕ) :
    ℕ → ℕ → Py (List ℚ)
  | _, 0 => .ok []
  | i, n + 1 => do
    let x ← if i = pivotIndex then do
        let ri ← pyGet psRecipe i
        let s ← weightedSum best psRecipe
        pyDiv (pivotValue * ri - s) ri
      else pyGet best i
    let rest ← pricesLoop pivotIndex pivotValue best psRecipe (i + 1) n
    .ok (x :: rest)

/-- `markets.py:203-220` — `calculate_prices_by_external_competition`. -/
def calculatePricesByExternalCompetition (m : Market) (pivotIndex : ℕ) (pivotValue : ℚ) (best : List ℚ)
    (psRecipe : List ℕ) : Py (List ℚ) :=
  pricesLoop pivotIndex pivotValue best psRecipe 0 m.numCategories

end Market

end Auctions
