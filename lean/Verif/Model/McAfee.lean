import Verif.Model.Markets

set_option autoImplicit false

/-!
# Model of `mcafee_protocol.py`
-/

namespace Auctions.McAfee

open Auctions

/-- `mcafee_protocol.py:24-40` — `is_price_good_for_ps(price, ps)`. -/
def isPriceGoodForPs (price : ℚ) : List ℚ → Bool
  | [] => true
  | x :: xs =>
    if x ≥ 0 ∧ price > x then false
    else if x ≤ 0 ∧ -price > x then false
    else isPriceGoodForPs price xs

/-- `mcafee_protocol.py:154-156` (also `trade_reduction_protocol.py:218-220`) — empty categories of the remaining
market get one dummy agent with value `-MAX_VALUE`. -/
def padEmpty (m : Market) : Market :=
  ⟨m.categories.map (fun c => if c.size = 0 then c.append (-MAX_VALUE) else c)⟩

/-- `mcafee_protocol.py:178-180` — the inner loop: `actual_traders[i].append(ps[i])` for every category. -/
def appendEach : List AgentCategory → List ℚ → Py (List AgentCategory)
  | [], _ => .ok []
  | _ :: _, [] => .error .indexError
  | c :: cs, v :: vs => do
    let cs' ← appendEach cs vs
    .ok (c.append v :: cs')

/-- `mcafee_protocol.py:177-180` — the loop over the procurement-sets. -/
def appendAll : List AgentCategory → List (List ℚ) → Py (List AgentCategory)
  | traders, [] => .ok traders
  | traders, ps :: rest => do
    let traders' ← appendEach traders ps
    appendAll traders' rest

/-- `mcafee_protocol.py:160` — `price_candidate`; iterating over `None` is a `TypeError`. -/
def priceCandidate (firstNegative : Option (List ℚ)) : Py ℚ :=
  match firstNegative with
  | none => .error .typeError
  | some ps => pyDiv (ps.map (fun x => |x|)).sum ps.length

/-- `mcafee_protocol.py:169-170` — the heuristic prices. -/
def heuristicPrices (price : ℚ) (lastPositive : List ℚ) (numCategories : ℕ) : Py (List ℚ) :=
  (List.range numCategories).mapM (fun i => do
    let x ← pyGet lastPositive i
    .ok (price * (if x < 0 then -1 else 1)))

/-- `mcafee_protocol.py:44-185` — `mcafee_trade_reduction(market, ps_recipe, price_heuristic=True)`. -/
def mcafeeTradeReduction (market : Market) (psRecipe : List ℕ) (priceHeuristic : Bool := true) :
    Py TradeWithSinglePrice := do
  if psRecipe.length ≠ market.numCategories then .error .valueError
  else if psRecipe.any (fun r => r ≠ 1) then .error .valueError
  else do
    let (optimal, remaining) ← market.optimalTrade psRecipe
    let remaining := padEmpty remaining
    let firstNegative ← remaining.getHighestAgents psRecipe
    let candidate ← if priceHeuristic then priceCandidate firstNegative else .ok 0
    let traders := market.emptyAgentCategories
    match optimal.procurementSets with
    | [] => TradeWithSinglePrice.init traders psRecipe (some (List.replicate market.numCategories 0))
    | lastPositive :: others =>
      if priceHeuristic ∧ isPriceGoodForPs candidate lastPositive then do
        let prices ← heuristicPrices candidate lastPositive market.numCategories
        let traders' ← appendAll traders (lastPositive :: others)
        TradeWithSinglePrice.init traders' psRecipe (some prices)
      else do
        let traders' ← appendAll traders others
        TradeWithSinglePrice.init traders' psRecipe (some lastPositive)

end Auctions.McAfee
