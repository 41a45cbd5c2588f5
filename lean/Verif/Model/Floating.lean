import Verif.Model.Ascending
import Verif.Model.TradeReduction
import Mathlib.Data.Rat.Floor

set_option autoImplicit false

/-!
# The auctions with rounded arithmetic

The same functions as in `Model/Prices`, `Model/Markets`, `Model/Trade`, `Model/Ascending`, `Model/McAfee` and `Model/TradeReduction`, but the result of every
arithmetic operation on numbers that may be of type `float` is rounded by a function `fl`. Python adds, subtracts and multiplies integers exactly, which is the same for integers that
are floats. `sum` adds from left to right, starting with 0 (Python 3.12 and later add floats with a correction, which is the same when nothing is rounded).
Comparisons, signs, absolute values and sorting are exact.
-/

namespace Auctions.Floating

open Auctions

/-- Python `sum(l)`. -/
def flSum (fl : ℚ → ℚ) (l : List ℚ) : ℚ := l.foldl (fun s x => fl (s + x)) 0

/-- Python `a / b`. -/
def flDiv (fl : ℚ → ℚ) (a b : ℚ) : Py ℚ := if b = 0 then .error .zeroDivisionError else .ok (fl (a / b))

/-- `prices.py:18-24` — `dot(xx, yy)`. -/
def flDot (fl : ℚ → ℚ) (xx : List ℚ) (yy : List ℕ) : ℚ := flSum fl (List.zipWith (fun (x : ℚ) (y : ℕ) => fl (x * y)) xx yy)

/-- `prices.py:52-53` — `price_sum_without_category(i)`. -/
def priceSumWithoutCategory (fl : ℚ → ℚ) (p : AscendingPriceVector) (i : ℕ) : Py ℚ := do
  let ri ← pyGet p.psRecipe i
  let pi ← pyGet p.prices i
  .ok (fl (flDot fl p.prices p.psRecipe - fl (ri * pi)))

/-- `prices.py:67-119` — `increase_price_up_to_balance(i, new_price, _, sum_upper_bound=0)`, with the bound 0 that the auction uses. -/
def increasePriceUpToBalance (fl : ℚ → ℚ) (p : AscendingPriceVector) (i : ℕ) (newPrice : ℚ) : Py AscendingPriceVector := do
  let count ← pyGet p.psRecipe i
  let sumWithoutCategory ← priceSumWithoutCategory fl p i
  let newSum := fl (sumWithoutCategory + fl (count * newPrice))
  if newSum ≥ 0 then do
    let fixedNewPrice ← flDiv fl (fl (0 - sumWithoutCategory)) count
    .ok { p with prices := p.prices.set i fixedNewPrice, status := some .stoppedAtZeroSum }
  else
    .ok { p with prices := p.prices.set i newPrice, status := some .stoppedAtAgentValue }

/-- `trade.py:106-108` — `math.floor(category.size() / count)`. -/
def potentialDeals (fl : ℚ → ℚ) : List AgentCategory → List ℕ → List ℕ
  | c :: cs, r :: rs => if r > 0 then ⌊fl ((c.size : ℚ) / r)⌋.toNat :: potentialDeals fl cs rs else potentialDeals fl cs rs
  | _, _ => []

/-- `trade.py:101-108` — `TradeWithSinglePrice.__init__`. -/
def initTrade (fl : ℚ → ℚ) (categories : List AgentCategory) (psRecipe : List ℕ) (prices : Option (List ℚ)) : Py TradeWithSinglePrice := do
  let m ← pyMinNat (potentialDeals fl categories psRecipe)
  .ok ⟨categories, psRecipe, prices, m⟩

/-- `markets.py:165-174` — the loop of `optimal_trade`. -/
def optimalTradeLoop (fl : ℚ → ℚ) (psRecipe : List ℕ) (includeZero : Bool) : ℕ → Market → List (List ℚ) → Py (List (List ℚ) × Market)
  | 0, remaining, trade => .ok (trade, remaining)
  | n + 1, remaining, trade => do
    match ← remaining.getHighestAgents psRecipe with
    | none => .ok (trade, remaining)
    | some ps =>
      let gft := flSum fl ps
      if gft < 0 ∨ (gft = 0 ∧ includeZero = false) then .ok (trade, remaining)
      else do
        let remaining' ← remaining.removeHighestAgents psRecipe
        optimalTradeLoop fl psRecipe includeZero n remaining' (trade ++ [ps])

/-- `markets.py:116-176` — `optimal_trade(…)`; the deals are sorted by `sum(ps)`. -/
def optimalTrade (fl : ℚ → ℚ) (m : Market) (psRecipe : List ℕ) (maxIterations : ℕ := 2000000) (includeZero : Bool := true) :
    Py (TradeWithMaterialBalance × Market) := do
  if psRecipe.length ≠ m.numCategories then .error .valueError
  else
    let remaining ← m.clone
    let (trade, remaining') ← optimalTradeLoop fl psRecipe includeZero maxIterations remaining []
    .ok (⟨trade.insertionSort (fun a b => flSum fl a ≤ flSum fl b)⟩, remaining')

/-- `trade.py:63-64` — `gain_from_trade` of `TradeWithMaterialBalance`. -/
def materialGain (fl : ℚ → ℚ) (t : TradeWithMaterialBalance) : ℚ := flSum fl (t.procurementSets.map (flSum fl))

/-- `ascending_auction_protocol.py:112` — `fractional_potential_ps`. -/
def fractionalPotentialPs (fl : ℚ → ℚ) (m : Market) (psRecipe : List ℕ) (i : ℕ) : ℚ := fl ((Ascending.sizeAt m i : ℚ) / (Ascending.recipeAt psRecipe i : ℚ))

/-- `ascending_auction_protocol.py:115-133` — the `while True` loop. -/
def ascendingLoop (fl : ℚ → ℚ) (psRecipe : List ℕ) (relevant : List ℕ) : ℕ → Market → AscendingPriceVector → Py (Option (Market × AscendingPriceVector))
  | 0, _, _ => .ok none
  | fuel + 1, remaining, prices => do
    let main ← pyMaxBy (fractionalPotentialPs fl remaining psRecipe) relevant
    let mainCategory ← pyGet remaining.categories main
    if mainCategory.size = 0 then .ok (some (remaining, prices))
    else do
      let target ← mainCategory.lowestAgentValue
      let prices' ← increasePriceUpToBalance fl prices main target
      if prices'.status = some .stoppedAtZeroSum then .ok (some (remaining, prices'))
      else do
        let mainCategory' ← mainCategory.removeLowestAgent
        ascendingLoop fl psRecipe relevant fuel ⟨remaining.categories.set main mainCategory'⟩ prices'

/-- `ascending_auction_protocol.py:24-136` — `budget_balanced_ascending_auction(market, ps_recipe, max_iterations)`. -/
def ascendingAuction (fl : ℚ → ℚ) (market : Market) (psRecipe : List ℕ) (fuel : ℕ) (maxIterations : ℕ := 999999999) : Py (Option TradeWithSinglePrice) := do
  if psRecipe.length ≠ market.numCategories then .error .valueError
  else do
    let relevant := Ascending.relevantCategoryIndices market psRecipe
    let _ ← optimalTrade fl market psRecipe maxIterations
    let remaining ← market.clone
    let prices := AscendingPriceVector.init psRecipe (-MAX_VALUE)
    match ← ascendingLoop fl psRecipe relevant fuel remaining prices with
    | none => .ok none
    | some (remaining', prices') => do
      let t ← initTrade fl remaining'.categories psRecipe (some prices'.prices)
      .ok (some t)

/-- `markets.py:214-215`, `trade_reduction_protocol.py:253` — the products `best_containing_PS[i]*ps_recipe[i]`. -/
def products (fl : ℚ → ℚ) : List ℚ → List ℕ → Py (List ℚ)
  | [], _ => .ok []
  | _ :: _, [] => .error .indexError
  | x :: xs, r :: rs => do
    let l ← products fl xs rs
    .ok (fl (x * r) :: l)

/-- `markets.py:214-215`, `trade_reduction_protocol.py:253` — the sum of these products. -/
def weightedSum (fl : ℚ → ℚ) (best : List ℚ) (psRecipe : List ℕ) : Py ℚ := do
  let l ← products fl best psRecipe
  .ok (flSum fl l)

/-- `markets.py:211-218` — the loop of `calculate_prices_by_external_competition`. -/
def pricesLoop (fl : ℚ → ℚ) (pivotIndex : ℕ) (pivotValue : ℚ) (best : List ℚ) (psRecipe : List ℕ) : ℕ → ℕ → Py (List ℚ)
  | _, 0 => .ok []
  | i, n + 1 => do
    let x ← if i = pivotIndex then do
        let ri ← pyGet psRecipe i
        let s ← weightedSum fl best psRecipe
        flDiv fl (fl (fl (pivotValue * ri) - s)) ri
      else pyGet best i
    let rest ← pricesLoop fl pivotIndex pivotValue best psRecipe (i + 1) n
    .ok (x :: rest)

/-- `trade_reduction_protocol.py:243-276` — the body of the inner loop for one pivot. -/
def competeStep (fl : ℚ → ℚ) (market : Market) (psRecipe toCategory : List ℕ) (includingGft0 : Bool) (ps : List ℚ) (s : TradeReduction.State) (pivot : ℕ) :
    Py TradeReduction.State := do
  let value ← pyGet ps pivot
  if s.foundExternal then do
    let traders ← TradeReduction.appendTrader s.actualTraders toCategory pivot value
    .ok { s with actualTraders := traders }
  else do
    let ci := TradeReduction.convertCategoryIndex psRecipe pivot
    let _ ← pyGet market.categories ci
    let best ← s.remaining.bestContainingPS ci value
    let gft ← weightedSum fl best psRecipe
    if gft > 0 ∨ (includingGft0 = true ∧ gft = 0) then do
      let prices ← pricesLoop fl ci value best psRecipe 0 market.numCategories
      let traders ← TradeReduction.appendTrader s.actualTraders toCategory pivot value
      .ok { s with foundExternal := true, latestPrices := some prices, actualTraders := traders }
    else do
      let remaining ← s.remaining.appendTrader ci value
      .ok { s with remaining := remaining }

/-- `trade_reduction_protocol.py:239-282` — the body of the outer loop for one procurement-set. -/
def psStep (fl : ℚ → ℚ) (market : Market) (psRecipe pivots toCategory : List ℕ) (includingGft0 : Bool) (s : TradeReduction.State) (ps : List ℚ) :
    Py TradeReduction.State :=
  match s.latestPrices with
  | none => pivots.foldlM (competeStep fl market psRecipe toCategory includingGft0 ps) s
  | some _ => pivots.foldlM (TradeReduction.tradeStep toCategory ps) s

/-- `trade_reduction_protocol.py:34-286` — `budget_balanced_trade_reduction(market, ps_recipe, including_gft_0=True)`. -/
def tradeReduction (fl : ℚ → ℚ) (market : Market) (psRecipe : List ℕ) (includingGft0 : Bool := true) : Py TradeWithSinglePrice := do
  if psRecipe.length ≠ market.numCategories then .error .valueError
  else do
    let (optimal, remaining) ← optimalTrade fl market psRecipe
    if optimal.procurementSets.length = 0 then
      initTrade fl market.emptyAgentCategories psRecipe (some (List.replicate psRecipe.length 0))
    else do
      let highestNegative ← remaining.getHighestAgents psRecipe
      let (toCompete, remaining) ← match highestNegative with
        | some (x :: xs) => do
          let remaining' ← remaining.removeHighestAgents psRecipe
          .ok ((x :: xs) :: optimal.procurementSets, remaining')
        | _ => .ok (optimal.procurementSets, remaining)
      let remaining := McAfee.padEmpty remaining
      let s : TradeReduction.State := ⟨remaining, market.emptyAgentCategories, none, false⟩
      let s ← toCompete.foldlM
        (psStep fl market psRecipe (TradeReduction.pivotIndexes 0 psRecipe) (TradeReduction.pivotIndexToCategoryIndex 0 psRecipe) includingGft0) s
      initTrade fl s.actualTraders psRecipe s.latestPrices

/-- `mcafee_protocol.py:160` — `price_candidate`. -/
def priceCandidate (fl : ℚ → ℚ) (firstNegative : Option (List ℚ)) : Py ℚ :=
  match firstNegative with
  | none => .error .typeError
  | some ps => flDiv fl (flSum fl (ps.map (fun x => |x|))) ps.length

/-- `mcafee_protocol.py:169-170` — the heuristic prices. -/
def heuristicPrices (fl : ℚ → ℚ) (price : ℚ) (lastPositive : List ℚ) (numCategories : ℕ) : Py (List ℚ) :=
  (List.range numCategories).mapM (fun i => do
    let x ← pyGet lastPositive i
    .ok (fl (price * (if x < 0 then -1 else 1))))

/-- `mcafee_protocol.py:44-185` — `mcafee_trade_reduction(market, ps_recipe, price_heuristic=True)`. -/
def mcafeeTradeReduction (fl : ℚ → ℚ) (market : Market) (psRecipe : List ℕ) (priceHeuristic : Bool := true) : Py TradeWithSinglePrice := do
  if psRecipe.length ≠ market.numCategories then .error .valueError
  else if psRecipe.any (fun r => r ≠ 1) then .error .valueError
  else do
    let (optimal, remaining) ← optimalTrade fl market psRecipe
    let remaining := McAfee.padEmpty remaining
    let firstNegative ← remaining.getHighestAgents psRecipe
    let candidate ← if priceHeuristic then priceCandidate fl firstNegative else .ok 0
    let traders := market.emptyAgentCategories
    match optimal.procurementSets with
    | [] => initTrade fl traders psRecipe (some (List.replicate market.numCategories 0))
    | lastPositive :: others =>
      if priceHeuristic ∧ McAfee.isPriceGoodForPs candidate lastPositive then do
        let prices ← heuristicPrices fl candidate lastPositive market.numCategories
        let traders' ← McAfee.appendAll traders (lastPositive :: others)
        initTrade fl traders' psRecipe (some prices)
      else do
        let traders' ← McAfee.appendAll traders others
        initTrade fl traders' psRecipe (some lastPositive)

end Auctions.Floating
