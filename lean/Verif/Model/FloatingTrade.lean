import Verif.Model.Floating

set_option autoImplicit false

/-!
# `gain_from_trade` of a single-price trade with rounded arithmetic

The same functions as in `Model/Trade`; the result of every arithmetic operation on numbers that may be of type `float` is rounded by a function `fl`.
-/

namespace Auctions.Floating

open Auctions

/-- `trade.py:125-132` — one iteration of the loop of `gain_from_trade`; `gft` is the gain so far. -/
def gftStep (fl : ℚ → ℚ) (t : TradeWithSinglePrice) (includingAuctioneer : Bool) (i : ℕ) (category : AgentCategory) (gft : ℚ) : Py ℚ := do
  let agentsPerDeal ← pyGet t.psRecipe i
  let participating : ℚ := (agentsPerDeal * t.numOfDealsCache : ℕ)
  let probability ← flDiv fl participating category.values.length
  let price ← match t.prices with
    | none => .error .typeError
    | some ps => pyGet ps i
  let gft := fl (gft + fl (flSum fl category.values * probability))
  .ok (if includingAuctioneer then gft else fl (gft - fl (price * participating)))

/-- `trade.py:124-133` — the loop of `gain_from_trade` over the categories from index `i` on. -/
def gftLoop (fl : ℚ → ℚ) (t : TradeWithSinglePrice) (includingAuctioneer : Bool) : ℕ → List AgentCategory → ℚ → Py ℚ
  | _, [], gft => .ok gft
  | i, c :: cs, gft => do
    let gft' ← gftStep fl t includingAuctioneer i c gft
    gftLoop fl t includingAuctioneer (i + 1) cs gft'

/-- `trade.py:113-133` — `gain_from_trade(including_auctioneer)`. -/
def gainFromTrade (fl : ℚ → ℚ) (t : TradeWithSinglePrice) (includingAuctioneer : Bool := true) : Py ℚ :=
  if t.numOfDealsCache = 0 then .ok 0 else gftLoop fl t includingAuctioneer 0 t.categories 0

end Auctions.Floating
