import Verif.Model.Agents

set_option autoImplicit false

/-!
# Model of `trade.py`

`__repr__` is in `Model/Reports`.
-/

namespace Auctions

/-- `trade.py:42-58` — `class TradeWithMaterialBalance`: a list of procurement-sets (tuples of values). -/
structure TradeWithMaterialBalance where
  procurementSets : List (List ℚ)
  deriving DecidableEq, Repr

namespace TradeWithMaterialBalance

/-- `trade.py:60-61` — `num_of_deals`. -/
def numOfDeals (t : TradeWithMaterialBalance) : ℕ := t.procurementSets.length

/-- `trade.py:63-64` — `gain_from_trade`. -/
def gainFromTrade (t : TradeWithMaterialBalance) : ℚ := (t.procurementSets.map List.sum).sum

end TradeWithMaterialBalance

/-- `trade.py:71-108` — `class TradeWithSinglePrice`. `prices` is `none` for Python's `None`
(which `trade_reduction_protocol.py:284` can pass). -/
structure TradeWithSinglePrice where
  categories : List AgentCategory
  psRecipe : List ℕ
  prices : Option (List ℚ)
  numOfDealsCache : ℕ
  deriving DecidableEq, Repr

namespace TradeWithSinglePrice

/-- `trade.py:106-108` — the list `[floor(size/count) for (category,count) in zip(...) if count>0]`. -/
def potentialDeals : List AgentCategory → List ℕ → List ℕ
  | c :: cs, r :: rs => if r > 0 then c.size / r :: potentialDeals cs rs else potentialDeals cs rs
  | _, _ => []

/-- `trade.py:101-108` — `__init__`: `ValueError` from `min([])` when no count is positive. -/
def init (categories : List AgentCategory) (psRecipe : List ℕ) (prices : Option (List ℚ)) :
    Py TradeWithSinglePrice := do
  let m ← pyMinNat (potentialDeals categories psRecipe)
  .ok ⟨categories, psRecipe, prices, m⟩

/-- `trade.py:110-111` — `num_of_deals`. -/
def numOfDeals (t : TradeWithSinglePrice) : ℕ := t.numOfDealsCache

/-- `trade.py:124-132` — one iteration of the loop of `gain_from_trade`, for category `i`: the amount added to `gft`.
Evaluation order: `ps_recipe[i]` (IndexError), division by `len(category.values)` (ZeroDivisionError),
`prices[i]` (TypeError if `prices` is None, IndexError if too short). -/
def gftStep (t : TradeWithSinglePrice) (includingAuctioneer : Bool) (i : ℕ) (category : AgentCategory) : Py ℚ := do
  let agentsPerDeal ← pyGet t.psRecipe i
  let participating : ℚ := (agentsPerDeal * t.numOfDealsCache : ℕ)
  let probability ← pyDiv participating category.values.length
  let price ← match t.prices with
    | none => .error .typeError
    | some ps => pyGet ps i
  let part := category.values.sum * probability
  .ok (if includingAuctioneer then part else part - price * participating)

/-- `trade.py:124-133` — the loop of `gain_from_trade` over the categories from index `i` on. -/
def gftLoop (t : TradeWithSinglePrice) (includingAuctioneer : Bool) : ℕ → List AgentCategory → Py ℚ
  | _, [] => .ok 0
  | i, c :: cs => do
    let x ← t.gftStep includingAuctioneer i c
    let rest ← t.gftLoop includingAuctioneer (i + 1) cs
    .ok (x + rest)

/-- `trade.py:113-133` — `gain_from_trade(including_auctioneer)`. -/
def gainFromTrade (t : TradeWithSinglePrice) (includingAuctioneer : Bool := true) : Py ℚ :=
  if t.numOfDealsCache = 0 then .ok 0 else t.gftLoop includingAuctioneer 0 t.categories

end TradeWithSinglePrice

end Auctions
