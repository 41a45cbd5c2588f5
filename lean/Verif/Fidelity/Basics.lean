import Verif.Model.Markets
import Verif.Model.Reports
import Verif.Model.Prices
import Verif.Model.PricesInteger
import Verif.Model.McAfee
import Verif.Model.TreeCalculations

set_option autoImplicit false

/-!
# The doctests of the basic classes, run on the model

Transcribed by hand from `agents.py`, `markets.py`, `trade.py`, `prices.py`, `prices_integer.py`, `mcafee_protocol.py` and
`ascending_auction_recipetree_test.py`. Tests of the model, not proofs of properties.
-/

namespace Auctions.Fidelity

/-- `agents.py:21-38` — the state after each step. -/
example : AgentCategory.init "buyer" [1, 6, 3, 7, 4, 9] = ⟨"buyer", [9, 7, 6, 4, 3, 1]⟩ := by decide +kernel
example : (⟨"buyer", [9, 7, 6, 4, 3, 1]⟩ : AgentCategory).removeHighestAgent = .ok ⟨"buyer", [7, 6, 4, 3, 1]⟩ := by decide +kernel
example : (⟨"buyer", [7, 6, 4, 3, 1]⟩ : AgentCategory).removeHighestAgents 2 = .ok ⟨"buyer", [4, 3, 1]⟩ := by decide +kernel
example : (⟨"buyer", [4, 3, 1]⟩ : AgentCategory).removeLowestAgent = .ok ⟨"buyer", [4, 3]⟩ := by decide +kernel
example : (⟨"buyer", [4, 3]⟩ : AgentCategory).append (7 / 2) = ⟨"buyer", [4, 7 / 2, 3]⟩ := by decide +kernel
example : (⟨"buyer", [4, 7 / 2, 3]⟩ : AgentCategory).appendList [16 / 5, 19 / 5] = ⟨"buyer", [4, 19 / 5, 7 / 2, 16 / 5, 3]⟩ := by decide +kernel

/-- The market of `markets.py:22`, `67` and `127`. -/
def market2 : Market := ⟨[.init "buyer" [9, 7, 11, 5], .init "seller" [-4, -6, -8, -2]]⟩

/-- `markets.py:22-24` -/
example : market2 = ⟨[⟨"buyer", [11, 9, 7, 5]⟩, ⟨"seller", [-2, -4, -6, -8]⟩]⟩ := by decide +kernel

/-- `markets.py:67-75` -/
example : market2.getHighestAgents [1, 1] = .ok (some [11, -2]) := by decide +kernel
example : market2.getHighestAgents [2, 1] = .ok (some [11, 9, -2]) := by decide +kernel
example : market2.getHighestAgents [1, 2] = .ok (some [11, -2, -4]) := by decide +kernel
example : market2.getHighestAgents [5, 1] = .ok none := by decide +kernel
example : market2.getHighestAgents [1, 5] = .ok none := by decide +kernel

/-- `markets.py:131-155`. Zero-gain deals are included by default, hence three deals in the first trade. -/
example : market2.optimalTrade [1, 1] = .ok (⟨[[7, -6], [9, -4], [11, -2]]⟩, ⟨[⟨"buyer", [5]⟩, ⟨"seller", [-8]⟩]⟩) := by decide +kernel
example : market2.optimalTrade [1, 2] = .ok (⟨[[11, -2, -4]]⟩, ⟨[⟨"buyer", [9, 7, 5]⟩, ⟨"seller", [-6, -8]⟩]⟩) := by decide +kernel
example : market2.optimalTrade [2, 1] = .ok (⟨[[7, 5, -4], [11, 9, -2]]⟩, ⟨[⟨"buyer", []⟩, ⟨"seller", [-6, -8]⟩]⟩) := by decide +kernel
example : (⟨[.init "buyer" [15, 12, 9, 6], .init "seller" [-2, -5, -8, -11], .init "mediator" [-1, -4, -7, -10]]⟩ : Market).optimalTrade [1, 1, 1] =
    .ok (⟨[[12, -5, -4], [15, -2, -1]]⟩, ⟨[⟨"buyer", [9, 6]⟩, ⟨"seller", [-8, -11]⟩, ⟨"mediator", [-7, -10]⟩]⟩) := by decide +kernel

/-- `markets.py:188-192` -/
example : (⟨[.init "buyer" [7, 5], .init "seller" [-8, -10]]⟩ : Market).bestContainingPS 0 9 = .ok [9, -8] := by decide +kernel
example : (⟨[.init "buyer" [7, 5], .init "seller" [-8, -10]]⟩ : Market).bestContainingPS 1 (-6) = .ok [7, -6] := by decide +kernel

/-- `trade.py:49-55` -/
example : (⟨[[7, -1], [6, -3], [5, -4]]⟩ : TradeWithMaterialBalance).numOfDeals = 3 := by decide +kernel
example : (⟨[[7, -1], [6, -3], [5, -4]]⟩ : TradeWithMaterialBalance).gainFromTrade = 10 := by decide +kernel

/-- `trade.py:82-91` -/
example : (TradeWithSinglePrice.init [.init "buyer" [7, 4, 2], .init "seller" [-1, -3, -5]] [1, 1] (some [2, -1]) >>= TradeWithSinglePrice.repr) =
    .ok (some [.all ⟨"buyer", [7, 4, 2]⟩ 3 2, .all ⟨"seller", [-1, -3, -5]⟩ 3 (-1)]) := by decide +kernel
example : (TradeWithSinglePrice.init [.init "buyer" [7, 4, 2], .init "seller" [-1, -3, -5]] [1, 1] (some [2, -1])).map (·.numOfDeals) = .ok 3 := by
  decide +kernel
example : (TradeWithSinglePrice.init [.init "buyer" [7, 4, 2], .init "seller" [-1, -3, -5]] [1, 1] (some [2, -1]) >>= (·.gainFromTrade true)) =
    .ok 4 := by decide +kernel
example : (TradeWithSinglePrice.init [.init "buyer" [7, 4, 2], .init "seller" [-1, -3, -5]] [1, 1] (some [2, -1]) >>= (·.gainFromTrade false)) =
    .ok 1 := by decide +kernel

/-- `trade.py:92-99` -/
example : (TradeWithSinglePrice.init [.init "buyer" [7, 4, 3, 2], .init "seller" [-1, -3, -5]] [1, 1] (some [1, -1]) >>= TradeWithSinglePrice.repr) =
    .ok (some [.random ⟨"buyer", [7, 4, 3, 2]⟩ 3 4 1, .all ⟨"seller", [-1, -3, -5]⟩ 3 (-1)]) := by decide +kernel
example : (TradeWithSinglePrice.init [.init "buyer" [7, 4, 3, 2], .init "seller" [-1, -3, -5]] [1, 1] (some [1, -1]) >>= (·.gainFromTrade true)) =
    .ok 3 := by decide +kernel
example : (TradeWithSinglePrice.init [.init "buyer" [7, 4, 3, 2], .init "seller" [-1, -3, -5]] [1, 1] (some [1, -1]) >>= (·.gainFromTrade false)) =
    .ok 3 := by decide +kernel

/-- `prices.py:21-22` -/
example : dot [1, 2, 3] [4, 5, 6] = 32 := by decide +kernel

/-- `prices.py:58-63` -/
example : (AscendingPriceVector.init [1, 1, 0, 0] (-1000)).priceSumAfterIncrease 0 10 = .ok (-990) := by decide +kernel
example : (AscendingPriceVector.init [1, 0, 1, 1] (-1000)).priceSumAfterIncrease 0 10 = .ok (-1990) := by decide +kernel

/-- A sequence of calls of `increase_price_up_to_balance`; the status, the sum and one price after the last. -/
def raises (p : AscendingPriceVector) (calls : List (ℕ × ℚ)) (i : ℕ) : Py (Option PriceStatus × ℚ × ℚ) := do
  let p ← calls.foldlM (fun p c => p.increasePriceUpToBalance c.1 c.2) p
  .ok (p.status, p.priceSum, ← pyGet p.prices i)

/-- `prices.py:78-90` -/
example : raises (.init [1, 1] (-1000)) [(0, 10)] 0 = .ok (some .stoppedAtAgentValue, -990, 10) := by decide +kernel
example : raises (.init [1, 1] (-1000)) [(0, 10), (1, -100)] 1 = .ok (some .stoppedAtAgentValue, -90, -100) := by decide +kernel
example : raises (.init [1, 1] (-1000)) [(0, 10), (1, -100), (0, 90)] 0 = .ok (some .stoppedAtAgentValue, -10, 90) := by decide +kernel
example : raises (.init [1, 1] (-1000)) [(0, 10), (1, -100), (0, 90), (1, -80)] 1 = .ok (some .stoppedAtZeroSum, 0, -90) := by decide +kernel

/-- `prices.py:93-105` -/
example : raises (.init [2, 1, 0] (-1000)) [(0, 10)] 0 = .ok (some .stoppedAtAgentValue, -980, 10) := by decide +kernel
example : raises (.init [2, 1, 0] (-1000)) [(0, 10), (1, -100)] 1 = .ok (some .stoppedAtAgentValue, -80, -100) := by decide +kernel
example : raises (.init [2, 1, 0] (-1000)) [(0, 10), (1, -100), (2, 1000)] 2 = .ok (some .stoppedAtAgentValue, -80, 1000) := by decide +kernel
example : raises (.init [2, 1, 0] (-1000)) [(0, 10), (1, -100), (2, 1000), (0, 60)] 0 = .ok (some .stoppedAtZeroSum, 0, 50) := by decide +kernel

/-- A sequence of calls of `increase_prices` of `prices.py`, on prices computed by the explicit formula of `prices_integer.py`. -/
def jointRaises (calls : List (List (ℕ × ℚ))) : Py (List ℚ × Option PriceStatus) := do
  let ps ← IntegerPrices.calculateInitialPrices [[1, 1, 0, 0], [1, 0, 1, 1]] (-10000)
  let v ← SimultaneousAscendingPriceVectors.init [[1, 1, 0, 0], [1, 0, 1, 1]] ps
  let v ← calls.foldlM (fun v c => v.increasePrices c) v
  .ok (v.prices, v.status)

/-- `prices.py:129-131`, `159-167`, `183-197` -/
example : jointRaises [] = .ok ([-10000, -20000, -10000, -10000], none) := by decide +kernel
example : (jointRaises [[(1, 10), (2, 10)]]).map (fun r => r.1.getD 2 0) = .ok 10 := by decide +kernel
example : (jointRaises [[(1, 10), (2, 10)], [(1, 10), (3, 10)]]).map (fun r => r.1.getD 1 0) = .ok 10 := by decide +kernel
example : jointRaises [[(1, -80), (2, -80)]] = .ok ([-10000, -10080, -80, -10000], some .stoppedAtAgentValue) := by decide +kernel
example : jointRaises [[(1, -80), (2, -80)], [(1, -80), (3, -80)]] = .ok ([-10000, -160, -80, -80], some .stoppedAtAgentValue) := by decide +kernel
example : jointRaises [[(1, -80), (2, -80)], [(1, -80), (3, -80)], [(0, 100)]] = .ok ([100, -160, -80, -80], some .stoppedAtAgentValue) := by
  decide +kernel
example : jointRaises [[(1, -80), (2, -80)], [(1, -80), (3, -80)], [(0, 100)], [(1, -80), (3, -10)]] =
    .ok ([100, -100, -80, -20], some .stoppedAtZeroSum) := by decide +kernel

/-- `prices_integer.py:60-71` -/
example : (IntegerPrices.AscendingPriceVector.init [1, 1, 0, 0] (-1000) []).priceSumAfterIncrease 0 10 = .ok (-990) := by decide +kernel
example : (IntegerPrices.AscendingPriceVector.init [1, 0, 1, 1] (-1000) []).priceSumAfterIncrease 0 10 = .ok (-1990) := by decide +kernel
example : (IntegerPrices.AscendingPriceVector.init [1, 1, 0, 0] (-1000) [2, 1, 1, 1]).priceSumAfterIncrease 0 10 = .ok (-980) := by decide +kernel
example : (IntegerPrices.AscendingPriceVector.init [1, 0, 1, 1] (-1000) [3, 1, 1, 1]).priceSumAfterIncrease 0 10 = .ok (-1970) := by decide +kernel

/-- `prices_integer.py:86-113`: as `raises`. -/
def integerRaises (p : IntegerPrices.AscendingPriceVector) (calls : List (ℕ × ℚ)) (i : ℕ) : Py (Option PriceStatus × ℚ × ℚ) := do
  let p ← calls.foldlM (fun p c => p.increasePriceUpToBalance c.1 c.2) p
  .ok (p.status, p.priceSum, ← pyGet p.prices i)

example : integerRaises (.init [1, 1] (-1000) []) [(0, 10)] 0 = .ok (some .stoppedAtAgentValue, -990, 10) := by decide +kernel
example : integerRaises (.init [1, 1] (-1000) []) [(0, 10), (1, -100)] 1 = .ok (some .stoppedAtAgentValue, -90, -100) := by decide +kernel
example : integerRaises (.init [1, 1] (-1000) []) [(0, 10), (1, -100), (0, 90)] 0 = .ok (some .stoppedAtAgentValue, -10, 90) := by decide +kernel
example : integerRaises (.init [1, 1] (-1000) []) [(0, 10), (1, -100), (0, 90), (1, -80)] 1 = .ok (some .stoppedAtZeroSum, 0, -90) := by
  decide +kernel
example : integerRaises (.init [2, 1, 0] (-1000) []) [(0, 10), (1, -100)] 1 = .ok (some .stoppedAtAgentValue, -80, -100) := by decide +kernel
example : integerRaises (.init [2, 1, 0] (-1000) []) [(0, 10), (1, -100), (2, 1000)] 2 = .ok (some .stoppedAtAgentValue, -80, 1000) := by
  decide +kernel
example : integerRaises (.init [2, 1, 0] (-1000) []) [(0, 10), (1, -100), (2, 1000), (0, 60)] 0 = .ok (some .stoppedAtZeroSum, 0, 50) := by
  decide +kernel

/-- `prices_integer.py:137-140` and `169-207` -/
def integerJointRaises (recipes : List (List ℕ)) (calls : List (List (ℕ × ℚ))) : Py (List ℚ × Option PriceStatus) := do
  let v ← IntegerPrices.SimultaneousAscendingPriceVectors.init recipes (-10000) []
  let v ← calls.foldlM (fun v c => v.increasePrices c) v
  .ok (v.prices, v.status)

example : integerJointRaises [[1, 1, 0, 0], [1, 0, 1, 1]] [] = .ok ([-10000, -20000, -10000, -10000], none) := by decide +kernel
example : integerJointRaises [[1, 2, 0, 0], [1, 0, 1, 2]] [] = .ok ([-10000, -15000, -10000, -10000], none) := by decide +kernel
example : (integerJointRaises [[1, 1, 0, 0], [1, 0, 1, 1]] [[(1, 10), (2, 10)]]).map (fun r => r.1.getD 2 0) = .ok 10 := by decide +kernel
example : (integerJointRaises [[1, 1, 0, 0], [1, 0, 1, 1]] [[(1, 10), (2, 10)], [(1, 10), (3, 10)]]).map (fun r => r.1.getD 1 0) = .ok 10 := by
  decide +kernel
example : integerJointRaises [[1, 1, 0, 0], [1, 0, 1, 1]] [[(1, -80), (2, -80)]] =
    .ok ([-10000, -10080, -80, -10000], some .stoppedAtAgentValue) := by decide +kernel
example : integerJointRaises [[1, 1, 0, 0], [1, 0, 1, 1]] [[(1, -80), (2, -80)], [(1, -80), (3, -80)]] =
    .ok ([-10000, -160, -80, -80], some .stoppedAtAgentValue) := by decide +kernel
example : integerJointRaises [[1, 1, 0, 0], [1, 0, 1, 1]] [[(1, -80), (2, -80)], [(1, -80), (3, -80)], [(0, 100)]] =
    .ok ([100, -160, -80, -80], some .stoppedAtAgentValue) := by decide +kernel
example : integerJointRaises [[1, 1, 0, 0], [1, 0, 1, 1]] [[(1, -80), (2, -80)], [(1, -80), (3, -80)], [(0, 100)], [(1, -80), (3, -10)]] =
    .ok ([100, -100, -80, -20], some .stoppedAtZeroSum) := by decide +kernel

/-- `prices_integer.py:260-267` -/
example : IntegerPrices.calculateInitialPrices [[1, 1, 0, 0], [1, 0, 1, 1]] (-100) = .ok [-100, -200, -100, -100] := by decide +kernel
example : IntegerPrices.calculateInitialPrices [[1, 2, 0, 0], [1, 0, 1, 2]] (-100) = .ok [-100, -150, -100, -100] := by decide +kernel
example : IntegerPrices.calculateInitialPrices [[1, 2, 0, 0], [1, 0, 1, 3]] (-100) = .ok [-100, -200, -100, -100] := by decide +kernel

/-- `prices_integer.py:266-267`: here the doctest is wrong. It expects -200 for category 1, but line 287 computes `-100 * (5 - 4 + 2) / 2 = -150`
(with -200 the two recipes would not have the same sum: 2·(-100) + 2·(-200) = -600, -100 - 100 + 3·(-100) = -500). -/
example : IntegerPrices.calculateInitialPrices [[2, 2, 0, 0], [1, 0, 1, 3]] (-100) = .ok [-100, -150, -100, -100] := by decide +kernel

/-- `mcafee_protocol.py:28-33` -/
example : McAfee.isPriceGoodForPs 5 [9, -3] = true := by decide +kernel
example : McAfee.isPriceGoodForPs 5 [9, -7] = false := by decide +kernel
example : McAfee.isPriceGoodForPs 5 [4, -3] = false := by decide +kernel

/-- `ascending_auction_recipetree_test.py:35-44` — `ps_recipe_to_recipe_struct`. -/
example : TreeCalculations.psRecipeToRecipeStruct [1] = .list [.int 0, .none] := rfl
example : TreeCalculations.psRecipeToRecipeStruct [1, 1] = .list [.int 1, .list [.int 0, .none]] := rfl
example : TreeCalculations.psRecipeToRecipeStruct [1, 1, 1] = .list [.int 1, .list [.int 2, .list [.int 0, .none]]] := rfl
example : TreeCalculations.psRecipeToRecipeStruct [1, 1, 1, 1] = .list [.int 1, .list [.int 2, .list [.int 3, .list [.int 0, .none]]]] := rfl
example : TreeCalculations.psRecipeToRecipeStruct [1, 0, 1, 1] = .list [.int 2, .list [.int 3, .list [.int 0, .none]]] := rfl

end Auctions.Fidelity
