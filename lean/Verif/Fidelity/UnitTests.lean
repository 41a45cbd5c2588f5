import Verif.Model.Ascending
import Verif.Model.TreeAuction
import Verif.Model.PricesInteger

set_option autoImplicit false

/-!
# The unit tests of the ascending auctions, run on the model

Generated by `/verif/tools/doctests.py` from `ascending_auction_test.py` and `ascending_auction_recipetree_test.py`. The initial prices of the tree
auction come from `scipy.optimize.linprog`, a parameter of the model; the tests are run with the explicit initial prices of `prices_integer.py`,
which satisfy what `linprog` is asked for (C42). Tests of the model, not proofs of properties.

Seven tests of `test_market_1_1_1` (lines 85-91 and 99-105) are out of date for the auction with a single recipe: their expected prices are those of the tree
auction, whose chain has the mediators before the sellers but raises the buyers first and the mediators last
(`ascending_auction_recipetree_test.py:30-54`). The single-recipe code takes, among the categories with the highest ratio, the first (`max`,
`ascending_auction_protocol.py:117`), hence stops at other prices: in the test of line 85 (values 9,8 / -1,-2 / -3,-4) it raises the buyers to 8 (8 leaves),
the mediators to -2 (-2 leaves), and the sellers from -MAX_VALUE until the sum is zero, that is to -6, below the value -4 of the lowest seller.
These tests are stated with `false`, followed by the prices that the code gives.
-/

namespace Auctions.Fidelity

/-- The comparison of prices in `_check_market`: `None` stands for any price. -/
def samePrices : List (Option ℚ) → List ℚ → Bool
  | [], _ => true
  | none :: es, _ :: ps => samePrices es ps
  | some e :: es, p :: ps => e = p && samePrices es ps
  | _ :: _, [] => false

/-- `ascending_auction_test.py:25-30` — `_check_market`. -/
def checkSingle (cats : List AgentCategory) (r : List ℕ) (deals : ℕ) (prices : List (Option ℚ)) : Bool :=
  match Ascending.auction ⟨cats⟩ r 1000 with
  | .ok (some t) => t.numOfDeals = deals && (match t.prices with
    | some ps => samePrices prices ps
    | none => false)
  | _ => false

/-- `ascending_auction_recipetree_test.py:83-88` — `_check_market`. -/
def checkTree (cats : List AgentCategory) (struct : List PyObj) (deals : ℕ) (prices : List (Option ℚ)) : Bool :=
  match TreeAuction.auction IntegerPrices.calculateInitialPrices ⟨cats⟩ struct 1000 with
  | .ok (some t) => t.numOfDeals = deals && samePrices prices t.prices
  | _ => false

/-- `ascending_auction_test.py:47` -/
example : checkSingle [.init "buyer" [9], .init "seller" [(-4)]] [1, 1] 0 [none, none] = true := by decide +kernel

/-- `ascending_auction_test.py:47`, as overridden in `ascending_auction_recipetree_test.py:64-72`. -/
example : checkTree [.init "buyer" [9], .init "seller" [(-4)]] [.int 1, .list [.int 0, .none]] 0 [none, none] = true := by decide +kernel

/-- `ascending_auction_test.py:49` -/
example : checkSingle [.init "buyer" [9, 8], .init "seller" [(-4)]] [1, 1] 0 [none, none] = true := by decide +kernel

/-- `ascending_auction_test.py:49`, as overridden in `ascending_auction_recipetree_test.py:64-72`. -/
example : checkTree [.init "buyer" [9, 8], .init "seller" [(-4)]] [.int 1, .list [.int 0, .none]] 0 [none, none] = true := by decide +kernel

/-- `ascending_auction_test.py:51` -/
example : checkSingle [.init "buyer" [9], .init "seller" [(-4), (-3)]] [1, 1] 1 [some 4, some (-4)] = true := by decide +kernel

/-- `ascending_auction_test.py:51`, as overridden in `ascending_auction_recipetree_test.py:64-72`. -/
example : checkTree [.init "buyer" [9], .init "seller" [(-4), (-3)]] [.int 1, .list [.int 0, .none]] 1 [some 4, some (-4)] = true := by decide +kernel

/-- `ascending_auction_test.py:53` -/
example : checkSingle [.init "buyer" [9, 8], .init "seller" [(-4), (-3)]] [1, 1] 1 [some 8, some (-8)] = true := by decide +kernel

/-- `ascending_auction_test.py:53`, as overridden in `ascending_auction_recipetree_test.py:64-72`. -/
example : checkTree [.init "buyer" [9, 8], .init "seller" [(-4), (-3)]] [.int 1, .list [.int 0, .none]] 1 [some 8, some (-8)] = true := by decide +kernel

/-- `ascending_auction_test.py:57` -/
example : checkSingle [.init "buyer" [4, 3], .init "seller" [9, 8]] [1, 1] 1 [some 3, some (-3)] = true := by decide +kernel

/-- `ascending_auction_test.py:57`, as overridden in `ascending_auction_recipetree_test.py:64-72`. -/
example : checkTree [.init "buyer" [4, 3], .init "seller" [9, 8]] [.int 1, .list [.int 0, .none]] 1 [some 3, some (-3)] = true := by decide +kernel

/-- `ascending_auction_test.py:61` -/
example : checkSingle [.init "buyer" [(-4), (-3)], .init "seller" [(-9), (-8)]] [1, 1] 0 [none, none] = true := by decide +kernel

/-- `ascending_auction_test.py:61`, as overridden in `ascending_auction_recipetree_test.py:64-72`. -/
example : checkTree [.init "buyer" [(-4), (-3)], .init "seller" [(-9), (-8)]] [.int 1, .list [.int 0, .none]] 0 [none, none] = true := by decide +kernel

/-- `ascending_auction_test.py:65` -/
example : checkSingle [.init "buyer" [19, 17, 15, 13, 11, 9], .init "seller" [(-12), (-10), (-8), (-6), (-4), (-2)]] [1, 1] 4 [some 11, some (-11)] = true := by decide +kernel

/-- `ascending_auction_test.py:65`, as overridden in `ascending_auction_recipetree_test.py:64-72`. -/
example : checkTree [.init "buyer" [19, 17, 15, 13, 11, 9], .init "seller" [(-12), (-10), (-8), (-6), (-4), (-2)]] [.int 1, .list [.int 0, .none]] 4 [some 11, some (-11)] = true := by decide +kernel

/-- `ascending_auction_test.py:85`; the test expects other prices than the code gives, see the head of this file -/
example : checkSingle [.init "buyer" [9, 8], .init "mediator" [(-1), (-2)], .init "seller" [(-4), (-3)]] [1, 1, 1] 1 [some 8, some (-4), some (-4)] = false := by decide +kernel

/-- `ascending_auction_test.py:85`, with the prices that the code gives. -/
example : checkSingle [.init "buyer" [9, 8], .init "mediator" [(-1), (-2)], .init "seller" [(-4), (-3)]] [1, 1, 1] 1 [some 8, some (-2), some (-6)] = true := by decide +kernel

/-- `ascending_auction_test.py:85`, as overridden in `ascending_auction_recipetree_test.py:64-72`. -/
example : checkTree [.init "buyer" [9, 8], .init "mediator" [(-1), (-2)], .init "seller" [(-4), (-3)]] [.int 1, .list [.int 2, .list [.int 0, .none]]] 1 [some 8, some (-4), some (-4)] = true := by decide +kernel

/-- `ascending_auction_test.py:87`; the test expects other prices than the code gives, see the head of this file -/
example : checkSingle [.init "buyer" [9, 8], .init "mediator" [(-1), (-2)], .init "seller" [(-4), (-3), (-10)]] [1, 1, 1] 1 [some 8, some (-4), some (-4)] = false := by decide +kernel

/-- `ascending_auction_test.py:87`, with the prices that the code gives. -/
example : checkSingle [.init "buyer" [9, 8], .init "mediator" [(-1), (-2)], .init "seller" [(-4), (-3), (-10)]] [1, 1, 1] 1 [some 8, some (-2), some (-6)] = true := by decide +kernel

/-- `ascending_auction_test.py:87`, as overridden in `ascending_auction_recipetree_test.py:64-72`. -/
example : checkTree [.init "buyer" [9, 8], .init "mediator" [(-1), (-2)], .init "seller" [(-4), (-3), (-10)]] [.int 1, .list [.int 2, .list [.int 0, .none]]] 1 [some 8, some (-4), some (-4)] = true := by decide +kernel

/-- `ascending_auction_test.py:89`; the test expects other prices than the code gives, see the head of this file -/
example : checkSingle [.init "buyer" [9, 8], .init "mediator" [(-1), (-2)], .init "seller" [(-4), (-3), (-5)]] [1, 1, 1] 1 [some 8, some (-4), some (-4)] = false := by decide +kernel

/-- `ascending_auction_test.py:89`, with the prices that the code gives. -/
example : checkSingle [.init "buyer" [9, 8], .init "mediator" [(-1), (-2)], .init "seller" [(-4), (-3), (-5)]] [1, 1, 1] 1 [some 8, some (-3), some (-5)] = true := by decide +kernel

/-- `ascending_auction_test.py:89`, as overridden in `ascending_auction_recipetree_test.py:64-72`. -/
example : checkTree [.init "buyer" [9, 8], .init "mediator" [(-1), (-2)], .init "seller" [(-4), (-3), (-5)]] [.int 1, .list [.int 2, .list [.int 0, .none]]] 1 [some 8, some (-4), some (-4)] = true := by decide +kernel

/-- `ascending_auction_test.py:91`; the test expects other prices than the code gives, see the head of this file -/
example : checkSingle [.init "buyer" [9, 8], .init "mediator" [(-1), (-2)], .init "seller" [(-4), (-3), (-2)]] [1, 1, 1] 1 [some 8, some (-5), some (-3)] = false := by decide +kernel

/-- `ascending_auction_test.py:91`, with the prices that the code gives. -/
example : checkSingle [.init "buyer" [9, 8], .init "mediator" [(-1), (-2)], .init "seller" [(-4), (-3), (-2)]] [1, 1, 1] 1 [some 8, some (-4), some (-4)] = true := by decide +kernel

/-- `ascending_auction_test.py:91`, as overridden in `ascending_auction_recipetree_test.py:64-72`. -/
example : checkTree [.init "buyer" [9, 8], .init "mediator" [(-1), (-2)], .init "seller" [(-4), (-3), (-2)]] [.int 1, .list [.int 2, .list [.int 0, .none]]] 1 [some 8, some (-5), some (-3)] = true := by decide +kernel

/-- `ascending_auction_test.py:93` -/
example : checkSingle [.init "buyer" [9, 8, 7], .init "mediator" [(-1), (-2), (-3)], .init "seller" [(-4), (-3), (-2)]] [1, 1, 1] 2 [some 7, some (-3), some (-4)] = true := by decide +kernel

/-- `ascending_auction_test.py:93`, as overridden in `ascending_auction_recipetree_test.py:64-72`. -/
example : checkTree [.init "buyer" [9, 8, 7], .init "mediator" [(-1), (-2), (-3)], .init "seller" [(-4), (-3), (-2)]] [.int 1, .list [.int 2, .list [.int 0, .none]]] 2 [some 7, some (-3), some (-4)] = true := by decide +kernel

/-- `ascending_auction_test.py:95` -/
example : checkSingle [.init "buyer" [9, 8, 4], .init "mediator" [(-1), (-2), (-3)], .init "seller" [(-4), (-3), (-2)]] [1, 1, 1] 2 [some 7, some (-3), some (-4)] = true := by decide +kernel

/-- `ascending_auction_test.py:95`, as overridden in `ascending_auction_recipetree_test.py:64-72`. -/
example : checkTree [.init "buyer" [9, 8, 4], .init "mediator" [(-1), (-2), (-3)], .init "seller" [(-4), (-3), (-2)]] [.int 1, .list [.int 2, .list [.int 0, .none]]] 2 [some 7, some (-3), some (-4)] = true := by decide +kernel

/-- `ascending_auction_test.py:99`; the test expects other prices than the code gives, see the head of this file -/
example : checkSingle [.init "buyer" [17, 14, 13, 9, 6], .init "mediator" [(-1), (-3), (-4), (-7), (-10)], .init "seller" [(-1), (-4), (-5), (-8), (-11)]] [1, 1, 1] 2 [some 13, some (-7), some (-6)] = false := by decide +kernel

/-- `ascending_auction_test.py:99`, with the prices that the code gives. -/
example : checkSingle [.init "buyer" [17, 14, 13, 9, 6], .init "mediator" [(-1), (-3), (-4), (-7), (-10)], .init "seller" [(-1), (-4), (-5), (-8), (-11)]] [1, 1, 1] 2 [some 13, some (-5), some (-8)] = true := by decide +kernel

/-- `ascending_auction_test.py:99`, as overridden in `ascending_auction_recipetree_test.py:64-72`. -/
example : checkTree [.init "buyer" [17, 14, 13, 9, 6], .init "mediator" [(-1), (-3), (-4), (-7), (-10)], .init "seller" [(-1), (-4), (-5), (-8), (-11)]] [.int 1, .list [.int 2, .list [.int 0, .none]]] 2 [some 13, some (-7), some (-6)] = true := by decide +kernel

/-- `ascending_auction_test.py:102`; the test expects other prices than the code gives, see the head of this file -/
example : checkSingle [.init "buyer" [17, 14, 13, 9, 6], .init "mediator" [(-1), (-4), (-5), (-8), (-11)], .init "seller" [(-1), (-3), (-6), (-7), (-10)]] [1, 1, 1] 2 [some 13, some (-7), some (-6)] = false := by decide +kernel

/-- `ascending_auction_test.py:102`, with the prices that the code gives. -/
example : checkSingle [.init "buyer" [17, 14, 13, 9, 6], .init "mediator" [(-1), (-4), (-5), (-8), (-11)], .init "seller" [(-1), (-3), (-6), (-7), (-10)]] [1, 1, 1] 2 [some 13, some (-6), some (-7)] = true := by decide +kernel

/-- `ascending_auction_test.py:102`, as overridden in `ascending_auction_recipetree_test.py:64-72`. -/
example : checkTree [.init "buyer" [17, 14, 13, 9, 6], .init "mediator" [(-1), (-4), (-5), (-8), (-11)], .init "seller" [(-1), (-3), (-6), (-7), (-10)]] [.int 1, .list [.int 2, .list [.int 0, .none]]] 2 [some 13, some (-7), some (-6)] = true := by decide +kernel

/-- `ascending_auction_test.py:105`; the test expects other prices than the code gives, see the head of this file -/
example : checkSingle [.init "buyer" [17, 14, 13, 9, 6], .init "mediator" [(-1), (-3), (-6), (-7), (-10)], .init "seller" [(-1), (-4), (-13/2), (-8), (-11)]] [1, 1, 1] 2 [some 13, some (-13/2), some (-13/2)] = false := by decide +kernel

/-- `ascending_auction_test.py:105`, with the prices that the code gives. -/
example : checkSingle [.init "buyer" [17, 14, 13, 9, 6], .init "mediator" [(-1), (-3), (-6), (-7), (-10)], .init "seller" [(-1), (-4), (-13/2), (-8), (-11)]] [1, 1, 1] 2 [some 13, some (-6), some (-7)] = true := by decide +kernel

/-- `ascending_auction_test.py:105`, as overridden in `ascending_auction_recipetree_test.py:64-72`. -/
example : checkTree [.init "buyer" [17, 14, 13, 9, 6], .init "mediator" [(-1), (-3), (-6), (-7), (-10)], .init "seller" [(-1), (-4), (-13/2), (-8), (-11)]] [.int 1, .list [.int 2, .list [.int 0, .none]]] 2 [some 13, some (-13/2), some (-13/2)] = true := by decide +kernel

/-- `ascending_auction_test.py:108` -/
example : checkSingle [.init "buyer" [17, 14, 13, 9, 6], .init "mediator" [(-1), (-3), (-6), (-7), (-10)], .init "seller" [(-1), (-4), (-15/2), (-8), (-11)]] [1, 1, 1] 2 [some (27/2), some (-6), some (-15/2)] = true := by decide +kernel

/-- `ascending_auction_test.py:108`, as overridden in `ascending_auction_recipetree_test.py:64-72`. -/
example : checkTree [.init "buyer" [17, 14, 13, 9, 6], .init "mediator" [(-1), (-3), (-6), (-7), (-10)], .init "seller" [(-1), (-4), (-15/2), (-8), (-11)]] [.int 1, .list [.int 2, .list [.int 0, .none]]] 2 [some (27/2), some (-6), some (-15/2)] = true := by decide +kernel

/-- `ascending_auction_test.py:126` -/
example : checkSingle [.init "buyer" [9], .init "seller" [(-4), (-3)]] [1, 2] 0 [some 9, some (-9/2)] = true := by decide +kernel

/-- `ascending_auction_test.py:128` -/
example : checkSingle [.init "buyer" [9, 8, 7, 6], .init "seller" [(-6), (-5), (-4), (-3), (-2), (-1)]] [1, 2] 1 [some 8, some (-4)] = true := by decide +kernel

/-- `ascending_auction_test.py:130` -/
example : checkSingle [.init "buyer" [9, 8], .init "seller" [(-4), (-3), (-2), (-1)]] [1, 2] 1 [some 8, some (-4)] = true := by decide +kernel

/-- `ascending_auction_test.py:132` -/
example : checkSingle [.init "buyer" [9, 8], .init "seller" [(-6), (-3), (-2), (-1)]] [1, 2] 1 [some 8, some (-4)] = true := by decide +kernel

/-- `ascending_auction_test.py:134` -/
example : checkSingle [.init "buyer" [9, 8], .init "seller" [(-4), (-3), (-2), (-1)]] [1, 2] 1 [some 8, some (-4)] = true := by decide +kernel

/-- `ascending_auction_test.py:138` -/
example : checkSingle [.init "buyer" [0, 1, 2, 3, 4, 5, 6, 7, 8, 9, 10, 11, 12, 13, 14, 15, 16, 17, 18, 19], .init "seller" [(-3), (-2), (-1)]] [1, 2] 1 [some 18, some (-9)] = true := by decide +kernel

/-- `ascending_auction_test.py:157` -/
example : checkSingle [.init "buyer" [9, 8], .init "mediator" [(-5), (-7)], .init "seller" [(-4), (-3)]] [1, 0, 1] 1 [some 8, none, some (-8)] = true := by decide +kernel

/-- `ascending_auction_test.py:157`, as overridden in `ascending_auction_recipetree_test.py:64-72`. -/
example : checkTree [.init "buyer" [9, 8], .init "mediator" [(-5), (-7)], .init "seller" [(-4), (-3)]] [.int 2, .list [.int 0, .none]] 1 [some 8, none, some (-8)] = true := by decide +kernel

/-- `ascending_auction_recipetree_test.py:114` -/
example : checkTree [.init "buyer" [9, 8], .init "sellerA" [(-4)], .init "sellerB" [(-3)]] [.int 0, .list [.int 1, .none, .int 2, .none]] 1 [some 4, some (-4), some (-4)] = true := by decide +kernel

/-- `ascending_auction_recipetree_test.py:121` -/
example : checkTree [.init "buyer" [19, 17, 15, 13, 11, 9], .init "sellerA" [], .init "sellerB" [(-12), (-10), (-8), (-6), (-4), (-2)]] [.int 0, .list [.int 1, .none, .int 2, .none]] 4 [some 10, none, some (-10)] = true := by decide +kernel

/-- `ascending_auction_recipetree_test.py:123` -/
example : checkTree [.init "buyer" [19, 17, 15, 13, 11, 9], .init "sellerA" [(-12)], .init "sellerB" [(-10), (-8), (-6), (-4), (-2)]] [.int 0, .list [.int 1, .none, .int 2, .none]] 4 [some 10, some (-10), some (-10)] = true := by decide +kernel

/-- `ascending_auction_recipetree_test.py:125` -/
example : checkTree [.init "buyer" [19, 17, 15, 13, 11, 9], .init "sellerA" [(-4), (-2)], .init "sellerB" [(-12), (-10), (-8), (-6)]] [.int 0, .list [.int 1, .none, .int 2, .none]] 4 [some 10, some (-10), some (-10)] = true := by decide +kernel

/-- `ascending_auction_recipetree_test.py:127` -/
example : checkTree [.init "buyer" [19, 17, 15, 13, 11, 9], .init "sellerA" [(-10), (-4)], .init "sellerB" [(-12), (-8), (-6), (-2)]] [.int 0, .list [.int 1, .none, .int 2, .none]] 4 [some 10, some (-10), some (-10)] = true := by decide +kernel

/-- `ascending_auction_recipetree_test.py:129` -/
example : checkTree [.init "buyer" [19, 17, 15, 13, 11, 9], .init "sellerA" [(-12), (-10), (-8), (-6), (-4), (-2)], .init "sellerB" []] [.int 0, .list [.int 1, .none, .int 2, .none]] 4 [some 10, some (-10), none] = true := by decide +kernel

/-- `ascending_auction_recipetree_test.py:152` -/
example : checkTree [.init "buyer" [19, 17, 15, 13, 11, 9], .init "seller" [(-12), (-10), (-8), (-6), (-4), (-2)], .init "producer" [], .init "mover" []] [.int 0, .list [.int 1, .none, .int 2, .list [.int 3, .none]]] 4 [some 10, some (-10), none, none] = true := by decide +kernel

/-- `ascending_auction_recipetree_test.py:155` -/
example : checkTree [.init "buyer" [19, 17, 15, 13, 11, 9], .init "seller" [], .init "producer" [(-6), (-5), (-4), (-3), (-2), (-1)], .init "mover" [(-6), (-5), (-4), (-3), (-2), (-1)]] [.int 0, .list [.int 1, .none, .int 2, .list [.int 3, .none]]] 4 [some 10, none, some (-5), some (-5)] = true := by decide +kernel

/-- `ascending_auction_recipetree_test.py:179` -/
example : checkTree [.init "buyer" [400, 300, 200, 100], .init "seller1" [(-1), (-2)], .init "seller2" [(-3), (-4)], .init "producer1" [(-5), (-6)], .init "producer2" [(-7), (-8)]] [.int 0, .list [.int 1, .list [.int 2, .none], .int 3, .list [.int 4, .none]]] 2 [none, none, none, none, none] = true := by decide +kernel

end Auctions.Fidelity
