import Verif.Model.Reports
import Verif.Model.TreeAuction
import Verif.Model.TreeAuctionInteger
import Verif.Model.PricesInteger

set_option autoImplicit false

/-!
# The doctests of the two tree auctions, run on the model

Generated by `/verif/tools/doctests.py` from `ascending_auction_recipetree_protocol.py` and `ascending_auction_recipetree_integer_protocol.py`; for the
first, with the explicit initial prices of `prices_integer.py` in place of `linprog`. A doctest without an expected trade
(`ascending_auction_recipetree_protocol.py:101`) is left out, and so are the printed markets (the one of line 92 does not show
the market that was created). Tests of the model, not proofs of properties.
-/

namespace Auctions.Fidelity

/-- `print(budget_balanced_ascending_auction(Market(cats), struct))` of `ascending_auction_recipetree_protocol.py`. -/
def treeText (cats : List AgentCategory) (struct : List PyObj) : Py (Option (List Line)) := do
  match ← TreeAuction.auction IntegerPrices.calculateInitialPrices (← Market.init cats) struct 1000 with
  | none => .error .valueError
  | some t => t.repr

/-- `print(budget_balanced_ascending_auction(Market(cats), struct))` of `ascending_auction_recipetree_integer_protocol.py`. -/
def integerText (cats : List AgentCategory) (struct : List PyObj) : Py (Option (List Line)) := do
  match ← IntegerAuction.auction (← Market.init cats) struct [] 1000 with
  | none => .error .valueError
  | some t => IntegerAuction.repr (IntegerTree.countOf []) t

/-- `ascending_auction_recipetree_protocol.py:93` -/
example : treeText [.init "buyer" [27, 21, 17, 11, 3], .init "seller" [(-4), (-5), (-11)], .init "A" [(-2), (-3), (-11)], .init "B" [(-1), (-2), (-8)]] [.int 0, .list [.int 1, .none, .int 2, .list [.int 3, .none]]] =
    .ok (some [.potential 1 1 (-5), .potential 3 1 (-2), .allTraders 2 1 (-3), .allOf [3] 1, .someTraders 0 2 4 5, .allOf [1, 2] 2, .overall 2]) := by decide +kernel

/-- `ascending_auction_recipetree_protocol.py:109` -/
example : treeText [.init "buyer" [9], .init "seller" [(-4)]] [.int 0, .list [.int 1, .none]] =
    .ok (none) := by decide +kernel

/-- `ascending_auction_recipetree_protocol.py:114` -/
example : treeText [.init "buyer" [9, 8], .init "seller" [(-4)]] [.int 0, .list [.int 1, .none]] =
    .ok (some [.potential 1 1 (-8), .allTraders 0 1 8, .allOf [1] 1, .overall 1]) := by decide +kernel

/-- `ascending_auction_recipetree_protocol.py:123` -/
example : treeText [.init "buyer" [9], .init "seller" [(-4), (-3)]] [.int 0, .list [.int 1, .none]] =
    .ok (none) := by decide +kernel

/-- `ascending_auction_recipetree_protocol.py:129` -/
example : treeText [.init "buyer" [9, 8], .init "seller" [(-4), (-3)]] [.int 0, .list [.int 1, .none]] =
    .ok (some [.potential 1 1 (-4), .someTraders 0 1 2 4, .allOf [1] 1, .overall 1]) := by decide +kernel

/-- `ascending_auction_recipetree_integer_protocol.py:95` -/
example : integerText [.init "buyer" [27, 21, 17, 11, 3], .init "seller" [(-4), (-5), (-11)], .init "A" [(-2), (-3), (-11)], .init "B" [(-1), (-2), (-8)]] [.int 0, .list [.int 1, .none, .int 2, .list [.int 3, .none]]] =
    .ok (some [.potential 1 1 (-5), .potential 3 1 (-2), .allTraders 2 1 (-3), .allOf [3] 1, .someTraders 0 2 4 5, .allOf [1, 2] 2, .overall 2]) := by decide +kernel

/-- `ascending_auction_recipetree_integer_protocol.py:106` -/
example : integerText [.init "buyer" [17, 11], .init "seller" [(-5)], .init "A" [(-3)], .init "B" [(-2)]] [.int 0, .list [.int 1, .none, .int 2, .list [.int 3, .none]]] =
    .ok (none) := by decide +kernel

/-- `ascending_auction_recipetree_integer_protocol.py:112` -/
example : integerText [.init "buyer" [9], .init "seller" [(-4)]] [.int 0, .list [.int 1, .none]] =
    .ok (none) := by decide +kernel

/-- `ascending_auction_recipetree_integer_protocol.py:117` -/
example : integerText [.init "buyer" [9, 8], .init "seller" [(-4)]] [.int 0, .list [.int 1, .none]] =
    .ok (some [.potential 1 1 (-8), .allTraders 0 1 8, .allOf [1] 1, .overall 1]) := by decide +kernel

/-- `ascending_auction_recipetree_integer_protocol.py:126` -/
example : integerText [.init "buyer" [9], .init "seller" [(-4), (-3)]] [.int 0, .list [.int 1, .none]] =
    .ok (none) := by decide +kernel

/-- `ascending_auction_recipetree_integer_protocol.py:132` -/
example : integerText [.init "buyer" [9, 8], .init "seller" [(-4), (-3)]] [.int 0, .list [.int 1, .none]] =
    .ok (some [.potential 1 1 (-4), .someTraders 0 1 2 4, .allOf [1] 1, .overall 1]) := by decide +kernel

end Auctions.Fidelity
