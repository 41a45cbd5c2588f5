import Verif.Model.Reports
import Verif.Model.Ascending
import Verif.Model.TradeReduction
import Verif.Model.McAfee

set_option autoImplicit false

/-!
# The doctests of the three protocols for a single recipe, run on the model

Generated by `/verif/tools/doctests.py` from the docstrings of `trade_reduction_protocol.py`, `ascending_auction_protocol.py` and `mcafee_protocol.py`:
each printed trade is compared with the text (`Model/Reports.lean`) of the trade that the model computes. These are tests of the model
against recorded behaviour of the code, not proofs of properties.
-/

namespace Auctions.Fidelity

/-- `print(budget_balanced_trade_reduction(Market(cats), r))` -/
def reductionText (cats : List AgentCategory) (r : List ℕ) : Py (Option (List PriceLine)) := do
  (← TradeReduction.tradeReduction (← Market.init cats) r).repr

/-- `print(mcafee_trade_reduction(Market(cats), r))` -/
def mcafeeText (cats : List AgentCategory) (r : List ℕ) : Py (Option (List PriceLine)) := do
  (← McAfee.mcafeeTradeReduction (← Market.init cats) r).repr

/-- `print(budget_balanced_ascending_auction(Market(cats), r))`; 1000 rounds are enough for the markets below (otherwise the comparison fails). -/
def ascendingText (cats : List AgentCategory) (r : List ℕ) : Py (Option (List PriceLine)) := do
  match ← Ascending.auction (← Market.init cats) r 1000 with
  | none => .error .valueError
  | some t => t.repr

/-- `trade_reduction_protocol.py:44` — the printed market. -/
example : ([.init "seller" [(-1), (-2), (-3), (-4), (-5), (-7), (-8), (-10), (-11)], .init "buyer" [17, 14, 13, 9, 6]] : List AgentCategory) =
    [⟨"seller", [(-1), (-2), (-3), (-4), (-5), (-7), (-8), (-10), (-11)]⟩, ⟨"buyer", [17, 14, 13, 9, 6]⟩] := by decide +kernel

/-- `trade_reduction_protocol.py:44` -/
example : reductionText [.init "seller" [(-1), (-2), (-3), (-4), (-5), (-7), (-8), (-10), (-11)], .init "buyer" [17, 14, 13, 9, 6]] [2, 1] =
    .ok (some [.all ⟨"seller", [(-1), (-2), (-3), (-4)]⟩ 4 (-5),
      .random ⟨"buyer", [17, 14, 13]⟩ 2 3 10]) := by decide +kernel

/-- `trade_reduction_protocol.py:50` — the printed market. -/
example : ([.init "mediator" [(-3), (-4), (-5), (-6), (-7), (-8), (-9), (-10)], .init "seller" [(-1), (-2), (-3), (-4), (-5), (-6), (-7), (-8)], .init "buyer" [17, 16, 15, 14, 13, 12, 10, 6]] : List AgentCategory) =
    [⟨"mediator", [(-3), (-4), (-5), (-6), (-7), (-8), (-9), (-10)]⟩, ⟨"seller", [(-1), (-2), (-3), (-4), (-5), (-6), (-7), (-8)]⟩, ⟨"buyer", [17, 16, 15, 14, 13, 12, 10, 6]⟩] := by decide +kernel

/-- `trade_reduction_protocol.py:50` -/
example : reductionText [.init "mediator" [(-3), (-4), (-5), (-6), (-7), (-8), (-9), (-10)], .init "seller" [(-1), (-2), (-3), (-4), (-5), (-6), (-7), (-8)], .init "buyer" [17, 16, 15, 14, 13, 12, 10, 6]] [2, 3, 2] =
    .ok (some [.all ⟨"mediator", [(-3), (-4)]⟩ 2 (-5),
      .random ⟨"seller", [(-1), (-2), (-3), (-4), (-5)]⟩ 3 5 (-16/3),
      .random ⟨"buyer", [17, 16, 15, 14]⟩ 2 4 13]) := by decide +kernel

/-- `trade_reduction_protocol.py:58` — the printed market. -/
example : ([.init "seller" [(-2), (-4), (-6), (-8), (-10), (-12), (-14)], .init "buyer" [20, 18, 16, 9, 2, 1]] : List AgentCategory) =
    [⟨"seller", [(-2), (-4), (-6), (-8), (-10), (-12), (-14)]⟩, ⟨"buyer", [20, 18, 16, 9, 2, 1]⟩] := by decide +kernel

/-- `trade_reduction_protocol.py:58` -/
example : reductionText [.init "seller" [(-2), (-4), (-6), (-8), (-10), (-12), (-14)], .init "buyer" [20, 18, 16, 9, 2, 1]] [2, 3] =
    .ok (some [.all ⟨"seller", [(-2), (-4)]⟩ 2 (-6),
      .random ⟨"buyer", [20, 18, 16, 9]⟩ 3 4 4]) := by decide +kernel

/-- `trade_reduction_protocol.py:65` — the printed market. -/
example : ([.init "buyer" [17, 14, 13, 9, 6], .init "seller" [(-1), (-2), (-3), (-4), (-5), (-7), (-8), (-10), (-11)]] : List AgentCategory) =
    [⟨"buyer", [17, 14, 13, 9, 6]⟩, ⟨"seller", [(-1), (-2), (-3), (-4), (-5), (-7), (-8), (-10), (-11)]⟩] := by decide +kernel

/-- `trade_reduction_protocol.py:65` -/
example : reductionText [.init "buyer" [17, 14, 13, 9, 6], .init "seller" [(-1), (-2), (-3), (-4), (-5), (-7), (-8), (-10), (-11)]] [1, 2] =
    .ok (some [.all ⟨"buyer", [17, 14]⟩ 2 13,
      .random ⟨"seller", [(-1), (-2), (-3), (-4), (-5)]⟩ 4 5 (-13/2)]) := by decide +kernel

/-- `trade_reduction_protocol.py:71` — the printed market. -/
example : ([.init "buyer" [17, 16, 15, 14, 13, 12, 10, 6], .init "mediator" [(-3), (-4), (-5), (-6), (-7), (-8), (-9), (-10)], .init "seller" [(-1), (-2), (-3), (-4), (-5), (-6), (-7), (-8)]] : List AgentCategory) =
    [⟨"buyer", [17, 16, 15, 14, 13, 12, 10, 6]⟩, ⟨"mediator", [(-3), (-4), (-5), (-6), (-7), (-8), (-9), (-10)]⟩, ⟨"seller", [(-1), (-2), (-3), (-4), (-5), (-6), (-7), (-8)]⟩] := by decide +kernel

/-- `trade_reduction_protocol.py:71` -/
example : reductionText [.init "buyer" [17, 16, 15, 14, 13, 12, 10, 6], .init "mediator" [(-3), (-4), (-5), (-6), (-7), (-8), (-9), (-10)], .init "seller" [(-1), (-2), (-3), (-4), (-5), (-6), (-7), (-8)]] [2, 2, 3] =
    .ok (some [.all ⟨"buyer", [17, 16]⟩ 2 15,
      .all ⟨"mediator", [(-3), (-4)]⟩ 2 (-5),
      .random ⟨"seller", [(-1), (-2), (-3), (-4), (-5), (-6)]⟩ 3 6 (-20/3)]) := by decide +kernel

/-- `trade_reduction_protocol.py:78` — the printed market. -/
example : ([.init "buyer" [20, 18, 16, 9, 2, 1], .init "seller" [(-2), (-4), (-6), (-8), (-10), (-12), (-14)]] : List AgentCategory) =
    [⟨"buyer", [20, 18, 16, 9, 2, 1]⟩, ⟨"seller", [(-2), (-4), (-6), (-8), (-10), (-12), (-14)]⟩] := by decide +kernel

/-- `trade_reduction_protocol.py:78` -/
example : reductionText [.init "buyer" [20, 18, 16, 9, 2, 1], .init "seller" [(-2), (-4), (-6), (-8), (-10), (-12), (-14)]] [3, 2] =
    .ok (some [.random ⟨"buyer", [20, 18, 16, 9]⟩ 3 4 (20/3),
      .random ⟨"seller", [(-2), (-4), (-6), (-8)]⟩ 2 4 (-10)]) := by decide +kernel

/-- `trade_reduction_protocol.py:85` — the printed market. -/
example : ([.init "seller" [(-1), (-2), (-2), (-3)], .init "buyer" [2, 2, 2, 3]] : List AgentCategory) =
    [⟨"seller", [(-1), (-2), (-2), (-3)]⟩, ⟨"buyer", [3, 2, 2, 2]⟩] := by decide +kernel

/-- `trade_reduction_protocol.py:85` -/
example : reductionText [.init "seller" [(-1), (-2), (-2), (-3)], .init "buyer" [2, 2, 2, 3]] [1, 1] =
    .ok (some [.all ⟨"seller", [(-1), (-2), (-2)]⟩ 3 (-2),
      .all ⟨"buyer", [3, 2, 2]⟩ 3 2]) := by decide +kernel

/-- `trade_reduction_protocol.py:92` — the printed market. -/
example : ([.init "buyer" [2, 2, 2, 3], .init "seller" [(-1), (-2), (-2), (-3)]] : List AgentCategory) =
    [⟨"buyer", [3, 2, 2, 2]⟩, ⟨"seller", [(-1), (-2), (-2), (-3)]⟩] := by decide +kernel

/-- `trade_reduction_protocol.py:92` -/
example : reductionText [.init "buyer" [2, 2, 2, 3], .init "seller" [(-1), (-2), (-2), (-3)]] [1, 1] =
    .ok (some [.all ⟨"buyer", [3, 2]⟩ 2 2,
      .random ⟨"seller", [(-1), (-2), (-2)]⟩ 2 3 (-2)]) := by decide +kernel

/-- `trade_reduction_protocol.py:98` — the printed market. -/
example : ([.init "buyer" [17, 16, 15, 14, 13, 12, 10, 6], .init "mediator" [(-3), (-4), (-5), (-6), (-7), (-8), (-9), (-10)], .init "seller" [(-1), (-2), (-3), (-4), (-5), (-6), (-7), (-8)]] : List AgentCategory) =
    [⟨"buyer", [17, 16, 15, 14, 13, 12, 10, 6]⟩, ⟨"mediator", [(-3), (-4), (-5), (-6), (-7), (-8), (-9), (-10)]⟩, ⟨"seller", [(-1), (-2), (-3), (-4), (-5), (-6), (-7), (-8)]⟩] := by decide +kernel

/-- `trade_reduction_protocol.py:98` -/
example : reductionText [.init "buyer" [17, 16, 15, 14, 13, 12, 10, 6], .init "mediator" [(-3), (-4), (-5), (-6), (-7), (-8), (-9), (-10)], .init "seller" [(-1), (-2), (-3), (-4), (-5), (-6), (-7), (-8)]] [2, 2, 3] =
    .ok (some [.all ⟨"buyer", [17, 16]⟩ 2 15,
      .all ⟨"mediator", [(-3), (-4)]⟩ 2 (-5),
      .random ⟨"seller", [(-1), (-2), (-3), (-4), (-5), (-6)]⟩ 3 6 (-20/3)]) := by decide +kernel

/-- `trade_reduction_protocol.py:106` — the printed market. -/
example : ([.init "buyer" [9], .init "seller" [(-4)]] : List AgentCategory) =
    [⟨"buyer", [9]⟩, ⟨"seller", [(-4)]⟩] := by decide +kernel

/-- `trade_reduction_protocol.py:106` -/
example : reductionText [.init "buyer" [9], .init "seller" [(-4)]] [1, 1] =
    .ok (none) := by decide +kernel

/-- `trade_reduction_protocol.py:111` — the printed market. -/
example : ([.init "buyer" [9, 8], .init "seller" [(-4)]] : List AgentCategory) =
    [⟨"buyer", [9, 8]⟩, ⟨"seller", [(-4)]⟩] := by decide +kernel

/-- `trade_reduction_protocol.py:111` -/
example : reductionText [.init "buyer" [9, 8], .init "seller" [(-4)]] [1, 1] =
    .ok (none) := by decide +kernel

/-- `trade_reduction_protocol.py:116` — the printed market. -/
example : ([.init "seller" [(-4)], .init "buyer" [9, 8]] : List AgentCategory) =
    [⟨"seller", [(-4)]⟩, ⟨"buyer", [9, 8]⟩] := by decide +kernel

/-- `trade_reduction_protocol.py:116` -/
example : reductionText [.init "seller" [(-4)], .init "buyer" [9, 8]] [1, 1] =
    .ok (some [.all ⟨"seller", [(-4)]⟩ 1 (-8),
      .all ⟨"buyer", [9]⟩ 1 8]) := by decide +kernel

/-- `trade_reduction_protocol.py:122` — the printed market. -/
example : ([.init "seller" [(-4), (-3)], .init "buyer" [9]] : List AgentCategory) =
    [⟨"seller", [(-3), (-4)]⟩, ⟨"buyer", [9]⟩] := by decide +kernel

/-- `trade_reduction_protocol.py:122` -/
example : reductionText [.init "seller" [(-4), (-3)], .init "buyer" [9]] [1, 1] =
    .ok (none) := by decide +kernel

/-- `trade_reduction_protocol.py:127` — the printed market. -/
example : ([.init "buyer" [9], .init "seller" [(-4), (-3)]] : List AgentCategory) =
    [⟨"buyer", [9]⟩, ⟨"seller", [(-3), (-4)]⟩] := by decide +kernel

/-- `trade_reduction_protocol.py:127` -/
example : reductionText [.init "buyer" [9], .init "seller" [(-4), (-3)]] [1, 1] =
    .ok (some [.all ⟨"buyer", [9]⟩ 1 4,
      .all ⟨"seller", [(-3)]⟩ 1 (-4)]) := by decide +kernel

/-- `trade_reduction_protocol.py:133` — the printed market. -/
example : ([.init "buyer" [9, 8], .init "seller" [(-4), (-3)]] : List AgentCategory) =
    [⟨"buyer", [9, 8]⟩, ⟨"seller", [(-3), (-4)]⟩] := by decide +kernel

/-- `trade_reduction_protocol.py:133` -/
example : reductionText [.init "buyer" [9, 8], .init "seller" [(-4), (-3)]] [1, 1] =
    .ok (some [.all ⟨"buyer", [9]⟩ 1 8,
      .random ⟨"seller", [(-3), (-4)]⟩ 1 2 (-8)]) := by decide +kernel

/-- `trade_reduction_protocol.py:139` -/
example : reductionText [.init "seller" [(-4), (-3)], .init "buyer" [9, 8]] [1, 1] =
    .ok (some [.all ⟨"seller", [(-3)]⟩ 1 (-4),
      .random ⟨"buyer", [9, 8]⟩ 1 2 4]) := by decide +kernel

/-- `trade_reduction_protocol.py:145` — the printed market. -/
example : ([.init "buyer1" [4, 3], .init "buyer2" [9, 8]] : List AgentCategory) =
    [⟨"buyer1", [4, 3]⟩, ⟨"buyer2", [9, 8]⟩] := by decide +kernel

/-- `trade_reduction_protocol.py:145` -/
example : reductionText [.init "buyer1" [4, 3], .init "buyer2" [9, 8]] [1, 1] =
    .ok (some [.all ⟨"buyer1", [4]⟩ 1 3,
      .random ⟨"buyer2", [9, 8]⟩ 1 2 (-3)]) := by decide +kernel

/-- `trade_reduction_protocol.py:152` — the printed market. -/
example : ([.init "seller1" [(-4), (-3)], .init "seller2" [(-9), (-8)]] : List AgentCategory) =
    [⟨"seller1", [(-3), (-4)]⟩, ⟨"seller2", [(-8), (-9)]⟩] := by decide +kernel

/-- `trade_reduction_protocol.py:152` -/
example : reductionText [.init "seller1" [(-4), (-3)], .init "seller2" [(-9), (-8)]] [1, 1] =
    .ok (none) := by decide +kernel

/-- `trade_reduction_protocol.py:159` — the printed market. -/
example : ([.init "seller" [(-4), (-3)], .init "buyer" [9, 8], .init "mediator" [(-1), (-2)]] : List AgentCategory) =
    [⟨"seller", [(-3), (-4)]⟩, ⟨"buyer", [9, 8]⟩, ⟨"mediator", [(-1), (-2)]⟩] := by decide +kernel

/-- `trade_reduction_protocol.py:159` -/
example : reductionText [.init "seller" [(-4), (-3)], .init "buyer" [9, 8], .init "mediator" [(-1), (-2)]] [1, 1, 1] =
    .ok (some [.all ⟨"seller", [(-3)]⟩ 1 (-4),
      .all ⟨"buyer", [9]⟩ 1 8,
      .random ⟨"mediator", [(-1), (-2)]⟩ 1 2 (-4)]) := by decide +kernel

/-- `trade_reduction_protocol.py:166` — the printed market. -/
example : ([.init "buyer" [9, 8], .init "mediator" [(-1), (-2)], .init "seller" [(-4), (-3), (-10)]] : List AgentCategory) =
    [⟨"buyer", [9, 8]⟩, ⟨"mediator", [(-1), (-2)]⟩, ⟨"seller", [(-3), (-4), (-10)]⟩] := by decide +kernel

/-- `trade_reduction_protocol.py:166` -/
example : reductionText [.init "buyer" [9, 8], .init "mediator" [(-1), (-2)], .init "seller" [(-4), (-3), (-10)]] [1, 1, 1] =
    .ok (some [.all ⟨"buyer", [9]⟩ 1 8,
      .all ⟨"mediator", [(-1)]⟩ 1 (-2),
      .random ⟨"seller", [(-3), (-4)]⟩ 1 2 (-6)]) := by decide +kernel

/-- `trade_reduction_protocol.py:173` — the printed market. -/
example : ([.init "buyer" [9, 8], .init "mediator" [(-1), (-2)], .init "seller" [(-4), (-3), (-5)]] : List AgentCategory) =
    [⟨"buyer", [9, 8]⟩, ⟨"mediator", [(-1), (-2)]⟩, ⟨"seller", [(-3), (-4), (-5)]⟩] := by decide +kernel

/-- `trade_reduction_protocol.py:173` -/
example : reductionText [.init "buyer" [9, 8], .init "mediator" [(-1), (-2)], .init "seller" [(-4), (-3), (-5)]] [1, 1, 1] =
    .ok (some [.all ⟨"buyer", [9]⟩ 1 8,
      .random ⟨"mediator", [(-1), (-2)]⟩ 1 2 (-3),
      .random ⟨"seller", [(-3), (-4)]⟩ 1 2 (-5)]) := by decide +kernel

/-- `trade_reduction_protocol.py:180` — the printed market. -/
example : ([.init "buyer" [9, 8], .init "mediator" [(-1), (-2)], .init "seller" [(-4), (-3), (-2)]] : List AgentCategory) =
    [⟨"buyer", [9, 8]⟩, ⟨"mediator", [(-1), (-2)]⟩, ⟨"seller", [(-2), (-3), (-4)]⟩] := by decide +kernel

/-- `trade_reduction_protocol.py:180` -/
example : reductionText [.init "buyer" [9, 8], .init "mediator" [(-1), (-2)], .init "seller" [(-4), (-3), (-2)]] [1, 1, 1] =
    .ok (some [.all ⟨"buyer", [9]⟩ 1 8,
      .random ⟨"mediator", [(-1), (-2)]⟩ 1 2 (-4),
      .random ⟨"seller", [(-2), (-3)]⟩ 1 2 (-4)]) := by decide +kernel

/-- `trade_reduction_protocol.py:187` — the printed market. -/
example : ([.init "buyer" [9, 8, 7], .init "mediator" [(-1), (-2), (-3)], .init "seller" [(-4), (-3), (-2)]] : List AgentCategory) =
    [⟨"buyer", [9, 8, 7]⟩, ⟨"mediator", [(-1), (-2), (-3)]⟩, ⟨"seller", [(-2), (-3), (-4)]⟩] := by decide +kernel

/-- `trade_reduction_protocol.py:187` -/
example : reductionText [.init "buyer" [9, 8, 7], .init "mediator" [(-1), (-2), (-3)], .init "seller" [(-4), (-3), (-2)]] [1, 1, 1] =
    .ok (some [.all ⟨"buyer", [9, 8]⟩ 2 7,
      .all ⟨"mediator", [(-1), (-2)]⟩ 2 (-3),
      .random ⟨"seller", [(-2), (-3), (-4)]⟩ 2 3 (-4)]) := by decide +kernel

/-- `trade_reduction_protocol.py:194` — the printed market. -/
example : ([.init "buyer" [9, 8, 4], .init "mediator" [(-1), (-2), (-3)], .init "seller" [(-4), (-3), (-2)]] : List AgentCategory) =
    [⟨"buyer", [9, 8, 4]⟩, ⟨"mediator", [(-1), (-2), (-3)]⟩, ⟨"seller", [(-2), (-3), (-4)]⟩] := by decide +kernel

/-- `trade_reduction_protocol.py:194` -/
example : reductionText [.init "buyer" [9, 8, 4], .init "mediator" [(-1), (-2), (-3)], .init "seller" [(-4), (-3), (-2)]] [1, 1, 1] =
    .ok (some [.all ⟨"buyer", [9, 8]⟩ 2 7,
      .all ⟨"mediator", [(-1), (-2)]⟩ 2 (-3),
      .all ⟨"seller", [(-2), (-3)]⟩ 2 (-4)]) := by decide +kernel

/-- `ascending_auction_protocol.py:36` — the printed market. -/
example : ([.init "buyer" [9, 8], .init "seller" [(-4)]] : List AgentCategory) =
    [⟨"buyer", [9, 8]⟩, ⟨"seller", [(-4)]⟩] := by decide +kernel

/-- `ascending_auction_protocol.py:36` -/
example : ascendingText [.init "buyer" [9, 8], .init "seller" [(-4)]] [1, 1] =
    .ok (none) := by decide +kernel

/-- `ascending_auction_protocol.py:41` — the printed market. -/
example : ([.init "seller" [(-4)], .init "buyer" [9, 8]] : List AgentCategory) =
    [⟨"seller", [(-4)]⟩, ⟨"buyer", [9, 8]⟩] := by decide +kernel

/-- `ascending_auction_protocol.py:41` -/
example : ascendingText [.init "seller" [(-4)], .init "buyer" [9, 8]] [1, 1] =
    .ok (some [.all ⟨"seller", [(-4)]⟩ 1 (-8),
      .all ⟨"buyer", [9]⟩ 1 8]) := by decide +kernel

/-- `ascending_auction_protocol.py:47` — the printed market. -/
example : ([.init "buyer" [9, 8], .init "seller" [(-4), (-3)]] : List AgentCategory) =
    [⟨"buyer", [9, 8]⟩, ⟨"seller", [(-3), (-4)]⟩] := by decide +kernel

/-- `ascending_auction_protocol.py:47` -/
example : ascendingText [.init "buyer" [9, 8], .init "seller" [(-4), (-3)]] [1, 1] =
    .ok (some [.all ⟨"buyer", [9]⟩ 1 8,
      .random ⟨"seller", [(-3), (-4)]⟩ 1 2 (-8)]) := by decide +kernel

/-- `ascending_auction_protocol.py:55` — the printed market. -/
example : ([.init "seller" [(-4), (-3)], .init "buyer" [9, 8], .init "mediator" [(-1), (-2)]] : List AgentCategory) =
    [⟨"seller", [(-3), (-4)]⟩, ⟨"buyer", [9, 8]⟩, ⟨"mediator", [(-1), (-2)]⟩] := by decide +kernel

/-- `ascending_auction_protocol.py:55` -/
example : ascendingText [.init "seller" [(-4), (-3)], .init "buyer" [9, 8], .init "mediator" [(-1), (-2)]] [1, 1, 1] =
    .ok (some [.all ⟨"seller", [(-3)]⟩ 1 (-4),
      .all ⟨"buyer", [9]⟩ 1 8,
      .random ⟨"mediator", [(-1), (-2)]⟩ 1 2 (-4)]) := by decide +kernel

/-- `ascending_auction_protocol.py:62` — the printed market. -/
example : ([.init "buyer" [9, 8, 7], .init "mediator" [(-1), (-2), (-3)], .init "seller" [(-4), (-3), (-2)]] : List AgentCategory) =
    [⟨"buyer", [9, 8, 7]⟩, ⟨"mediator", [(-1), (-2), (-3)]⟩, ⟨"seller", [(-2), (-3), (-4)]⟩] := by decide +kernel

/-- `ascending_auction_protocol.py:62` -/
example : ascendingText [.init "buyer" [9, 8, 7], .init "mediator" [(-1), (-2), (-3)], .init "seller" [(-4), (-3), (-2)]] [1, 1, 1] =
    .ok (some [.all ⟨"buyer", [9, 8]⟩ 2 7,
      .all ⟨"mediator", [(-1), (-2)]⟩ 2 (-3),
      .random ⟨"seller", [(-2), (-3), (-4)]⟩ 2 3 (-4)]) := by decide +kernel

/-- `ascending_auction_protocol.py:72` — the printed market. -/
example : ([.init "buyer" [9, 8, 7, 6], .init "seller" [(-6), (-5), (-4), (-3), (-2), (-1)]] : List AgentCategory) =
    [⟨"buyer", [9, 8, 7, 6]⟩, ⟨"seller", [(-1), (-2), (-3), (-4), (-5), (-6)]⟩] := by decide +kernel

/-- `ascending_auction_protocol.py:72` -/
example : ascendingText [.init "buyer" [9, 8, 7, 6], .init "seller" [(-6), (-5), (-4), (-3), (-2), (-1)]] [1, 2] =
    .ok (some [.all ⟨"buyer", [9]⟩ 1 8,
      .random ⟨"seller", [(-1), (-2), (-3), (-4)]⟩ 2 4 (-4)]) := by decide +kernel

/-- `ascending_auction_protocol.py:78` — the printed market. -/
example : ([.init "seller" [(-4), (-3), (-2), (-1)], .init "buyer" [9, 8]] : List AgentCategory) =
    [⟨"seller", [(-1), (-2), (-3), (-4)]⟩, ⟨"buyer", [9, 8]⟩] := by decide +kernel

/-- `ascending_auction_protocol.py:78` -/
example : ascendingText [.init "seller" [(-4), (-3), (-2), (-1)], .init "buyer" [9, 8]] [2, 1] =
    .ok (some [.random ⟨"seller", [(-1), (-2), (-3)]⟩ 2 3 (-4),
      .random ⟨"buyer", [9, 8]⟩ 1 2 8]) := by decide +kernel

/-- `ascending_auction_protocol.py:87` — the printed market. -/
example : ([.init "seller" [(-4)], .init "buyer" [9, 8], .init "mediator" [(-5), (-7)]] : List AgentCategory) =
    [⟨"seller", [(-4)]⟩, ⟨"buyer", [9, 8]⟩, ⟨"mediator", [(-5), (-7)]⟩] := by decide +kernel

/-- `ascending_auction_protocol.py:87` -/
example : ascendingText [.init "seller" [(-4)], .init "buyer" [9, 8], .init "mediator" [(-5), (-7)]] [1, 1, 0] =
    .ok (some [.all ⟨"seller", [(-4)]⟩ 1 (-8),
      .all ⟨"buyer", [9]⟩ 1 8]) := by decide +kernel

/-- `mcafee_protocol.py:57` — the printed market. -/
example : ([.init "buyer" [9], .init "seller" [(-4)]] : List AgentCategory) =
    [⟨"buyer", [9]⟩, ⟨"seller", [(-4)]⟩] := by decide +kernel

/-- `mcafee_protocol.py:57` -/
example : mcafeeText [.init "buyer" [9], .init "seller" [(-4)]] [1, 1] =
    .ok (none) := by decide +kernel

/-- `mcafee_protocol.py:62` — the printed market. -/
example : ([.init "buyer" [9, 8], .init "seller" [(-4)]] : List AgentCategory) =
    [⟨"buyer", [9, 8]⟩, ⟨"seller", [(-4)]⟩] := by decide +kernel

/-- `mcafee_protocol.py:62` -/
example : mcafeeText [.init "buyer" [9, 8], .init "seller" [(-4)]] [1, 1] =
    .ok (none) := by decide +kernel

/-- `mcafee_protocol.py:67` — the printed market. -/
example : ([.init "seller" [(-4)], .init "buyer" [9, 8]] : List AgentCategory) =
    [⟨"seller", [(-4)]⟩, ⟨"buyer", [9, 8]⟩] := by decide +kernel

/-- `mcafee_protocol.py:67` -/
example : mcafeeText [.init "seller" [(-4)], .init "buyer" [9, 8]] [1, 1] =
    .ok (none) := by decide +kernel

/-- `mcafee_protocol.py:72` — the printed market. -/
example : ([.init "seller" [(-4), (-3)], .init "buyer" [9]] : List AgentCategory) =
    [⟨"seller", [(-3), (-4)]⟩, ⟨"buyer", [9]⟩] := by decide +kernel

/-- `mcafee_protocol.py:72` -/
example : mcafeeText [.init "seller" [(-4), (-3)], .init "buyer" [9]] [1, 1] =
    .ok (none) := by decide +kernel

/-- `mcafee_protocol.py:77` — the printed market. -/
example : ([.init "buyer" [9], .init "seller" [(-4), (-3)]] : List AgentCategory) =
    [⟨"buyer", [9]⟩, ⟨"seller", [(-3), (-4)]⟩] := by decide +kernel

/-- `mcafee_protocol.py:77` -/
example : mcafeeText [.init "buyer" [9], .init "seller" [(-4), (-3)]] [1, 1] =
    .ok (none) := by decide +kernel

/-- `mcafee_protocol.py:82` — the printed market. -/
example : ([.init "buyer" [9, 8], .init "seller" [(-4), (-3)]] : List AgentCategory) =
    [⟨"buyer", [9, 8]⟩, ⟨"seller", [(-3), (-4)]⟩] := by decide +kernel

/-- `mcafee_protocol.py:82` -/
example : mcafeeText [.init "buyer" [9, 8], .init "seller" [(-4), (-3)]] [1, 1] =
    .ok (some [.all ⟨"buyer", [9]⟩ 1 8,
      .all ⟨"seller", [(-3)]⟩ 1 (-4)]) := by decide +kernel

/-- `mcafee_protocol.py:88` -/
example : mcafeeText [.init "seller" [(-4), (-3)], .init "buyer" [9, 8]] [1, 1] =
    .ok (some [.all ⟨"seller", [(-3)]⟩ 1 (-4),
      .all ⟨"buyer", [9]⟩ 1 8]) := by decide +kernel

/-- `mcafee_protocol.py:93` -/
example : mcafeeText [.init "seller" [(-8), (-3)], .init "buyer" [9, 4]] [1, 1] =
    .ok (some [.all ⟨"seller", [(-3)]⟩ 1 (-6),
      .all ⟨"buyer", [9]⟩ 1 6]) := by decide +kernel

end Auctions.Fidelity
