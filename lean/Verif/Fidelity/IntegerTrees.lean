import Verif.Model.Reports
import Verif.Model.TreeAuction
import Verif.Model.RecipeTreeInteger

set_option autoImplicit false

/-!
# The doctests of `recipetree_integer.py`, run on the model

Generated by `/verif/tools/doctests.py`. The names of categories in the expected results are replaced by their indices.
Tests of the model, not proofs of properties.

Not transcribed: the calls of `combined_values_detailed_with_counters` (line 46, line 66, line 86, line 108, line 130, line 155, line 181, line 212, line 246, line 265), whose expected
results lack the counters that the method returns; the method is modelled in `Model/Counters.lean`.
-/

namespace Auctions.Fidelity

open IntegerTree (countOf)

/-- `recipetree_integer.py:42` -/
example : let cats : List AgentCategory := [⟨"buyer", [60, 40, 20, (-30)]⟩, ⟨"seller", [(-10), (-30), (-50)]⟩, ⟨"producerA", [(-1), (-3), (-5)]⟩, ⟨"producerB", [(-2), (-4), (-6), (-8)]⟩]
    (RecipeTree.init 4 [.int 0, .none]).map (fun t => IntegerTree.combinedValues (countOf []) (TreeAuction.valuesAt cats) t.forest) = .ok [[60], [40], [20], [(-30)]] := by decide +kernel

/-- `recipetree_integer.py:44` -/
example : let cats : List AgentCategory := [⟨"buyer", [60, 40, 20, (-30)]⟩, ⟨"seller", [(-10), (-30), (-50)]⟩, ⟨"producerA", [(-1), (-3), (-5)]⟩, ⟨"producerB", [(-2), (-4), (-6), (-8)]⟩]
    (RecipeTree.init 4 [.int 0, .none]).map (fun t => IntegerTree.combinedValuesDetailed t (countOf []) (TreeAuction.valuesAt cats)) = .ok [[60], [40], [20], [(-30)]] := by decide +kernel

/-- `recipetree_integer.py:48` -/
example : let cats : List AgentCategory := [⟨"buyer", [60, 40, 20, (-30)]⟩, ⟨"seller", [(-10), (-30), (-50)]⟩, ⟨"producerA", [(-1), (-3), (-5)]⟩, ⟨"producerB", [(-2), (-4), (-6), (-8)]⟩]
    (RecipeTree.init 4 [.int 0, .none]).map (fun t => IntegerTree.optimalTradeGFT t (countOf []) (TreeAuction.valuesAt cats)) = .ok 120 := by decide +kernel

/-- `recipetree_integer.py:50` -/
example : let cats : List AgentCategory := [⟨"buyer", [60, 40, 20, (-30)]⟩, ⟨"seller", [(-10), (-30), (-50)]⟩, ⟨"producerA", [(-1), (-3), (-5)]⟩, ⟨"producerB", [(-2), (-4), (-6), (-8)]⟩]
    (RecipeTree.init 4 [.int 0, .none]).map (fun t => (IntegerTree.largestCategories (countOf []) (TreeAuction.sizeAt cats) t.forest).2.2) = .ok [0] := by decide +kernel

/-- `recipetree_integer.py:52` -/
example : let cats : List AgentCategory := [⟨"buyer", [60, 40, 20, (-30)]⟩, ⟨"seller", [(-10), (-30), (-50)]⟩, ⟨"producerA", [(-1), (-3), (-5)]⟩, ⟨"producerB", [(-2), (-4), (-6), (-8)]⟩]
    (RecipeTree.init 4 [.int 0, .none]).map (fun t => t.pathsToLeaf) = .ok [[0]] := by decide +kernel

/-- `recipetree_integer.py:54` -/
example : let cats : List AgentCategory := [⟨"buyer", [60, 40, 20, (-30)]⟩, ⟨"seller", [(-10), (-30), (-50)]⟩, ⟨"producerA", [(-1), (-3), (-5)]⟩, ⟨"producerB", [(-2), (-4), (-6), (-8)]⟩]
    (RecipeTree.init 4 [.int 0, .none]).map (fun t => IntegerTree.numOfDeals (countOf []) (TreeAuction.sizeAt cats) t.forest) = .ok 4 := by decide +kernel

/-- `recipetree_integer.py:56` -/
example : (RecipeTree.init 4 [.int 0, .none] >>= fun t => (IntegerTree.explained (countOf []) (TreeAuction.sizeAt [⟨"buyer", [60, 40, 20, (-30)]⟩, ⟨"seller", [(-10), (-30), (-50)]⟩, ⟨"producerA", [(-1), (-3), (-5)]⟩, ⟨"producerB", [(-2), (-4), (-6), (-8)]⟩]) [1, 2, 3, 4] t.forest).map (fun es => es.map (·.2.1))) =
    .ok [[.potential 0 4 1]] := by decide +kernel

/-- `recipetree_integer.py:62` -/
example : let cats : List AgentCategory := [⟨"buyer", [60, 40, 20, (-30)]⟩, ⟨"seller", [(-10), (-30), (-50)]⟩, ⟨"producerA", [(-1), (-3), (-5)]⟩, ⟨"producerB", [(-2), (-4), (-6), (-8)]⟩]
    (RecipeTree.init 4 [.int 0, .none]).map (fun t => IntegerTree.combinedValues (countOf [2, 1, 1, 2]) (TreeAuction.valuesAt cats) t.forest) = .ok [[60, 40], [20, (-30)]] := by decide +kernel

/-- `recipetree_integer.py:64` -/
example : let cats : List AgentCategory := [⟨"buyer", [60, 40, 20, (-30)]⟩, ⟨"seller", [(-10), (-30), (-50)]⟩, ⟨"producerA", [(-1), (-3), (-5)]⟩, ⟨"producerB", [(-2), (-4), (-6), (-8)]⟩]
    (RecipeTree.init 4 [.int 0, .none]).map (fun t => IntegerTree.combinedValuesDetailed t (countOf [2, 1, 1, 2]) (TreeAuction.valuesAt cats)) = .ok [[60, 40], [20, (-30)]] := by decide +kernel

/-- `recipetree_integer.py:68` -/
example : let cats : List AgentCategory := [⟨"buyer", [60, 40, 20, (-30)]⟩, ⟨"seller", [(-10), (-30), (-50)]⟩, ⟨"producerA", [(-1), (-3), (-5)]⟩, ⟨"producerB", [(-2), (-4), (-6), (-8)]⟩]
    (RecipeTree.init 4 [.int 0, .none]).map (fun t => IntegerTree.optimalTradeGFT t (countOf [2, 1, 1, 2]) (TreeAuction.valuesAt cats)) = .ok 100 := by decide +kernel

/-- `recipetree_integer.py:70` -/
example : let cats : List AgentCategory := [⟨"buyer", [60, 40, 20, (-30)]⟩, ⟨"seller", [(-10), (-30), (-50)]⟩, ⟨"producerA", [(-1), (-3), (-5)]⟩, ⟨"producerB", [(-2), (-4), (-6), (-8)]⟩]
    (RecipeTree.init 4 [.int 0, .none]).map (fun t => (IntegerTree.largestCategories (countOf [2, 1, 1, 2]) (TreeAuction.sizeAt cats) t.forest).2.2) = .ok [0] := by decide +kernel

/-- `recipetree_integer.py:72` -/
example : let cats : List AgentCategory := [⟨"buyer", [60, 40, 20, (-30)]⟩, ⟨"seller", [(-10), (-30), (-50)]⟩, ⟨"producerA", [(-1), (-3), (-5)]⟩, ⟨"producerB", [(-2), (-4), (-6), (-8)]⟩]
    (RecipeTree.init 4 [.int 0, .none]).map (fun t => t.pathsToLeaf) = .ok [[0]] := by decide +kernel

/-- `recipetree_integer.py:74` -/
example : let cats : List AgentCategory := [⟨"buyer", [60, 40, 20, (-30)]⟩, ⟨"seller", [(-10), (-30), (-50)]⟩, ⟨"producerA", [(-1), (-3), (-5)]⟩, ⟨"producerB", [(-2), (-4), (-6), (-8)]⟩]
    (RecipeTree.init 4 [.int 0, .none]).map (fun t => IntegerTree.numOfDeals (countOf [2, 1, 1, 2]) (TreeAuction.sizeAt cats) t.forest) = .ok 2 := by decide +kernel

/-- `recipetree_integer.py:76` -/
example : (RecipeTree.init 4 [.int 0, .none] >>= fun t => (IntegerTree.explained (countOf [2, 1, 1, 2]) (TreeAuction.sizeAt [⟨"buyer", [60, 40, 20, (-30)]⟩, ⟨"seller", [(-10), (-30), (-50)]⟩, ⟨"producerA", [(-1), (-3), (-5)]⟩, ⟨"producerB", [(-2), (-4), (-6), (-8)]⟩]) [1, 2, 3, 4] t.forest).map (fun es => es.map (·.2.1))) =
    .ok [[.potential 0 2 1]] := by decide +kernel

/-- `recipetree_integer.py:82` -/
example : let cats : List AgentCategory := [⟨"buyer", [60, 40, 20, (-30)]⟩, ⟨"seller", [(-10), (-30), (-50)]⟩, ⟨"producerA", [(-1), (-3), (-5)]⟩, ⟨"producerB", [(-2), (-4), (-6), (-8)]⟩]
    (RecipeTree.init 4 [.int 0, .list [.int 1, .none]]).map (fun t => IntegerTree.combinedValues (countOf []) (TreeAuction.valuesAt cats) t.forest) = .ok [[60, (-10)], [40, (-30)], [20, (-50)]] := by decide +kernel

/-- `recipetree_integer.py:84` -/
example : let cats : List AgentCategory := [⟨"buyer", [60, 40, 20, (-30)]⟩, ⟨"seller", [(-10), (-30), (-50)]⟩, ⟨"producerA", [(-1), (-3), (-5)]⟩, ⟨"producerB", [(-2), (-4), (-6), (-8)]⟩]
    (RecipeTree.init 4 [.int 0, .list [.int 1, .none]]).map (fun t => IntegerTree.combinedValuesDetailed t (countOf []) (TreeAuction.valuesAt cats)) = .ok [[60, (-10)], [40, (-30)], [20, (-50)]] := by decide +kernel

/-- `recipetree_integer.py:88` -/
example : let cats : List AgentCategory := [⟨"buyer", [60, 40, 20, (-30)]⟩, ⟨"seller", [(-10), (-30), (-50)]⟩, ⟨"producerA", [(-1), (-3), (-5)]⟩, ⟨"producerB", [(-2), (-4), (-6), (-8)]⟩]
    (RecipeTree.init 4 [.int 0, .list [.int 1, .none]]).map (fun t => IntegerTree.optimalTradeGFT t (countOf []) (TreeAuction.valuesAt cats)) = .ok 60 := by decide +kernel

/-- `recipetree_integer.py:90` -/
example : let cats : List AgentCategory := [⟨"buyer", [60, 40, 20, (-30)]⟩, ⟨"seller", [(-10), (-30), (-50)]⟩, ⟨"producerA", [(-1), (-3), (-5)]⟩, ⟨"producerB", [(-2), (-4), (-6), (-8)]⟩]
    (RecipeTree.init 4 [.int 0, .list [.int 1, .none]]).map (fun t => (IntegerTree.largestCategories (countOf []) (TreeAuction.sizeAt cats) t.forest).2.2) = .ok [0] := by decide +kernel

/-- `recipetree_integer.py:92` -/
example : let cats : List AgentCategory := [⟨"buyer", [60, 40, 20, (-30)]⟩, ⟨"seller", [(-10), (-30), (-50)]⟩, ⟨"producerA", [(-1), (-3), (-5)]⟩, ⟨"producerB", [(-2), (-4), (-6), (-8)]⟩]
    (RecipeTree.init 4 [.int 0, .list [.int 1, .none]]).map (fun t => t.pathsToLeaf) = .ok [[0, 1]] := by decide +kernel

/-- `recipetree_integer.py:94` -/
example : let cats : List AgentCategory := [⟨"buyer", [60, 40, 20, (-30)]⟩, ⟨"seller", [(-10), (-30), (-50)]⟩, ⟨"producerA", [(-1), (-3), (-5)]⟩, ⟨"producerB", [(-2), (-4), (-6), (-8)]⟩]
    (RecipeTree.init 4 [.int 0, .list [.int 1, .none]]).map (fun t => IntegerTree.numOfDeals (countOf []) (TreeAuction.sizeAt cats) t.forest) = .ok 3 := by decide +kernel

/-- `recipetree_integer.py:96` -/
example : (RecipeTree.init 4 [.int 0, .list [.int 1, .none]] >>= fun t => (IntegerTree.explained (countOf []) (TreeAuction.sizeAt [⟨"buyer", [60, 40, 20, (-30)]⟩, ⟨"seller", [(-10), (-30), (-50)]⟩, ⟨"producerA", [(-1), (-3), (-5)]⟩, ⟨"producerB", [(-2), (-4), (-6), (-8)]⟩]) [1, 2, 3, 4] t.forest).map (fun es => es.map (·.2.1))) =
    .ok [[.potential 1 3 2, .someTraders 0 3 4 1, .allOf [1] 3]] := by decide +kernel

/-- `recipetree_integer.py:104` -/
example : let cats : List AgentCategory := [⟨"buyer", [60, 40, 20, (-30)]⟩, ⟨"seller", [(-10), (-30), (-50)]⟩, ⟨"producerA", [(-1), (-3), (-5)]⟩, ⟨"producerB", [(-2), (-4), (-6), (-8)]⟩]
    (RecipeTree.init 4 [.int 0, .list [.int 1, .none]]).map (fun t => IntegerTree.combinedValues (countOf [1, 2, 1, 1]) (TreeAuction.valuesAt cats) t.forest) = .ok [[60, (-10), (-30)]] := by decide +kernel

/-- `recipetree_integer.py:106` -/
example : let cats : List AgentCategory := [⟨"buyer", [60, 40, 20, (-30)]⟩, ⟨"seller", [(-10), (-30), (-50)]⟩, ⟨"producerA", [(-1), (-3), (-5)]⟩, ⟨"producerB", [(-2), (-4), (-6), (-8)]⟩]
    (RecipeTree.init 4 [.int 0, .list [.int 1, .none]]).map (fun t => IntegerTree.combinedValuesDetailed t (countOf [1, 2, 1, 1]) (TreeAuction.valuesAt cats)) = .ok [[60, (-10), (-30)]] := by decide +kernel

/-- `recipetree_integer.py:110` -/
example : let cats : List AgentCategory := [⟨"buyer", [60, 40, 20, (-30)]⟩, ⟨"seller", [(-10), (-30), (-50)]⟩, ⟨"producerA", [(-1), (-3), (-5)]⟩, ⟨"producerB", [(-2), (-4), (-6), (-8)]⟩]
    (RecipeTree.init 4 [.int 0, .list [.int 1, .none]]).map (fun t => IntegerTree.optimalTradeGFT t (countOf [1, 2, 1, 1]) (TreeAuction.valuesAt cats)) = .ok 20 := by decide +kernel

/-- `recipetree_integer.py:112` -/
example : let cats : List AgentCategory := [⟨"buyer", [60, 40, 20, (-30)]⟩, ⟨"seller", [(-10), (-30), (-50)]⟩, ⟨"producerA", [(-1), (-3), (-5)]⟩, ⟨"producerB", [(-2), (-4), (-6), (-8)]⟩]
    (RecipeTree.init 4 [.int 0, .list [.int 1, .none]]).map (fun t => (IntegerTree.largestCategories (countOf [1, 2, 1, 1]) (TreeAuction.sizeAt cats) t.forest).2.2) = .ok [0] := by decide +kernel

/-- `recipetree_integer.py:114` -/
example : let cats : List AgentCategory := [⟨"buyer", [60, 40, 20, (-30)]⟩, ⟨"seller", [(-10), (-30), (-50)]⟩, ⟨"producerA", [(-1), (-3), (-5)]⟩, ⟨"producerB", [(-2), (-4), (-6), (-8)]⟩]
    (RecipeTree.init 4 [.int 0, .list [.int 1, .none]]).map (fun t => t.pathsToLeaf) = .ok [[0, 1]] := by decide +kernel

/-- `recipetree_integer.py:116` -/
example : let cats : List AgentCategory := [⟨"buyer", [60, 40, 20, (-30)]⟩, ⟨"seller", [(-10), (-30), (-50)]⟩, ⟨"producerA", [(-1), (-3), (-5)]⟩, ⟨"producerB", [(-2), (-4), (-6), (-8)]⟩]
    (RecipeTree.init 4 [.int 0, .list [.int 1, .none]]).map (fun t => IntegerTree.numOfDeals (countOf [1, 2, 1, 1]) (TreeAuction.sizeAt cats) t.forest) = .ok 1 := by decide +kernel

/-- `recipetree_integer.py:118` -/
example : (RecipeTree.init 4 [.int 0, .list [.int 1, .none]] >>= fun t => (IntegerTree.explained (countOf [1, 2, 1, 1]) (TreeAuction.sizeAt [⟨"buyer", [60, 40, 20, (-30)]⟩, ⟨"seller", [(-10), (-30), (-50)]⟩, ⟨"producerA", [(-1), (-3), (-5)]⟩, ⟨"producerB", [(-2), (-4), (-6), (-8)]⟩]) [1, 2, 3, 4] t.forest).map (fun es => es.map (·.2.1))) =
    .ok [[.potential 1 1 2, .someTraders 0 1 4 1, .allOf [1] 1]] := by decide +kernel

/-- `recipetree_integer.py:126` -/
example : let cats : List AgentCategory := [⟨"buyer", [60, 40, 20, (-30)]⟩, ⟨"seller", [(-10), (-30), (-50)]⟩, ⟨"producerA", [(-1), (-3), (-5)]⟩, ⟨"producerB", [(-2), (-4), (-6), (-8)]⟩]
    (RecipeTree.init 4 [.int 0, .list [.int 2, .none, .int 3, .none]]).map (fun t => IntegerTree.combinedValues (countOf []) (TreeAuction.valuesAt cats) t.forest) = .ok [[60, (-1)], [40, (-2)], [20, (-3)], [(-30), (-4)]] := by decide +kernel

/-- `recipetree_integer.py:128` -/
example : let cats : List AgentCategory := [⟨"buyer", [60, 40, 20, (-30)]⟩, ⟨"seller", [(-10), (-30), (-50)]⟩, ⟨"producerA", [(-1), (-3), (-5)]⟩, ⟨"producerB", [(-2), (-4), (-6), (-8)]⟩]
    (RecipeTree.init 4 [.int 0, .list [.int 2, .none, .int 3, .none]]).map (fun t => IntegerTree.combinedValuesDetailed t (countOf []) (TreeAuction.valuesAt cats)) = .ok [[60, (-1)], [40, (-2)], [20, (-3)], [(-30), (-4)]] := by decide +kernel

/-- `recipetree_integer.py:132` -/
example : let cats : List AgentCategory := [⟨"buyer", [60, 40, 20, (-30)]⟩, ⟨"seller", [(-10), (-30), (-50)]⟩, ⟨"producerA", [(-1), (-3), (-5)]⟩, ⟨"producerB", [(-2), (-4), (-6), (-8)]⟩]
    (RecipeTree.init 4 [.int 0, .list [.int 2, .none, .int 3, .none]]).map (fun t => IntegerTree.optimalTradeGFT t (countOf []) (TreeAuction.valuesAt cats)) = .ok 114 := by decide +kernel

/-- `recipetree_integer.py:134` -/
example : let cats : List AgentCategory := [⟨"buyer", [60, 40, 20, (-30)]⟩, ⟨"seller", [(-10), (-30), (-50)]⟩, ⟨"producerA", [(-1), (-3), (-5)]⟩, ⟨"producerB", [(-2), (-4), (-6), (-8)]⟩]
    (RecipeTree.init 4 [.int 0, .list [.int 2, .none, .int 3, .none]]).map (fun t => (IntegerTree.largestCategories (countOf []) (TreeAuction.sizeAt cats) t.forest).2.2) = .ok [2, 3] := by decide +kernel

/-- `recipetree_integer.py:136` -/
example : let cats : List AgentCategory := [⟨"buyer", [60, 40, 20, (-30)]⟩, ⟨"seller", [(-10), (-30), (-50)]⟩, ⟨"producerA", [(-1), (-3), (-5)]⟩, ⟨"producerB", [(-2), (-4), (-6), (-8)]⟩]
    (RecipeTree.init 4 [.int 0, .list [.int 2, .none, .int 3, .none]]).map (fun t => t.pathsToLeaf) = .ok [[0, 2], [0, 3]] := by decide +kernel

/-- `recipetree_integer.py:138` -/
example : (RecipeTree.init 4 [.int 0, .list [.int 2, .none, .int 3, .none]] >>= fun t => IntegerTree.recipes t 4 []) = .ok [[1, 0, 1, 0], [1, 0, 0, 1]] := by decide +kernel

/-- `recipetree_integer.py:140` -/
example : let cats : List AgentCategory := [⟨"buyer", [60, 40, 20, (-30)]⟩, ⟨"seller", [(-10), (-30), (-50)]⟩, ⟨"producerA", [(-1), (-3), (-5)]⟩, ⟨"producerB", [(-2), (-4), (-6), (-8)]⟩]
    (RecipeTree.init 4 [.int 0, .list [.int 2, .none, .int 3, .none]]).map (fun t => IntegerTree.numOfDeals (countOf []) (TreeAuction.sizeAt cats) t.forest) = .ok 4 := by decide +kernel

/-- `recipetree_integer.py:142` -/
example : (RecipeTree.init 4 [.int 0, .list [.int 2, .none, .int 3, .none]] >>= fun t => (IntegerTree.explained (countOf []) (TreeAuction.sizeAt [⟨"buyer", [60, 40, 20, (-30)]⟩, ⟨"seller", [(-10), (-30), (-50)]⟩, ⟨"producerA", [(-1), (-3), (-5)]⟩, ⟨"producerB", [(-2), (-4), (-6), (-8)]⟩]) [1, 2, 3, 4] t.forest).map (fun es => es.map (·.2.1))) =
    .ok [[.potential 2 3 3, .potential 3 4 4, .allTraders 0 4 1, .someOf [2, 3] 4 7]] := by decide +kernel

/-- `recipetree_integer.py:151` -/
example : let cats : List AgentCategory := [⟨"buyer", [60, 40, 20, (-30)]⟩, ⟨"seller", [(-10), (-30), (-50)]⟩, ⟨"producerA", [(-1), (-3), (-5)]⟩, ⟨"producerB", [(-2), (-4), (-6), (-8)]⟩]
    (RecipeTree.init 4 [.int 0, .list [.int 2, .none, .int 3, .none]]).map (fun t => IntegerTree.combinedValues (countOf [1, 1, 2, 1]) (TreeAuction.valuesAt cats) t.forest) = .ok [[60, (-2)], [40, (-1), (-3)], [20, (-4)], [(-30), (-6)]] := by decide +kernel

/-- `recipetree_integer.py:153` -/
example : let cats : List AgentCategory := [⟨"buyer", [60, 40, 20, (-30)]⟩, ⟨"seller", [(-10), (-30), (-50)]⟩, ⟨"producerA", [(-1), (-3), (-5)]⟩, ⟨"producerB", [(-2), (-4), (-6), (-8)]⟩]
    (RecipeTree.init 4 [.int 0, .list [.int 2, .none, .int 3, .none]]).map (fun t => IntegerTree.combinedValuesDetailed t (countOf [1, 1, 2, 1]) (TreeAuction.valuesAt cats)) = .ok [[60, (-2)], [40, (-1), (-3)], [20, (-4)], [(-30), (-6)]] := by decide +kernel

/-- `recipetree_integer.py:157` -/
example : let cats : List AgentCategory := [⟨"buyer", [60, 40, 20, (-30)]⟩, ⟨"seller", [(-10), (-30), (-50)]⟩, ⟨"producerA", [(-1), (-3), (-5)]⟩, ⟨"producerB", [(-2), (-4), (-6), (-8)]⟩]
    (RecipeTree.init 4 [.int 0, .list [.int 2, .none, .int 3, .none]]).map (fun t => IntegerTree.optimalTradeGFT t (countOf [1, 1, 2, 1]) (TreeAuction.valuesAt cats)) = .ok 110 := by decide +kernel

/-- `recipetree_integer.py:159` -/
example : let cats : List AgentCategory := [⟨"buyer", [60, 40, 20, (-30)]⟩, ⟨"seller", [(-10), (-30), (-50)]⟩, ⟨"producerA", [(-1), (-3), (-5)]⟩, ⟨"producerB", [(-2), (-4), (-6), (-8)]⟩]
    (RecipeTree.init 4 [.int 0, .list [.int 2, .none, .int 3, .none]]).map (fun t => (IntegerTree.largestCategories (countOf [1, 1, 2, 1]) (TreeAuction.sizeAt cats) t.forest).2.2) = .ok [2, 3] := by decide +kernel

/-- `recipetree_integer.py:161` -/
example : let cats : List AgentCategory := [⟨"buyer", [60, 40, 20, (-30)]⟩, ⟨"seller", [(-10), (-30), (-50)]⟩, ⟨"producerA", [(-1), (-3), (-5)]⟩, ⟨"producerB", [(-2), (-4), (-6), (-8)]⟩]
    (RecipeTree.init 4 [.int 0, .list [.int 2, .none, .int 3, .none]]).map (fun t => t.pathsToLeaf) = .ok [[0, 2], [0, 3]] := by decide +kernel

/-- `recipetree_integer.py:163` -/
example : (RecipeTree.init 4 [.int 0, .list [.int 2, .none, .int 3, .none]] >>= fun t => IntegerTree.recipes t 4 [1, 1, 2, 1]) = .ok [[1, 0, 2, 0], [1, 0, 0, 1]] := by decide +kernel

/-- `recipetree_integer.py:165` -/
example : let cats : List AgentCategory := [⟨"buyer", [60, 40, 20, (-30)]⟩, ⟨"seller", [(-10), (-30), (-50)]⟩, ⟨"producerA", [(-1), (-3), (-5)]⟩, ⟨"producerB", [(-2), (-4), (-6), (-8)]⟩]
    (RecipeTree.init 4 [.int 0, .list [.int 2, .none, .int 3, .none]]).map (fun t => IntegerTree.numOfDeals (countOf [1, 1, 2, 1]) (TreeAuction.sizeAt cats) t.forest) = .ok 4 := by decide +kernel

/-- `recipetree_integer.py:167` -/
example : (RecipeTree.init 4 [.int 0, .list [.int 2, .none, .int 3, .none]] >>= fun t => (IntegerTree.explained (countOf [1, 1, 2, 1]) (TreeAuction.sizeAt [⟨"buyer", [60, 40, 20, (-30)]⟩, ⟨"seller", [(-10), (-30), (-50)]⟩, ⟨"producerA", [(-1), (-3), (-5)]⟩, ⟨"producerB", [(-2), (-4), (-6), (-8)]⟩]) [1, 2, 3, 4] t.forest).map (fun es => es.map (·.2.1))) =
    .ok [[.potential 2 1 3, .potential 3 4 4, .allTraders 0 4 1, .someOf [2, 3] 4 5]] := by decide +kernel

/-- `recipetree_integer.py:177` -/
example : let cats : List AgentCategory := [⟨"buyer", [60, 40, 20, (-30)]⟩, ⟨"seller", [(-10), (-30), (-50)]⟩, ⟨"producerA", [(-1), (-3), (-5)]⟩, ⟨"producerB", [(-2), (-4), (-6), (-8)]⟩]
    (RecipeTree.init 4 [.int 0, .list [.int 1, .none, .int 2, .list [.int 3, .none]]]).map (fun t => IntegerTree.combinedValues (countOf []) (TreeAuction.valuesAt cats) t.forest) = .ok [[60, (-1), (-2)], [40, (-3), (-4)], [20, (-10)], [(-30), (-5), (-6)]] := by decide +kernel

/-- `recipetree_integer.py:179` -/
example : let cats : List AgentCategory := [⟨"buyer", [60, 40, 20, (-30)]⟩, ⟨"seller", [(-10), (-30), (-50)]⟩, ⟨"producerA", [(-1), (-3), (-5)]⟩, ⟨"producerB", [(-2), (-4), (-6), (-8)]⟩]
    (RecipeTree.init 4 [.int 0, .list [.int 1, .none, .int 2, .list [.int 3, .none]]]).map (fun t => IntegerTree.combinedValuesDetailed t (countOf []) (TreeAuction.valuesAt cats)) = .ok [[60, (-1), (-2)], [40, (-3), (-4)], [20, (-10)], [(-30), (-5), (-6)]] := by decide +kernel

/-- `recipetree_integer.py:183` -/
example : let cats : List AgentCategory := [⟨"buyer", [60, 40, 20, (-30)]⟩, ⟨"seller", [(-10), (-30), (-50)]⟩, ⟨"producerA", [(-1), (-3), (-5)]⟩, ⟨"producerB", [(-2), (-4), (-6), (-8)]⟩]
    (RecipeTree.init 4 [.int 0, .list [.int 1, .none, .int 2, .list [.int 3, .none]]]).map (fun t => IntegerTree.optimalTradeGFT t (countOf []) (TreeAuction.valuesAt cats)) = .ok 100 := by decide +kernel

/-- `recipetree_integer.py:185` -/
example : let cats : List AgentCategory := [⟨"buyer", [60, 40, 20, (-30)]⟩, ⟨"seller", [(-10), (-30), (-50)]⟩, ⟨"producerA", [(-1), (-3), (-5)]⟩, ⟨"producerB", [(-2), (-4), (-6), (-8)]⟩]
    (RecipeTree.init 4 [.int 0, .list [.int 1, .none, .int 2, .list [.int 3, .none]]]).map (fun t => (IntegerTree.largestCategories (countOf []) (TreeAuction.sizeAt cats) t.forest).2.2) = .ok [1, 3] := by decide +kernel

/-- `recipetree_integer.py:187` -/
example : let cats : List AgentCategory := [⟨"buyer", [60, 40, 20, (-30)]⟩, ⟨"seller", [(-10), (-30), (-50)]⟩, ⟨"producerA", [(-1), (-3), (-5)]⟩, ⟨"producerB", [(-2), (-4), (-6), (-8)]⟩]
    (RecipeTree.init 4 [.int 0, .list [.int 1, .none, .int 2, .list [.int 3, .none]]]).map (fun t => (IntegerTree.largestCategories (countOf []) (TreeAuction.sizeAt cats) t.forest).2.2) = .ok [1, 3] := by decide +kernel

/-- `recipetree_integer.py:189` -/
example : let cats : List AgentCategory := [⟨"buyer", [60, 40, 20, (-30)]⟩, ⟨"seller", [(-10), (-30), (-50)]⟩, ⟨"producerA", [(-1), (-3), (-5)]⟩, ⟨"producerB", [(-2), (-4), (-6), (-8)]⟩]
    (RecipeTree.init 4 [.int 0, .list [.int 1, .none, .int 2, .list [.int 3, .none]]]).map (fun t => t.pathsToLeaf) = .ok [[0, 1], [0, 2, 3]] := by decide +kernel

/-- `recipetree_integer.py:191` -/
example : let cats : List AgentCategory := [⟨"buyer", [60, 40, 20, (-30)]⟩, ⟨"seller", [(-10), (-30), (-50)]⟩, ⟨"producerA", [(-1), (-3), (-5)]⟩, ⟨"producerB", [(-2), (-4), (-6), (-8)]⟩]
    (RecipeTree.init 4 [.int 0, .list [.int 1, .none, .int 2, .list [.int 3, .none]]]).map (fun t => t.pathsToLeaf) = .ok [[0, 1], [0, 2, 3]] := by decide +kernel

/-- `recipetree_integer.py:193` -/
example : (RecipeTree.init 4 [.int 0, .list [.int 1, .none, .int 2, .list [.int 3, .none]]] >>= fun t => IntegerTree.recipes t 4 []) = .ok [[1, 1, 0, 0], [1, 0, 1, 1]] := by decide +kernel

/-- `recipetree_integer.py:195` -/
example : let cats : List AgentCategory := [⟨"buyer", [60, 40, 20, (-30)]⟩, ⟨"seller", [(-10), (-30), (-50)]⟩, ⟨"producerA", [(-1), (-3), (-5)]⟩, ⟨"producerB", [(-2), (-4), (-6), (-8)]⟩]
    (RecipeTree.init 4 [.int 0, .list [.int 1, .none, .int 2, .list [.int 3, .none]]]).map (fun t => IntegerTree.numOfDeals (countOf []) (TreeAuction.sizeAt cats) t.forest) = .ok 4 := by decide +kernel

/-- `recipetree_integer.py:197` -/
example : (RecipeTree.init 4 [.int 0, .list [.int 1, .none, .int 2, .list [.int 3, .none]]] >>= fun t => (IntegerTree.explained (countOf []) (TreeAuction.sizeAt [⟨"buyer", [60, 40, 20, (-30)]⟩, ⟨"seller", [(-10), (-30), (-50)]⟩, ⟨"producerA", [(-1), (-3), (-5)]⟩, ⟨"producerB", [(-2), (-4), (-6), (-8)]⟩]) [1, 2, 3, 4] t.forest).map (fun es => es.map (·.2.1))) =
    .ok [[.potential 1 3 2, .potential 3 4 4, .allTraders 2 3 3, .someOf [3] 3 4, .allTraders 0 4 1, .someOf [1, 2] 4 6]] := by decide +kernel

/-- `recipetree_integer.py:208` -/
example : let cats : List AgentCategory := [⟨"buyer", [60, 40, 20, (-30)]⟩, ⟨"seller", [(-10), (-30), (-50)]⟩, ⟨"producerA", [(-1), (-3), (-5)]⟩, ⟨"producerB", [(-2), (-4), (-6), (-8)]⟩]
    (RecipeTree.init 4 [.int 0, .list [.int 1, .none, .int 2, .list [.int 3, .none]]]).map (fun t => IntegerTree.combinedValues (countOf [1, 2, 1, 2]) (TreeAuction.valuesAt cats) t.forest) = .ok [[60, (-1), (-2), (-4)], [40, (-3), (-6), (-8)], [20, (-10), (-30)]] := by decide +kernel

/-- `recipetree_integer.py:210` -/
example : let cats : List AgentCategory := [⟨"buyer", [60, 40, 20, (-30)]⟩, ⟨"seller", [(-10), (-30), (-50)]⟩, ⟨"producerA", [(-1), (-3), (-5)]⟩, ⟨"producerB", [(-2), (-4), (-6), (-8)]⟩]
    (RecipeTree.init 4 [.int 0, .list [.int 1, .none, .int 2, .list [.int 3, .none]]]).map (fun t => IntegerTree.combinedValuesDetailed t (countOf [1, 2, 1, 2]) (TreeAuction.valuesAt cats)) = .ok [[60, (-1), (-2), (-4)], [40, (-3), (-6), (-8)], [20, (-10), (-30)]] := by decide +kernel

/-- `recipetree_integer.py:214` -/
example : let cats : List AgentCategory := [⟨"buyer", [60, 40, 20, (-30)]⟩, ⟨"seller", [(-10), (-30), (-50)]⟩, ⟨"producerA", [(-1), (-3), (-5)]⟩, ⟨"producerB", [(-2), (-4), (-6), (-8)]⟩]
    (RecipeTree.init 4 [.int 0, .list [.int 1, .none, .int 2, .list [.int 3, .none]]]).map (fun t => IntegerTree.optimalTradeGFT t (countOf [1, 2, 1, 2]) (TreeAuction.valuesAt cats)) = .ok 76 := by decide +kernel

/-- `recipetree_integer.py:216` -/
example : let cats : List AgentCategory := [⟨"buyer", [60, 40, 20, (-30)]⟩, ⟨"seller", [(-10), (-30), (-50)]⟩, ⟨"producerA", [(-1), (-3), (-5)]⟩, ⟨"producerB", [(-2), (-4), (-6), (-8)]⟩]
    (RecipeTree.init 4 [.int 0, .list [.int 1, .none, .int 2, .list [.int 3, .none]]]).map (fun t => (IntegerTree.largestCategories (countOf [1, 2, 1, 2]) (TreeAuction.sizeAt cats) t.forest).2.2) = .ok [1, 2] := by decide +kernel

/-- `recipetree_integer.py:218` -/
example : let cats : List AgentCategory := [⟨"buyer", [60, 40, 20, (-30)]⟩, ⟨"seller", [(-10), (-30), (-50)]⟩, ⟨"producerA", [(-1), (-3), (-5)]⟩, ⟨"producerB", [(-2), (-4), (-6), (-8)]⟩]
    (RecipeTree.init 4 [.int 0, .list [.int 1, .none, .int 2, .list [.int 3, .none]]]).map (fun t => (IntegerTree.largestCategories (countOf [1, 2, 1, 2]) (TreeAuction.sizeAt cats) t.forest).2.2) = .ok [1, 2] := by decide +kernel

/-- `recipetree_integer.py:220` -/
example : let cats : List AgentCategory := [⟨"buyer", [60, 40, 20, (-30)]⟩, ⟨"seller", [(-10), (-30), (-50)]⟩, ⟨"producerA", [(-1), (-3), (-5)]⟩, ⟨"producerB", [(-2), (-4), (-6), (-8)]⟩]
    (RecipeTree.init 4 [.int 0, .list [.int 1, .none, .int 2, .list [.int 3, .none]]]).map (fun t => t.pathsToLeaf) = .ok [[0, 1], [0, 2, 3]] := by decide +kernel

/-- `recipetree_integer.py:222` -/
example : let cats : List AgentCategory := [⟨"buyer", [60, 40, 20, (-30)]⟩, ⟨"seller", [(-10), (-30), (-50)]⟩, ⟨"producerA", [(-1), (-3), (-5)]⟩, ⟨"producerB", [(-2), (-4), (-6), (-8)]⟩]
    (RecipeTree.init 4 [.int 0, .list [.int 1, .none, .int 2, .list [.int 3, .none]]]).map (fun t => t.pathsToLeaf) = .ok [[0, 1], [0, 2, 3]] := by decide +kernel

/-- `recipetree_integer.py:224` -/
example : (RecipeTree.init 4 [.int 0, .list [.int 1, .none, .int 2, .list [.int 3, .none]]] >>= fun t => IntegerTree.recipes t 4 [1, 2, 1, 2]) = .ok [[1, 2, 0, 0], [1, 0, 1, 2]] := by decide +kernel

/-- `recipetree_integer.py:226` -/
example : let cats : List AgentCategory := [⟨"buyer", [60, 40, 20, (-30)]⟩, ⟨"seller", [(-10), (-30), (-50)]⟩, ⟨"producerA", [(-1), (-3), (-5)]⟩, ⟨"producerB", [(-2), (-4), (-6), (-8)]⟩]
    (RecipeTree.init 4 [.int 0, .list [.int 1, .none, .int 2, .list [.int 3, .none]]]).map (fun t => IntegerTree.numOfDeals (countOf [1, 2, 1, 2]) (TreeAuction.sizeAt cats) t.forest) = .ok 3 := by decide +kernel

/-- `recipetree_integer.py:228` -/
example : (RecipeTree.init 4 [.int 0, .list [.int 1, .none, .int 2, .list [.int 3, .none]]] >>= fun t => (IntegerTree.explained (countOf [1, 2, 1, 2]) (TreeAuction.sizeAt [⟨"buyer", [60, 40, 20, (-30)]⟩, ⟨"seller", [(-10), (-30), (-50)]⟩, ⟨"producerA", [(-1), (-3), (-5)]⟩, ⟨"producerB", [(-2), (-4), (-6), (-8)]⟩]) [1, 2, 3, 4] t.forest).map (fun es => es.map (·.2.1))) =
    .ok [[.potential 1 1 2, .potential 3 2 4, .someTraders 2 2 3 3, .allOf [3] 2, .someTraders 0 3 4 1, .allOf [1, 2] 3]] := by decide +kernel

/-- `recipetree_integer.py:244` -/
example : let cats : List AgentCategory := [⟨"buyer", [90, 80, 70, 60, 50, 40]⟩, ⟨"seller", [(-10), (-30), (-50)]⟩, ⟨"producerA", [(-1), (-3), (-5), (-7)]⟩, ⟨"producerB", [(-2), (-4)]⟩]
    (RecipeTree.init 4 [.int 0, .list [.int 1, .none, .int 2, .list [.int 3, .none]]]).map (fun t => IntegerTree.combinedValuesDetailed t (countOf [1, 1, 1, 1]) (TreeAuction.valuesAt cats)) = .ok [[90, (-1), (-2)], [80, (-3), (-4)], [70, (-10)], [60, (-30)], [50, (-50)]] := by decide +kernel

/-- `recipetree_integer.py:248` -/
example : let cats : List AgentCategory := [⟨"buyer", [90, 80, 70, 60, 50, 40]⟩, ⟨"seller", [(-10), (-30), (-50)]⟩, ⟨"producerA", [(-1), (-3), (-5), (-7)]⟩, ⟨"producerB", [(-2), (-4)]⟩]
    (RecipeTree.init 4 [.int 0, .list [.int 1, .none, .int 2, .list [.int 3, .none]]]).map (fun t => IntegerTree.combinedValues (countOf [1, 1, 1, 1]) (TreeAuction.valuesAt cats) t.forest) = .ok [[90, (-1), (-2)], [80, (-3), (-4)], [70, (-10)], [60, (-30)], [50, (-50)]] := by decide +kernel

/-- `recipetree_integer.py:250` -/
example : let cats : List AgentCategory := [⟨"buyer", [90, 80, 70, 60, 50, 40]⟩, ⟨"seller", [(-10), (-30), (-50)]⟩, ⟨"producerA", [(-1), (-3), (-5), (-7)]⟩, ⟨"producerB", [(-2), (-4)]⟩]
    (RecipeTree.init 4 [.int 0, .list [.int 1, .none, .int 2, .list [.int 3, .none]]]).map (fun t => IntegerTree.optimalTradeGFT t (countOf [1, 1, 1, 1]) (TreeAuction.valuesAt cats)) = .ok 250 := by decide +kernel

/-- `recipetree_integer.py:252` -/
example : let cats : List AgentCategory := [⟨"buyer", [90, 80, 70, 60, 50, 40]⟩, ⟨"seller", [(-10), (-30), (-50)]⟩, ⟨"producerA", [(-1), (-3), (-5), (-7)]⟩, ⟨"producerB", [(-2), (-4)]⟩]
    (RecipeTree.init 4 [.int 0, .list [.int 1, .none, .int 2, .list [.int 3, .none]]]).map (fun t => IntegerTree.numOfDeals (countOf [1, 1, 1, 1]) (TreeAuction.sizeAt cats) t.forest) = .ok 5 := by decide +kernel

/-- `recipetree_integer.py:254` -/
example : let cats : List AgentCategory := [⟨"buyer", [90, 80, 70, 60, 50, 40]⟩, ⟨"seller", [(-10), (-30), (-50)]⟩, ⟨"producerA", [(-1), (-3), (-5), (-7)]⟩, ⟨"producerB", [(-2), (-4)]⟩]
    (RecipeTree.init 4 [.int 0, .list [.int 1, .none, .int 2, .list [.int 3, .none]]]).map (fun t => (IntegerTree.largestCategories (countOf [1, 1, 1, 1]) (TreeAuction.sizeAt cats) t.forest).2.2) = .ok [1, 2] := by decide +kernel

/-- `recipetree_integer.py:263` -/
example : let cats : List AgentCategory := [⟨"buyer", [90, 80, 70, 60, 50, 40]⟩, ⟨"seller", [(-10), (-30), (-50)]⟩, ⟨"producerA", [(-1), (-3), (-5), (-7)]⟩, ⟨"producerB", [(-2), (-4)]⟩]
    (RecipeTree.init 4 [.int 0, .list [.int 1, .none, .int 2, .list [.int 3, .none]]]).map (fun t => IntegerTree.combinedValuesDetailed t (countOf [2, 2, 1, 2]) (TreeAuction.valuesAt cats)) = .ok [[90, 80, (-1), (-2), (-4)], [70, 60, (-10), (-30)]] := by decide +kernel

/-- `recipetree_integer.py:267` -/
example : let cats : List AgentCategory := [⟨"buyer", [90, 80, 70, 60, 50, 40]⟩, ⟨"seller", [(-10), (-30), (-50)]⟩, ⟨"producerA", [(-1), (-3), (-5), (-7)]⟩, ⟨"producerB", [(-2), (-4)]⟩]
    (RecipeTree.init 4 [.int 0, .list [.int 1, .none, .int 2, .list [.int 3, .none]]]).map (fun t => IntegerTree.combinedValues (countOf [2, 2, 1, 2]) (TreeAuction.valuesAt cats) t.forest) = .ok [[90, 80, (-1), (-2), (-4)], [70, 60, (-10), (-30)]] := by decide +kernel

/-- `recipetree_integer.py:269` -/
example : let cats : List AgentCategory := [⟨"buyer", [90, 80, 70, 60, 50, 40]⟩, ⟨"seller", [(-10), (-30), (-50)]⟩, ⟨"producerA", [(-1), (-3), (-5), (-7)]⟩, ⟨"producerB", [(-2), (-4)]⟩]
    (RecipeTree.init 4 [.int 0, .list [.int 1, .none, .int 2, .list [.int 3, .none]]]).map (fun t => IntegerTree.optimalTradeGFT t (countOf [2, 2, 1, 2]) (TreeAuction.valuesAt cats)) = .ok 253 := by decide +kernel

/-- `recipetree_integer.py:271` -/
example : let cats : List AgentCategory := [⟨"buyer", [90, 80, 70, 60, 50, 40]⟩, ⟨"seller", [(-10), (-30), (-50)]⟩, ⟨"producerA", [(-1), (-3), (-5), (-7)]⟩, ⟨"producerB", [(-2), (-4)]⟩]
    (RecipeTree.init 4 [.int 0, .list [.int 1, .none, .int 2, .list [.int 3, .none]]]).map (fun t => IntegerTree.numOfDeals (countOf [2, 2, 1, 2]) (TreeAuction.sizeAt cats) t.forest) = .ok 2 := by decide +kernel

/-- `recipetree_integer.py:273` -/
example : let cats : List AgentCategory := [⟨"buyer", [90, 80, 70, 60, 50, 40]⟩, ⟨"seller", [(-10), (-30), (-50)]⟩, ⟨"producerA", [(-1), (-3), (-5), (-7)]⟩, ⟨"producerB", [(-2), (-4)]⟩]
    (RecipeTree.init 4 [.int 0, .list [.int 1, .none, .int 2, .list [.int 3, .none]]]).map (fun t => (IntegerTree.largestCategories (countOf [2, 2, 1, 2]) (TreeAuction.sizeAt cats) t.forest).2.2) = .ok [1, 2] := by decide +kernel

/-- `recipetree_integer.py:278` -/
example : let cats : List AgentCategory := [⟨"buyer", [90, 80, 70, 60, 50, 40]⟩, ⟨"seller", [(-10), (-30), (-50)]⟩, ⟨"producerA", [(-1), (-3), (-5), (-7), (-9), (-11), (-13)]⟩, ⟨"producerB", [(-2), (-4), (-6), (-8), (-10)]⟩]
    (RecipeTree.init 4 [.int 0, .list [.int 1, .none, .int 2, .list [.int 3, .none]]]).map (fun t => (IntegerTree.largestCategories (countOf [2, 2, 1, 2]) (TreeAuction.sizeAt cats) t.forest).2.2) = .ok [1, 2] := by decide +kernel

/-- `recipetree_integer.py:333` -/
example : IntegerTree.recipeFromPath [0, 2, 3] 5 [] = .ok [1, 0, 1, 1, 0] := by decide +kernel

/-- `recipetree_integer.py:336` -/
example : IntegerTree.recipeFromPath [0, 2, 3] 5 [1, 2, 3, 2, 1] = .ok [1, 0, 3, 2, 0] := by decide +kernel

/-- `recipetree_integer.py:503` -/
example : let cats : List AgentCategory := [⟨"0", []⟩, ⟨"1", [1]⟩, ⟨"2", [1, 1]⟩, ⟨"3", [1, 1, 1]⟩, ⟨"4", [1, 1, 1, 1]⟩, ⟨"5", [1, 1, 1, 1, 1]⟩, ⟨"6", [1, 1, 1, 1, 1, 1]⟩, ⟨"7", [1, 1, 1, 1, 1, 1, 1]⟩, ⟨"8", [1, 1, 1, 1, 1, 1, 1, 1]⟩, ⟨"9", [1, 1, 1, 1, 1, 1, 1, 1, 1]⟩]
    (RecipeTree.init 10 [.int 6, .none]).map (fun t => IntegerTree.largestCategories (countOf []) (TreeAuction.sizeAt cats) t.forest) = .ok (6, 6, [6]) := by decide +kernel

/-- `recipetree_integer.py:505` -/
example : let cats : List AgentCategory := [⟨"0", []⟩, ⟨"1", [1]⟩, ⟨"2", [1, 1]⟩, ⟨"3", [1, 1, 1]⟩, ⟨"4", [1, 1, 1, 1]⟩, ⟨"5", [1, 1, 1, 1, 1]⟩, ⟨"6", [1, 1, 1, 1, 1, 1]⟩, ⟨"7", [1, 1, 1, 1, 1, 1, 1]⟩, ⟨"8", [1, 1, 1, 1, 1, 1, 1, 1]⟩, ⟨"9", [1, 1, 1, 1, 1, 1, 1, 1, 1]⟩]
    (RecipeTree.init 10 [.int 6, .list [.int 8, .none]]).map (fun t => (IntegerTree.largestCategories (countOf []) (TreeAuction.sizeAt cats) t.forest).2.2) = .ok [8] := by decide +kernel

/-- `recipetree_integer.py:507` -/
example : let cats : List AgentCategory := [⟨"0", []⟩, ⟨"1", [1]⟩, ⟨"2", [1, 1]⟩, ⟨"3", [1, 1, 1]⟩, ⟨"4", [1, 1, 1, 1]⟩, ⟨"5", [1, 1, 1, 1, 1]⟩, ⟨"6", [1, 1, 1, 1, 1, 1]⟩, ⟨"7", [1, 1, 1, 1, 1, 1, 1]⟩, ⟨"8", [1, 1, 1, 1, 1, 1, 1, 1]⟩, ⟨"9", [1, 1, 1, 1, 1, 1, 1, 1, 1]⟩]
    (RecipeTree.init 10 [.int 8, .list [.int 6, .none]]).map (fun t => (IntegerTree.largestCategories (countOf []) (TreeAuction.sizeAt cats) t.forest).2.2) = .ok [8] := by decide +kernel

/-- `recipetree_integer.py:509` -/
example : let cats : List AgentCategory := [⟨"0", []⟩, ⟨"1", [1]⟩, ⟨"2", [1, 1]⟩, ⟨"3", [1, 1, 1]⟩, ⟨"4", [1, 1, 1, 1]⟩, ⟨"5", [1, 1, 1, 1, 1]⟩, ⟨"6", [1, 1, 1, 1, 1, 1]⟩, ⟨"7", [1, 1, 1, 1, 1, 1, 1]⟩, ⟨"8", [1, 1, 1, 1, 1, 1, 1, 1]⟩, ⟨"9", [1, 1, 1, 1, 1, 1, 1, 1, 1]⟩]
    (RecipeTree.init 10 [.int 6, .list [.int 8, .list [.int 7, .none]]]).map (fun t => (IntegerTree.largestCategories (countOf []) (TreeAuction.sizeAt cats) t.forest).2.2) = .ok [8] := by decide +kernel

/-- `recipetree_integer.py:511` -/
example : let cats : List AgentCategory := [⟨"0", []⟩, ⟨"1", [1]⟩, ⟨"2", [1, 1]⟩, ⟨"3", [1, 1, 1]⟩, ⟨"4", [1, 1, 1, 1]⟩, ⟨"5", [1, 1, 1, 1, 1]⟩, ⟨"6", [1, 1, 1, 1, 1, 1]⟩, ⟨"7", [1, 1, 1, 1, 1, 1, 1]⟩, ⟨"8", [1, 1, 1, 1, 1, 1, 1, 1]⟩, ⟨"9", [1, 1, 1, 1, 1, 1, 1, 1, 1]⟩]
    (RecipeTree.init 10 [.int 7, .list [.int 8, .list [.int 6, .none]]]).map (fun t => (IntegerTree.largestCategories (countOf []) (TreeAuction.sizeAt cats) t.forest).2.2) ≠ .ok [6] := by decide +kernel

/-- `recipetree_integer.py:513` -/
example : let cats : List AgentCategory := [⟨"0", []⟩, ⟨"1", [1]⟩, ⟨"2", [1, 1]⟩, ⟨"3", [1, 1, 1]⟩, ⟨"4", [1, 1, 1, 1]⟩, ⟨"5", [1, 1, 1, 1, 1]⟩, ⟨"6", [1, 1, 1, 1, 1, 1]⟩, ⟨"7", [1, 1, 1, 1, 1, 1, 1]⟩, ⟨"8", [1, 1, 1, 1, 1, 1, 1, 1]⟩, ⟨"9", [1, 1, 1, 1, 1, 1, 1, 1, 1]⟩]
    (RecipeTree.init 10 [.int 7, .list [.int 8, .list [.int 5, .list [.int 6, .none]]]]).map (fun t => (IntegerTree.largestCategories (countOf []) (TreeAuction.sizeAt cats) t.forest).2.2) ≠ .ok [5] := by decide +kernel

/-- `recipetree_integer.py:515` -/
example : let cats : List AgentCategory := [⟨"0", []⟩, ⟨"1", [1]⟩, ⟨"2", [1, 1]⟩, ⟨"3", [1, 1, 1]⟩, ⟨"4", [1, 1, 1, 1]⟩, ⟨"5", [1, 1, 1, 1, 1]⟩, ⟨"6", [1, 1, 1, 1, 1, 1]⟩, ⟨"7", [1, 1, 1, 1, 1, 1, 1]⟩, ⟨"8", [1, 1, 1, 1, 1, 1, 1, 1]⟩, ⟨"9", [1, 1, 1, 1, 1, 1, 1, 1, 1]⟩]
    (RecipeTree.init 10 [.int 6, .list [.int 3, .none, .int 4, .list [.int 2, .none]]]).map (fun t => (IntegerTree.largestCategories (countOf []) (TreeAuction.sizeAt cats) t.forest).2.2) = .ok [3, 4] := by decide +kernel

/-- `recipetree_integer.py:517` -/
example : let cats : List AgentCategory := [⟨"0", []⟩, ⟨"1", [1]⟩, ⟨"2", [1, 1]⟩, ⟨"3", [1, 1, 1]⟩, ⟨"4", [1, 1, 1, 1]⟩, ⟨"5", [1, 1, 1, 1, 1]⟩, ⟨"6", [1, 1, 1, 1, 1, 1]⟩, ⟨"7", [1, 1, 1, 1, 1, 1, 1]⟩, ⟨"8", [1, 1, 1, 1, 1, 1, 1, 1]⟩, ⟨"9", [1, 1, 1, 1, 1, 1, 1, 1, 1]⟩]
    (RecipeTree.init 10 [.int 6, .list [.int 3, .none, .int 2, .list [.int 4, .none]]]).map (fun t => (IntegerTree.largestCategories (countOf []) (TreeAuction.sizeAt cats) t.forest).2.2) = .ok [6] := by decide +kernel

/-- `recipetree_integer.py:519` -/
example : let cats : List AgentCategory := [⟨"0", []⟩, ⟨"1", [1]⟩, ⟨"2", [1, 1]⟩, ⟨"3", [1, 1, 1]⟩, ⟨"4", [1, 1, 1, 1]⟩, ⟨"5", [1, 1, 1, 1, 1]⟩, ⟨"6", [1, 1, 1, 1, 1, 1]⟩, ⟨"7", [1, 1, 1, 1, 1, 1, 1]⟩, ⟨"8", [1, 1, 1, 1, 1, 1, 1, 1]⟩, ⟨"9", [1, 1, 1, 1, 1, 1, 1, 1, 1]⟩]
    (RecipeTree.init 10 [.int 6, .list [.int 3, .none, .int 7, .list [.int 5, .none]]]).map (fun t => (IntegerTree.largestCategories (countOf []) (TreeAuction.sizeAt cats) t.forest).2.2) = .ok [3, 7] := by decide +kernel

/-- `recipetree_integer.py:521` -/
example : let cats : List AgentCategory := [⟨"0", []⟩, ⟨"1", [1]⟩, ⟨"2", [1, 1]⟩, ⟨"3", [1, 1, 1]⟩, ⟨"4", [1, 1, 1, 1]⟩, ⟨"5", [1, 1, 1, 1, 1]⟩, ⟨"6", [1, 1, 1, 1, 1, 1]⟩, ⟨"7", [1, 1, 1, 1, 1, 1, 1]⟩, ⟨"8", [1, 1, 1, 1, 1, 1, 1, 1]⟩, ⟨"9", [1, 1, 1, 1, 1, 1, 1, 1, 1]⟩]
    (RecipeTree.init 10 [.int 6, .list [.int 3, .none, .int 5, .list [.int 7, .none]]]).map (fun t => (IntegerTree.largestCategories (countOf []) (TreeAuction.sizeAt cats) t.forest).2.2) = .ok [3, 7] := by decide +kernel

/-- `recipetree_integer.py:523` -/
example : let cats : List AgentCategory := [⟨"0", []⟩, ⟨"1", [1]⟩, ⟨"2", [1, 1]⟩, ⟨"3", [1, 1, 1]⟩, ⟨"4", [1, 1, 1, 1]⟩, ⟨"5", [1, 1, 1, 1, 1]⟩, ⟨"6", [1, 1, 1, 1, 1, 1]⟩, ⟨"7", [1, 1, 1, 1, 1, 1, 1]⟩, ⟨"8", [1, 1, 1, 1, 1, 1, 1, 1]⟩, ⟨"9", [1, 1, 1, 1, 1, 1, 1, 1, 1]⟩]
    (RecipeTree.init 10 [.int 5, .list [.int 6, .list [.int 4, .none], .int 4, .list [.int 6, .none]]]).map (fun t => (IntegerTree.largestCategories (countOf []) (TreeAuction.sizeAt cats) t.forest).2.2) = .ok [6, 6] := by decide +kernel

/-- `recipetree_integer.py:525` -/
example : let cats : List AgentCategory := [⟨"0", []⟩, ⟨"1", [1]⟩, ⟨"2", [1, 1]⟩, ⟨"3", [1, 1, 1]⟩, ⟨"4", [1, 1, 1, 1]⟩, ⟨"5", [1, 1, 1, 1, 1]⟩, ⟨"6", [1, 1, 1, 1, 1, 1]⟩, ⟨"7", [1, 1, 1, 1, 1, 1, 1]⟩, ⟨"8", [1, 1, 1, 1, 1, 1, 1, 1]⟩, ⟨"9", [1, 1, 1, 1, 1, 1, 1, 1, 1]⟩]
    (RecipeTree.init 10 [.int 7, .list [.int 6, .list [.int 4, .none], .int 4, .list [.int 6, .none]]]).map (fun t => (IntegerTree.largestCategories (countOf []) (TreeAuction.sizeAt cats) t.forest).2.2) = .ok [6, 6] := by decide +kernel

/-- `recipetree_integer.py:527` -/
example : let cats : List AgentCategory := [⟨"0", []⟩, ⟨"1", [1]⟩, ⟨"2", [1, 1]⟩, ⟨"3", [1, 1, 1]⟩, ⟨"4", [1, 1, 1, 1]⟩, ⟨"5", [1, 1, 1, 1, 1]⟩, ⟨"6", [1, 1, 1, 1, 1, 1]⟩, ⟨"7", [1, 1, 1, 1, 1, 1, 1]⟩, ⟨"8", [1, 1, 1, 1, 1, 1, 1, 1]⟩, ⟨"9", [1, 1, 1, 1, 1, 1, 1, 1, 1]⟩]
    (RecipeTree.init 10 [.int 8, .list [.int 6, .list [.int 4, .none], .int 4, .list [.int 6, .none]]]).map (fun t => (IntegerTree.largestCategories (countOf []) (TreeAuction.sizeAt cats) t.forest).2.2) = .ok [6, 6] := by decide +kernel

/-- `recipetree_integer.py:529` -/
example : let cats : List AgentCategory := [⟨"0", []⟩, ⟨"1", [1]⟩, ⟨"2", [1, 1]⟩, ⟨"3", [1, 1, 1]⟩, ⟨"4", [1, 1, 1, 1]⟩, ⟨"5", [1, 1, 1, 1, 1]⟩, ⟨"6", [1, 1, 1, 1, 1, 1]⟩, ⟨"7", [1, 1, 1, 1, 1, 1, 1]⟩, ⟨"8", [1, 1, 1, 1, 1, 1, 1, 1]⟩, ⟨"9", [1, 1, 1, 1, 1, 1, 1, 1, 1]⟩]
    (RecipeTree.init 10 [.int 9, .list [.int 6, .list [.int 4, .none], .int 4, .list [.int 6, .none]]]).map (fun t => (IntegerTree.largestCategories (countOf []) (TreeAuction.sizeAt cats) t.forest).2.2) = .ok [6, 6] := by decide +kernel

/-- `recipetree_integer.py:531` -/
example : let cats : List AgentCategory := [⟨"0", []⟩, ⟨"1", [1]⟩, ⟨"2", [1, 1]⟩, ⟨"3", [1, 1, 1]⟩, ⟨"4", [1, 1, 1, 1]⟩, ⟨"5", [1, 1, 1, 1, 1]⟩, ⟨"6", [1, 1, 1, 1, 1, 1]⟩, ⟨"7", [1, 1, 1, 1, 1, 1, 1]⟩, ⟨"8", [1, 1, 1, 1, 1, 1, 1, 1]⟩, ⟨"9", [1, 1, 1, 1, 1, 1, 1, 1, 1]⟩]
    (RecipeTree.init 10 [.int 6, .list [.int 0, .none, .int 6, .none]]).map (fun t => IntegerTree.largestCategories (countOf []) (TreeAuction.sizeAt cats) t.forest) = .ok (6, 6, [0, 6]) := by decide +kernel

/-- `recipetree_integer.py:533` -/
example : let cats : List AgentCategory := [⟨"0", []⟩, ⟨"1", [1]⟩, ⟨"2", [1, 1]⟩, ⟨"3", [1, 1, 1]⟩, ⟨"4", [1, 1, 1, 1]⟩, ⟨"5", [1, 1, 1, 1, 1]⟩, ⟨"6", [1, 1, 1, 1, 1, 1]⟩, ⟨"7", [1, 1, 1, 1, 1, 1, 1]⟩, ⟨"8", [1, 1, 1, 1, 1, 1, 1, 1]⟩, ⟨"9", [1, 1, 1, 1, 1, 1, 1, 1, 1]⟩]
    (RecipeTree.init 10 [.int 6, .list [.int 6, .none, .int 0, .none]]).map (fun t => IntegerTree.largestCategories (countOf []) (TreeAuction.sizeAt cats) t.forest) = .ok (6, 6, [6, 0]) := by decide +kernel

/-- `recipetree_integer.py:537` -/
example : let cats : List AgentCategory := [⟨"0", []⟩, ⟨"1", [1]⟩, ⟨"2", [1, 1]⟩, ⟨"3", [1, 1, 1]⟩, ⟨"4", [1, 1, 1, 1]⟩, ⟨"5", [1, 1, 1, 1, 1]⟩, ⟨"6", [1, 1, 1, 1, 1, 1]⟩, ⟨"7", [1, 1, 1, 1, 1, 1, 1]⟩, ⟨"8", [1, 1, 1, 1, 1, 1, 1, 1]⟩, ⟨"9", [1, 1, 1, 1, 1, 1, 1, 1, 1]⟩]
    (RecipeTree.init 10 [.int 6, .none]).map (fun t => IntegerTree.largestCategories (countOf [1, 1, 1, 2, 2, 2, 3, 3, 3, 4]) (TreeAuction.sizeAt cats) t.forest) = .ok (2, 2, [6]) := by decide +kernel

/-- `recipetree_integer.py:539` -/
example : let cats : List AgentCategory := [⟨"0", []⟩, ⟨"1", [1]⟩, ⟨"2", [1, 1]⟩, ⟨"3", [1, 1, 1]⟩, ⟨"4", [1, 1, 1, 1]⟩, ⟨"5", [1, 1, 1, 1, 1]⟩, ⟨"6", [1, 1, 1, 1, 1, 1]⟩, ⟨"7", [1, 1, 1, 1, 1, 1, 1]⟩, ⟨"8", [1, 1, 1, 1, 1, 1, 1, 1]⟩, ⟨"9", [1, 1, 1, 1, 1, 1, 1, 1, 1]⟩]
    (RecipeTree.init 10 [.int 6, .list [.int 8, .none]]).map (fun t => (IntegerTree.largestCategories (countOf [1, 1, 1, 2, 2, 2, 3, 3, 3, 4]) (TreeAuction.sizeAt cats) t.forest).2.2) = .ok [8] := by decide +kernel

/-- `recipetree_integer.py:541` -/
example : let cats : List AgentCategory := [⟨"0", []⟩, ⟨"1", [1]⟩, ⟨"2", [1, 1]⟩, ⟨"3", [1, 1, 1]⟩, ⟨"4", [1, 1, 1, 1]⟩, ⟨"5", [1, 1, 1, 1, 1]⟩, ⟨"6", [1, 1, 1, 1, 1, 1]⟩, ⟨"7", [1, 1, 1, 1, 1, 1, 1]⟩, ⟨"8", [1, 1, 1, 1, 1, 1, 1, 1]⟩, ⟨"9", [1, 1, 1, 1, 1, 1, 1, 1, 1]⟩]
    (RecipeTree.init 10 [.int 8, .list [.int 6, .none]]).map (fun t => (IntegerTree.largestCategories (countOf [1, 1, 1, 2, 2, 2, 3, 3, 3, 4]) (TreeAuction.sizeAt cats) t.forest).2.2) = .ok [8] := by decide +kernel

/-- `recipetree_integer.py:543` -/
example : let cats : List AgentCategory := [⟨"0", []⟩, ⟨"1", [1]⟩, ⟨"2", [1, 1]⟩, ⟨"3", [1, 1, 1]⟩, ⟨"4", [1, 1, 1, 1]⟩, ⟨"5", [1, 1, 1, 1, 1]⟩, ⟨"6", [1, 1, 1, 1, 1, 1]⟩, ⟨"7", [1, 1, 1, 1, 1, 1, 1]⟩, ⟨"8", [1, 1, 1, 1, 1, 1, 1, 1]⟩, ⟨"9", [1, 1, 1, 1, 1, 1, 1, 1, 1]⟩]
    (RecipeTree.init 10 [.int 6, .list [.int 8, .list [.int 7, .none]]]).map (fun t => (IntegerTree.largestCategories (countOf [1, 1, 1, 2, 2, 2, 3, 3, 3, 4]) (TreeAuction.sizeAt cats) t.forest).2.2) = .ok [7] := by decide +kernel

/-- `recipetree_integer.py:545` -/
example : let cats : List AgentCategory := [⟨"0", []⟩, ⟨"1", [1]⟩, ⟨"2", [1, 1]⟩, ⟨"3", [1, 1, 1]⟩, ⟨"4", [1, 1, 1, 1]⟩, ⟨"5", [1, 1, 1, 1, 1]⟩, ⟨"6", [1, 1, 1, 1, 1, 1]⟩, ⟨"7", [1, 1, 1, 1, 1, 1, 1]⟩, ⟨"8", [1, 1, 1, 1, 1, 1, 1, 1]⟩, ⟨"9", [1, 1, 1, 1, 1, 1, 1, 1, 1]⟩]
    (RecipeTree.init 10 [.int 7, .list [.int 8, .list [.int 6, .none]]]).map (fun t => (IntegerTree.largestCategories (countOf [1, 1, 1, 2, 2, 2, 3, 3, 3, 4]) (TreeAuction.sizeAt cats) t.forest).2.2) = .ok [8] := by decide +kernel

/-- `recipetree_integer.py:547` -/
example : let cats : List AgentCategory := [⟨"0", []⟩, ⟨"1", [1]⟩, ⟨"2", [1, 1]⟩, ⟨"3", [1, 1, 1]⟩, ⟨"4", [1, 1, 1, 1]⟩, ⟨"5", [1, 1, 1, 1, 1]⟩, ⟨"6", [1, 1, 1, 1, 1, 1]⟩, ⟨"7", [1, 1, 1, 1, 1, 1, 1]⟩, ⟨"8", [1, 1, 1, 1, 1, 1, 1, 1]⟩, ⟨"9", [1, 1, 1, 1, 1, 1, 1, 1, 1]⟩]
    (RecipeTree.init 10 [.int 7, .list [.int 8, .list [.int 5, .list [.int 6, .none]]]]).map (fun t => (IntegerTree.largestCategories (countOf [1, 1, 1, 2, 2, 2, 3, 3, 3, 4]) (TreeAuction.sizeAt cats) t.forest).2.2) = .ok [5] := by decide +kernel

/-- `recipetree_integer.py:549` -/
example : let cats : List AgentCategory := [⟨"0", []⟩, ⟨"1", [1]⟩, ⟨"2", [1, 1]⟩, ⟨"3", [1, 1, 1]⟩, ⟨"4", [1, 1, 1, 1]⟩, ⟨"5", [1, 1, 1, 1, 1]⟩, ⟨"6", [1, 1, 1, 1, 1, 1]⟩, ⟨"7", [1, 1, 1, 1, 1, 1, 1]⟩, ⟨"8", [1, 1, 1, 1, 1, 1, 1, 1]⟩, ⟨"9", [1, 1, 1, 1, 1, 1, 1, 1, 1]⟩]
    (RecipeTree.init 10 [.int 6, .list [.int 3, .none, .int 4, .list [.int 2, .none]]]).map (fun t => (IntegerTree.largestCategories (countOf [1, 1, 1, 2, 2, 2, 3, 3, 3, 4]) (TreeAuction.sizeAt cats) t.forest).2.2) = .ok [3, 2] := by decide +kernel

/-- `recipetree_integer.py:551` -/
example : let cats : List AgentCategory := [⟨"0", []⟩, ⟨"1", [1]⟩, ⟨"2", [1, 1]⟩, ⟨"3", [1, 1, 1]⟩, ⟨"4", [1, 1, 1, 1]⟩, ⟨"5", [1, 1, 1, 1, 1]⟩, ⟨"6", [1, 1, 1, 1, 1, 1]⟩, ⟨"7", [1, 1, 1, 1, 1, 1, 1]⟩, ⟨"8", [1, 1, 1, 1, 1, 1, 1, 1]⟩, ⟨"9", [1, 1, 1, 1, 1, 1, 1, 1, 1]⟩]
    (RecipeTree.init 10 [.int 6, .list [.int 3, .none, .int 2, .list [.int 4, .none]]]).map (fun t => (IntegerTree.largestCategories (countOf [1, 1, 1, 2, 2, 2, 3, 3, 3, 4]) (TreeAuction.sizeAt cats) t.forest).2.2) = .ok [3, 4] := by decide +kernel

/-- `recipetree_integer.py:553` -/
example : let cats : List AgentCategory := [⟨"0", []⟩, ⟨"1", [1]⟩, ⟨"2", [1, 1]⟩, ⟨"3", [1, 1, 1]⟩, ⟨"4", [1, 1, 1, 1]⟩, ⟨"5", [1, 1, 1, 1, 1]⟩, ⟨"6", [1, 1, 1, 1, 1, 1]⟩, ⟨"7", [1, 1, 1, 1, 1, 1, 1]⟩, ⟨"8", [1, 1, 1, 1, 1, 1, 1, 1]⟩, ⟨"9", [1, 1, 1, 1, 1, 1, 1, 1, 1]⟩]
    (RecipeTree.init 10 [.int 6, .list [.int 3, .none, .int 7, .list [.int 5, .none]]]).map (fun t => (IntegerTree.largestCategories (countOf [1, 1, 1, 2, 2, 2, 3, 3, 3, 4]) (TreeAuction.sizeAt cats) t.forest).2.2) = .ok [3, 5] := by decide +kernel

/-- `recipetree_integer.py:555` -/
example : let cats : List AgentCategory := [⟨"0", []⟩, ⟨"1", [1]⟩, ⟨"2", [1, 1]⟩, ⟨"3", [1, 1, 1]⟩, ⟨"4", [1, 1, 1, 1]⟩, ⟨"5", [1, 1, 1, 1, 1]⟩, ⟨"6", [1, 1, 1, 1, 1, 1]⟩, ⟨"7", [1, 1, 1, 1, 1, 1, 1]⟩, ⟨"8", [1, 1, 1, 1, 1, 1, 1, 1]⟩, ⟨"9", [1, 1, 1, 1, 1, 1, 1, 1, 1]⟩]
    (RecipeTree.init 10 [.int 6, .list [.int 3, .none, .int 5, .list [.int 7, .none]]]).map (fun t => (IntegerTree.largestCategories (countOf [1, 1, 1, 2, 2, 2, 3, 3, 3, 4]) (TreeAuction.sizeAt cats) t.forest).2.2) = .ok [3, 7] := by decide +kernel

/-- `recipetree_integer.py:557` -/
example : let cats : List AgentCategory := [⟨"0", []⟩, ⟨"1", [1]⟩, ⟨"2", [1, 1]⟩, ⟨"3", [1, 1, 1]⟩, ⟨"4", [1, 1, 1, 1]⟩, ⟨"5", [1, 1, 1, 1, 1]⟩, ⟨"6", [1, 1, 1, 1, 1, 1]⟩, ⟨"7", [1, 1, 1, 1, 1, 1, 1]⟩, ⟨"8", [1, 1, 1, 1, 1, 1, 1, 1]⟩, ⟨"9", [1, 1, 1, 1, 1, 1, 1, 1, 1]⟩]
    (RecipeTree.init 10 [.int 5, .list [.int 6, .list [.int 4, .none], .int 4, .list [.int 6, .none]]]).map (fun t => (IntegerTree.largestCategories (countOf [1, 1, 1, 2, 2, 2, 3, 3, 3, 4]) (TreeAuction.sizeAt cats) t.forest).2.2) = .ok [4, 6] := by decide +kernel

/-- `recipetree_integer.py:559` -/
example : let cats : List AgentCategory := [⟨"0", []⟩, ⟨"1", [1]⟩, ⟨"2", [1, 1]⟩, ⟨"3", [1, 1, 1]⟩, ⟨"4", [1, 1, 1, 1]⟩, ⟨"5", [1, 1, 1, 1, 1]⟩, ⟨"6", [1, 1, 1, 1, 1, 1]⟩, ⟨"7", [1, 1, 1, 1, 1, 1, 1]⟩, ⟨"8", [1, 1, 1, 1, 1, 1, 1, 1]⟩, ⟨"9", [1, 1, 1, 1, 1, 1, 1, 1, 1]⟩]
    (RecipeTree.init 10 [.int 7, .list [.int 6, .list [.int 4, .none], .int 4, .list [.int 6, .none]]]).map (fun t => (IntegerTree.largestCategories (countOf [1, 1, 1, 2, 2, 2, 3, 3, 3, 4]) (TreeAuction.sizeAt cats) t.forest).2.2) = .ok [4, 6] := by decide +kernel

/-- `recipetree_integer.py:561` -/
example : let cats : List AgentCategory := [⟨"0", []⟩, ⟨"1", [1]⟩, ⟨"2", [1, 1]⟩, ⟨"3", [1, 1, 1]⟩, ⟨"4", [1, 1, 1, 1]⟩, ⟨"5", [1, 1, 1, 1, 1]⟩, ⟨"6", [1, 1, 1, 1, 1, 1]⟩, ⟨"7", [1, 1, 1, 1, 1, 1, 1]⟩, ⟨"8", [1, 1, 1, 1, 1, 1, 1, 1]⟩, ⟨"9", [1, 1, 1, 1, 1, 1, 1, 1, 1]⟩]
    (RecipeTree.init 10 [.int 8, .list [.int 6, .list [.int 4, .none], .int 4, .list [.int 6, .none]]]).map (fun t => (IntegerTree.largestCategories (countOf [1, 1, 1, 2, 2, 2, 3, 3, 3, 4]) (TreeAuction.sizeAt cats) t.forest).2.2) = .ok [4, 6] := by decide +kernel

/-- `recipetree_integer.py:563` -/
example : let cats : List AgentCategory := [⟨"0", []⟩, ⟨"1", [1]⟩, ⟨"2", [1, 1]⟩, ⟨"3", [1, 1, 1]⟩, ⟨"4", [1, 1, 1, 1]⟩, ⟨"5", [1, 1, 1, 1, 1]⟩, ⟨"6", [1, 1, 1, 1, 1, 1]⟩, ⟨"7", [1, 1, 1, 1, 1, 1, 1]⟩, ⟨"8", [1, 1, 1, 1, 1, 1, 1, 1]⟩, ⟨"9", [1, 1, 1, 1, 1, 1, 1, 1, 1]⟩]
    (RecipeTree.init 10 [.int 9, .list [.int 6, .list [.int 4, .none], .int 4, .list [.int 6, .none]]]).map (fun t => (IntegerTree.largestCategories (countOf [1, 1, 1, 2, 2, 2, 3, 3, 3, 4]) (TreeAuction.sizeAt cats) t.forest).2.2) = .ok [4, 6] := by decide +kernel

/-- `recipetree_integer.py:565` -/
example : let cats : List AgentCategory := [⟨"0", []⟩, ⟨"1", [1]⟩, ⟨"2", [1, 1]⟩, ⟨"3", [1, 1, 1]⟩, ⟨"4", [1, 1, 1, 1]⟩, ⟨"5", [1, 1, 1, 1, 1]⟩, ⟨"6", [1, 1, 1, 1, 1, 1]⟩, ⟨"7", [1, 1, 1, 1, 1, 1, 1]⟩, ⟨"8", [1, 1, 1, 1, 1, 1, 1, 1]⟩, ⟨"9", [1, 1, 1, 1, 1, 1, 1, 1, 1]⟩]
    (RecipeTree.init 10 [.int 6, .list [.int 0, .none, .int 6, .none]]).map (fun t => IntegerTree.largestCategories (countOf [1, 1, 1, 2, 2, 2, 3, 3, 3, 4]) (TreeAuction.sizeAt cats) t.forest) = .ok (2, 2, [0, 6]) := by decide +kernel

/-- `recipetree_integer.py:567` -/
example : let cats : List AgentCategory := [⟨"0", []⟩, ⟨"1", [1]⟩, ⟨"2", [1, 1]⟩, ⟨"3", [1, 1, 1]⟩, ⟨"4", [1, 1, 1, 1]⟩, ⟨"5", [1, 1, 1, 1, 1]⟩, ⟨"6", [1, 1, 1, 1, 1, 1]⟩, ⟨"7", [1, 1, 1, 1, 1, 1, 1]⟩, ⟨"8", [1, 1, 1, 1, 1, 1, 1, 1]⟩, ⟨"9", [1, 1, 1, 1, 1, 1, 1, 1, 1]⟩]
    (RecipeTree.init 10 [.int 6, .list [.int 6, .none, .int 0, .none]]).map (fun t => IntegerTree.largestCategories (countOf [1, 1, 1, 2, 2, 2, 3, 3, 3, 4]) (TreeAuction.sizeAt cats) t.forest) = .ok (2, 2, [6, 0]) := by decide +kernel

/-- `recipetree_integer.py:572` -/
example : let cats : List AgentCategory := [⟨"0", [22, 11]⟩, ⟨"1", [22, 11]⟩, ⟨"2", [22, 11]⟩, ⟨"3", [22, 11]⟩, ⟨"4", [22, 11]⟩, ⟨"5", [22, 11]⟩, ⟨"6", [22, 11]⟩, ⟨"7", [22, 11]⟩, ⟨"8", [22, 11]⟩, ⟨"9", [22, 11]⟩]
    (RecipeTree.init 10 [.int 0, .list [.int 1, .list [.int 2, .list [.int 3, .list [.int 4, .none]]]]]).map (fun t => (IntegerTree.largestCategories (countOf []) (TreeAuction.sizeAt cats) t.forest).2.2) = .ok [4] := by decide +kernel

/-- `recipetree_integer.py:575` -/
example : let cats : List AgentCategory := [⟨"0", [22, 11]⟩, ⟨"1", [22, 11]⟩, ⟨"2", [22, 11]⟩, ⟨"3", [22, 11]⟩, ⟨"4", [22]⟩, ⟨"5", [22, 11]⟩, ⟨"6", [22, 11]⟩, ⟨"7", [22, 11]⟩, ⟨"8", [22, 11]⟩, ⟨"9", [22, 11]⟩]
    (RecipeTree.init 10 [.int 0, .list [.int 1, .list [.int 2, .list [.int 3, .list [.int 4, .none]]]]]).map (fun t => (IntegerTree.largestCategories (countOf []) (TreeAuction.sizeAt cats) t.forest).2.2) = .ok [3] := by decide +kernel

/-- `recipetree_integer.py:578` -/
example : let cats : List AgentCategory := [⟨"0", [22, 11]⟩, ⟨"1", [22, 11]⟩, ⟨"2", [22, 11]⟩, ⟨"3", [22]⟩, ⟨"4", [22]⟩, ⟨"5", [22, 11]⟩, ⟨"6", [22, 11]⟩, ⟨"7", [22, 11]⟩, ⟨"8", [22, 11]⟩, ⟨"9", [22, 11]⟩]
    (RecipeTree.init 10 [.int 0, .list [.int 1, .list [.int 2, .list [.int 3, .list [.int 4, .none]]]]]).map (fun t => (IntegerTree.largestCategories (countOf []) (TreeAuction.sizeAt cats) t.forest).2.2) = .ok [2] := by decide +kernel

/-- `recipetree_integer.py:581` -/
example : let cats : List AgentCategory := [⟨"0", [22, 11]⟩, ⟨"1", [22, 11]⟩, ⟨"2", [22]⟩, ⟨"3", [22]⟩, ⟨"4", [22]⟩, ⟨"5", [22, 11]⟩, ⟨"6", [22, 11]⟩, ⟨"7", [22, 11]⟩, ⟨"8", [22, 11]⟩, ⟨"9", [22, 11]⟩]
    (RecipeTree.init 10 [.int 0, .list [.int 1, .list [.int 2, .list [.int 3, .list [.int 4, .none]]]]]).map (fun t => (IntegerTree.largestCategories (countOf []) (TreeAuction.sizeAt cats) t.forest).2.2) = .ok [1] := by decide +kernel

/-- `recipetree_integer.py:584` -/
example : let cats : List AgentCategory := [⟨"0", [22, 11]⟩, ⟨"1", [22]⟩, ⟨"2", [22]⟩, ⟨"3", [22]⟩, ⟨"4", [22]⟩, ⟨"5", [22, 11]⟩, ⟨"6", [22, 11]⟩, ⟨"7", [22, 11]⟩, ⟨"8", [22, 11]⟩, ⟨"9", [22, 11]⟩]
    (RecipeTree.init 10 [.int 0, .list [.int 1, .list [.int 2, .list [.int 3, .list [.int 4, .none]]]]]).map (fun t => (IntegerTree.largestCategories (countOf []) (TreeAuction.sizeAt cats) t.forest).2.2) = .ok [0] := by decide +kernel

/-- `recipetree_integer.py:587` -/
example : let cats : List AgentCategory := [⟨"0", [22]⟩, ⟨"1", [22]⟩, ⟨"2", [22]⟩, ⟨"3", [22]⟩, ⟨"4", [22]⟩, ⟨"5", [22, 11]⟩, ⟨"6", [22, 11]⟩, ⟨"7", [22, 11]⟩, ⟨"8", [22, 11]⟩, ⟨"9", [22, 11]⟩]
    (RecipeTree.init 10 [.int 0, .list [.int 1, .list [.int 2, .list [.int 3, .list [.int 4, .none]]]]]).map (fun t => (IntegerTree.largestCategories (countOf []) (TreeAuction.sizeAt cats) t.forest).2.2) = .ok [4] := by decide +kernel

/-- `recipetree_integer.py:592` -/
example : let cats : List AgentCategory := [⟨"0", [22, 11]⟩, ⟨"1", [22, 11]⟩, ⟨"2", [22, 11]⟩, ⟨"3", [22, 11]⟩, ⟨"4", [22, 11]⟩, ⟨"5", [22, 11]⟩, ⟨"6", [22, 11]⟩, ⟨"7", [22, 11]⟩, ⟨"8", [22, 11]⟩, ⟨"9", [22, 11]⟩]
    (RecipeTree.init 10 [.int 0, .list [.int 1, .list [.int 2, .list [.int 3, .list [.int 4, .none]]]]]).map (fun t => (IntegerTree.largestCategories (countOf [1, 2, 1, 2, 1, 1, 1, 1, 1, 1]) (TreeAuction.sizeAt cats) t.forest).2.2) = .ok [0] := by decide +kernel

/-- `recipetree_integer.py:595` -/
example : let cats : List AgentCategory := [⟨"0", [22]⟩, ⟨"1", [22, 11]⟩, ⟨"2", [22, 11]⟩, ⟨"3", [22, 11]⟩, ⟨"4", [22, 11]⟩, ⟨"5", [22, 11]⟩, ⟨"6", [22, 11]⟩, ⟨"7", [22, 11]⟩, ⟨"8", [22, 11]⟩, ⟨"9", [22, 11]⟩]
    (RecipeTree.init 10 [.int 0, .list [.int 1, .list [.int 2, .list [.int 3, .list [.int 4, .none]]]]]).map (fun t => (IntegerTree.largestCategories (countOf [1, 2, 1, 2, 1, 1, 1, 1, 1, 1]) (TreeAuction.sizeAt cats) t.forest).2.2) = .ok [2] := by decide +kernel

/-- `recipetree_integer.py:598` -/
example : let cats : List AgentCategory := [⟨"0", [22]⟩, ⟨"1", [22, 11]⟩, ⟨"2", [22]⟩, ⟨"3", [22, 11]⟩, ⟨"4", [22, 11]⟩, ⟨"5", [22, 11]⟩, ⟨"6", [22, 11]⟩, ⟨"7", [22, 11]⟩, ⟨"8", [22, 11]⟩, ⟨"9", [22, 11]⟩]
    (RecipeTree.init 10 [.int 0, .list [.int 1, .list [.int 2, .list [.int 3, .list [.int 4, .none]]]]]).map (fun t => (IntegerTree.largestCategories (countOf [1, 2, 1, 2, 1, 1, 1, 1, 1, 1]) (TreeAuction.sizeAt cats) t.forest).2.2) = .ok [4] := by decide +kernel

/-- `recipetree_integer.py:601` -/
example : let cats : List AgentCategory := [⟨"0", [22]⟩, ⟨"1", [22, 11]⟩, ⟨"2", [22]⟩, ⟨"3", [22, 11]⟩, ⟨"4", [22]⟩, ⟨"5", [22, 11]⟩, ⟨"6", [22, 11]⟩, ⟨"7", [22, 11]⟩, ⟨"8", [22, 11]⟩, ⟨"9", [22, 11]⟩]
    (RecipeTree.init 10 [.int 0, .list [.int 1, .list [.int 2, .list [.int 3, .list [.int 4, .none]]]]]).map (fun t => (IntegerTree.largestCategories (countOf [1, 2, 1, 2, 1, 1, 1, 1, 1, 1]) (TreeAuction.sizeAt cats) t.forest).2.2) = .ok [4] := by decide +kernel

/-- `recipetree_integer.py:604` -/
example : let cats : List AgentCategory := [⟨"0", [22]⟩, ⟨"1", [22, 11]⟩, ⟨"2", [22]⟩, ⟨"3", [22, 11]⟩, ⟨"4", []⟩, ⟨"5", [22, 11]⟩, ⟨"6", [22, 11]⟩, ⟨"7", [22, 11]⟩, ⟨"8", [22, 11]⟩, ⟨"9", [22, 11]⟩]
    (RecipeTree.init 10 [.int 0, .list [.int 1, .list [.int 2, .list [.int 3, .list [.int 4, .none]]]]]).map (fun t => (IntegerTree.largestCategories (countOf [1, 2, 1, 2, 1, 1, 1, 1, 1, 1]) (TreeAuction.sizeAt cats) t.forest).2.2) = .ok [3] := by decide +kernel

/-- `recipetree_integer.py:607` -/
example : let cats : List AgentCategory := [⟨"0", [22]⟩, ⟨"1", [22, 11]⟩, ⟨"2", [22]⟩, ⟨"3", [22]⟩, ⟨"4", []⟩, ⟨"5", [22, 11]⟩, ⟨"6", [22, 11]⟩, ⟨"7", [22, 11]⟩, ⟨"8", [22, 11]⟩, ⟨"9", [22, 11]⟩]
    (RecipeTree.init 10 [.int 0, .list [.int 1, .list [.int 2, .list [.int 3, .list [.int 4, .none]]]]]).map (fun t => (IntegerTree.largestCategories (countOf [1, 2, 1, 2, 1, 1, 1, 1, 1, 1]) (TreeAuction.sizeAt cats) t.forest).2.2) = .ok [3] := by decide +kernel

end Auctions.Fidelity
