import Verif.Model.Reports
import Verif.Model.TreeAuction
import Verif.Model.RecipeTreeInteger

set_option autoImplicit false

/-!
# The doctests of `recipetree.py`, run on the model

Generated by `/verif/tools/doctests.py`. The names of categories in the expected results are replaced by their indices.
Tests of the model, not proofs of properties.
-/

namespace Auctions.Fidelity

open IntegerTree (countOf)

/-- `recipetree.py:41` -/
example : let cats : List AgentCategory := [⟨"buyer", [60, 40, 20, (-30)]⟩, ⟨"seller", [(-10), (-30), (-50)]⟩, ⟨"producerA", [(-1), (-3), (-5)]⟩, ⟨"producerB", [(-2), (-4), (-6), (-8)]⟩]
    (RecipeTree.init 4 [.int 0, .none]).map (fun t => t.combinedValues (TreeAuction.valuesAt cats)) = .ok [60, 40, 20, (-30)] := by decide +kernel

/-- `recipetree.py:43` -/
example : let cats : List AgentCategory := [⟨"buyer", [60, 40, 20, (-30)]⟩, ⟨"seller", [(-10), (-30), (-50)]⟩, ⟨"producerA", [(-1), (-3), (-5)]⟩, ⟨"producerB", [(-2), (-4), (-6), (-8)]⟩]
    (RecipeTree.init 4 [.int 0, .none]).map (fun t => (t.combinedValuesDetailed (TreeAuction.valuesAt cats)).map Forest.Item.flat) = .ok [[60], [40], [20], [(-30)]] := by decide +kernel

/-- `recipetree.py:45` -/
example : let cats : List AgentCategory := [⟨"buyer", [60, 40, 20, (-30)]⟩, ⟨"seller", [(-10), (-30), (-50)]⟩, ⟨"producerA", [(-1), (-3), (-5)]⟩, ⟨"producerB", [(-2), (-4), (-6), (-8)]⟩]
    (RecipeTree.init 4 [.int 0, .none]).map (fun t => t.optimalTradeGFT (TreeAuction.valuesAt cats)) = .ok 120 := by decide +kernel

/-- `recipetree.py:47` -/
example : let cats : List AgentCategory := [⟨"buyer", [60, 40, 20, (-30)]⟩, ⟨"seller", [(-10), (-30), (-50)]⟩, ⟨"producerA", [(-1), (-3), (-5)]⟩, ⟨"producerB", [(-2), (-4), (-6), (-8)]⟩]
    (RecipeTree.init 4 [.int 0, .none]).map (fun t => (t.largestCategories (TreeAuction.sizeAt cats)).2.2) = .ok [0] := by decide +kernel

/-- `recipetree.py:49` -/
example : let cats : List AgentCategory := [⟨"buyer", [60, 40, 20, (-30)]⟩, ⟨"seller", [(-10), (-30), (-50)]⟩, ⟨"producerA", [(-1), (-3), (-5)]⟩, ⟨"producerB", [(-2), (-4), (-6), (-8)]⟩]
    (RecipeTree.init 4 [.int 0, .none]).map (fun t => t.pathsToLeaf) = .ok [[0]] := by decide +kernel

/-- `recipetree.py:51` -/
example : let cats : List AgentCategory := [⟨"buyer", [60, 40, 20, (-30)]⟩, ⟨"seller", [(-10), (-30), (-50)]⟩, ⟨"producerA", [(-1), (-3), (-5)]⟩, ⟨"producerB", [(-2), (-4), (-6), (-8)]⟩]
    (RecipeTree.init 4 [.int 0, .none]).map (fun t => t.numOfDeals (TreeAuction.sizeAt cats)) = .ok 4 := by decide +kernel

/-- `recipetree.py:53` -/
example : (RecipeTree.init 4 [.int 0, .none] >>= fun t => (t.explained (TreeAuction.sizeAt [⟨"buyer", [60, 40, 20, (-30)]⟩, ⟨"seller", [(-10), (-30), (-50)]⟩, ⟨"producerA", [(-1), (-3), (-5)]⟩, ⟨"producerB", [(-2), (-4), (-6), (-8)]⟩]) [1, 2, 3, 4]).map (·.2.1)) =
    .ok [.potential 0 4 1, .overall 4] := by decide +kernel

/-- `recipetree.py:59` -/
example : let cats : List AgentCategory := [⟨"buyer", [60, 40, 20, (-30)]⟩, ⟨"seller", [(-10), (-30), (-50)]⟩, ⟨"producerA", [(-1), (-3), (-5)]⟩, ⟨"producerB", [(-2), (-4), (-6), (-8)]⟩]
    (RecipeTree.init 4 [.int 0, .list [.int 1, .none]]).map (fun t => t.combinedValues (TreeAuction.valuesAt cats)) = .ok [50, 10, (-30)] := by decide +kernel

/-- `recipetree.py:61` -/
example : let cats : List AgentCategory := [⟨"buyer", [60, 40, 20, (-30)]⟩, ⟨"seller", [(-10), (-30), (-50)]⟩, ⟨"producerA", [(-1), (-3), (-5)]⟩, ⟨"producerB", [(-2), (-4), (-6), (-8)]⟩]
    (RecipeTree.init 4 [.int 0, .list [.int 1, .none]]).map (fun t => (t.combinedValuesDetailed (TreeAuction.valuesAt cats)).map Forest.Item.flat) = .ok [[60, (-10)], [40, (-30)], [20, (-50)]] := by decide +kernel

/-- `recipetree.py:63` -/
example : let cats : List AgentCategory := [⟨"buyer", [60, 40, 20, (-30)]⟩, ⟨"seller", [(-10), (-30), (-50)]⟩, ⟨"producerA", [(-1), (-3), (-5)]⟩, ⟨"producerB", [(-2), (-4), (-6), (-8)]⟩]
    (RecipeTree.init 4 [.int 0, .list [.int 1, .none]]).map (fun t => t.optimalTradeGFT (TreeAuction.valuesAt cats)) = .ok 60 := by decide +kernel

/-- `recipetree.py:65` -/
example : let cats : List AgentCategory := [⟨"buyer", [60, 40, 20, (-30)]⟩, ⟨"seller", [(-10), (-30), (-50)]⟩, ⟨"producerA", [(-1), (-3), (-5)]⟩, ⟨"producerB", [(-2), (-4), (-6), (-8)]⟩]
    (RecipeTree.init 4 [.int 0, .list [.int 1, .none]]).map (fun t => (t.largestCategories (TreeAuction.sizeAt cats)).2.2) = .ok [0] := by decide +kernel

/-- `recipetree.py:67` -/
example : let cats : List AgentCategory := [⟨"buyer", [60, 40, 20, (-30)]⟩, ⟨"seller", [(-10), (-30), (-50)]⟩, ⟨"producerA", [(-1), (-3), (-5)]⟩, ⟨"producerB", [(-2), (-4), (-6), (-8)]⟩]
    (RecipeTree.init 4 [.int 0, .list [.int 1, .none]]).map (fun t => t.pathsToLeaf) = .ok [[0, 1]] := by decide +kernel

/-- `recipetree.py:69` -/
example : let cats : List AgentCategory := [⟨"buyer", [60, 40, 20, (-30)]⟩, ⟨"seller", [(-10), (-30), (-50)]⟩, ⟨"producerA", [(-1), (-3), (-5)]⟩, ⟨"producerB", [(-2), (-4), (-6), (-8)]⟩]
    (RecipeTree.init 4 [.int 0, .list [.int 1, .none]]).map (fun t => t.numOfDeals (TreeAuction.sizeAt cats)) = .ok 3 := by decide +kernel

/-- `recipetree.py:71` -/
example : (RecipeTree.init 4 [.int 0, .list [.int 1, .none]] >>= fun t => (t.explained (TreeAuction.sizeAt [⟨"buyer", [60, 40, 20, (-30)]⟩, ⟨"seller", [(-10), (-30), (-50)]⟩, ⟨"producerA", [(-1), (-3), (-5)]⟩, ⟨"producerB", [(-2), (-4), (-6), (-8)]⟩]) [1, 2, 3, 4]).map (·.2.1)) =
    .ok [.potential 1 3 2, .someTraders 0 3 4 1, .allOf [1] 3, .overall 3] := by decide +kernel

/-- `recipetree.py:79` -/
example : let cats : List AgentCategory := [⟨"buyer", [60, 40, 20, (-30)]⟩, ⟨"seller", [(-10), (-30), (-50)]⟩, ⟨"producerA", [(-1), (-3), (-5)]⟩, ⟨"producerB", [(-2), (-4), (-6), (-8)]⟩]
    (RecipeTree.init 4 [.int 0, .list [.int 2, .none, .int 3, .none]]).map (fun t => t.combinedValues (TreeAuction.valuesAt cats)) = .ok [59, 38, 17, (-34)] := by decide +kernel

/-- `recipetree.py:81` -/
example : let cats : List AgentCategory := [⟨"buyer", [60, 40, 20, (-30)]⟩, ⟨"seller", [(-10), (-30), (-50)]⟩, ⟨"producerA", [(-1), (-3), (-5)]⟩, ⟨"producerB", [(-2), (-4), (-6), (-8)]⟩]
    (RecipeTree.init 4 [.int 0, .list [.int 2, .none, .int 3, .none]]).map (fun t => (t.combinedValuesDetailed (TreeAuction.valuesAt cats)).map Forest.Item.flat) = .ok [[60, (-1)], [40, (-2)], [20, (-3)], [(-30), (-4)]] := by decide +kernel

/-- `recipetree.py:83` -/
example : let cats : List AgentCategory := [⟨"buyer", [60, 40, 20, (-30)]⟩, ⟨"seller", [(-10), (-30), (-50)]⟩, ⟨"producerA", [(-1), (-3), (-5)]⟩, ⟨"producerB", [(-2), (-4), (-6), (-8)]⟩]
    (RecipeTree.init 4 [.int 0, .list [.int 2, .none, .int 3, .none]]).map (fun t => t.optimalTradeGFT (TreeAuction.valuesAt cats)) = .ok 114 := by decide +kernel

/-- `recipetree.py:85` -/
example : let cats : List AgentCategory := [⟨"buyer", [60, 40, 20, (-30)]⟩, ⟨"seller", [(-10), (-30), (-50)]⟩, ⟨"producerA", [(-1), (-3), (-5)]⟩, ⟨"producerB", [(-2), (-4), (-6), (-8)]⟩]
    (RecipeTree.init 4 [.int 0, .list [.int 2, .none, .int 3, .none]]).map (fun t => (t.largestCategories (TreeAuction.sizeAt cats)).2.2) = .ok [2, 3] := by decide +kernel

/-- `recipetree.py:87` -/
example : let cats : List AgentCategory := [⟨"buyer", [60, 40, 20, (-30)]⟩, ⟨"seller", [(-10), (-30), (-50)]⟩, ⟨"producerA", [(-1), (-3), (-5)]⟩, ⟨"producerB", [(-2), (-4), (-6), (-8)]⟩]
    (RecipeTree.init 4 [.int 0, .list [.int 2, .none, .int 3, .none]]).map (fun t => t.pathsToLeaf) = .ok [[0, 2], [0, 3]] := by decide +kernel

/-- `recipetree.py:89` -/
example : (RecipeTree.init 4 [.int 0, .list [.int 2, .none, .int 3, .none]] >>= fun t => t.recipes 4) = .ok [[1, 0, 1, 0], [1, 0, 0, 1]] := by decide +kernel

/-- `recipetree.py:91` -/
example : let cats : List AgentCategory := [⟨"buyer", [60, 40, 20, (-30)]⟩, ⟨"seller", [(-10), (-30), (-50)]⟩, ⟨"producerA", [(-1), (-3), (-5)]⟩, ⟨"producerB", [(-2), (-4), (-6), (-8)]⟩]
    (RecipeTree.init 4 [.int 0, .list [.int 2, .none, .int 3, .none]]).map (fun t => t.numOfDeals (TreeAuction.sizeAt cats)) = .ok 4 := by decide +kernel

/-- `recipetree.py:93` -/
example : (RecipeTree.init 4 [.int 0, .list [.int 2, .none, .int 3, .none]] >>= fun t => (t.explained (TreeAuction.sizeAt [⟨"buyer", [60, 40, 20, (-30)]⟩, ⟨"seller", [(-10), (-30), (-50)]⟩, ⟨"producerA", [(-1), (-3), (-5)]⟩, ⟨"producerB", [(-2), (-4), (-6), (-8)]⟩]) [1, 2, 3, 4]).map (·.2.1)) =
    .ok [.potential 2 3 3, .potential 3 4 4, .allTraders 0 4 1, .someOf [2, 3] 4 7, .overall 4] := by decide +kernel

/-- `recipetree.py:103` -/
example : let cats : List AgentCategory := [⟨"buyer", [60, 40, 20, (-30)]⟩, ⟨"seller", [(-10), (-30), (-50)]⟩, ⟨"producerA", [(-1), (-3), (-5)]⟩, ⟨"producerB", [(-2), (-4), (-6), (-8)]⟩]
    (RecipeTree.init 4 [.int 0, .list [.int 1, .none, .int 2, .list [.int 3, .none]]]).map (fun t => t.combinedValues (TreeAuction.valuesAt cats)) = .ok [57, 33, 10, (-41)] := by decide +kernel

/-- `recipetree.py:105` -/
example : let cats : List AgentCategory := [⟨"buyer", [60, 40, 20, (-30)]⟩, ⟨"seller", [(-10), (-30), (-50)]⟩, ⟨"producerA", [(-1), (-3), (-5)]⟩, ⟨"producerB", [(-2), (-4), (-6), (-8)]⟩]
    (RecipeTree.init 4 [.int 0, .list [.int 1, .none, .int 2, .list [.int 3, .none]]]).map (fun t => (t.combinedValuesDetailed (TreeAuction.valuesAt cats)).map Forest.Item.flat) = .ok [[60, (-1), (-2)], [40, (-3), (-4)], [20, (-10)], [(-30), (-5), (-6)]] := by decide +kernel

/-- `recipetree.py:107` -/
example : let cats : List AgentCategory := [⟨"buyer", [60, 40, 20, (-30)]⟩, ⟨"seller", [(-10), (-30), (-50)]⟩, ⟨"producerA", [(-1), (-3), (-5)]⟩, ⟨"producerB", [(-2), (-4), (-6), (-8)]⟩]
    (RecipeTree.init 4 [.int 0, .list [.int 1, .none, .int 2, .list [.int 3, .none]]]).map (fun t => t.optimalTradeGFT (TreeAuction.valuesAt cats)) = .ok 100 := by decide +kernel

/-- `recipetree.py:109` -/
example : let cats : List AgentCategory := [⟨"buyer", [60, 40, 20, (-30)]⟩, ⟨"seller", [(-10), (-30), (-50)]⟩, ⟨"producerA", [(-1), (-3), (-5)]⟩, ⟨"producerB", [(-2), (-4), (-6), (-8)]⟩]
    (RecipeTree.init 4 [.int 0, .list [.int 1, .none, .int 2, .list [.int 3, .none]]]).map (fun t => (t.largestCategories (TreeAuction.sizeAt cats)).2.2) = .ok [1, 3] := by decide +kernel

/-- `recipetree.py:111` -/
example : let cats : List AgentCategory := [⟨"buyer", [60, 40, 20, (-30)]⟩, ⟨"seller", [(-10), (-30), (-50)]⟩, ⟨"producerA", [(-1), (-3), (-5)]⟩, ⟨"producerB", [(-2), (-4), (-6), (-8)]⟩]
    (RecipeTree.init 4 [.int 0, .list [.int 1, .none, .int 2, .list [.int 3, .none]]]).map (fun t => (t.largestCategories (TreeAuction.sizeAt cats)).2.2) = .ok [1, 3] := by decide +kernel

/-- `recipetree.py:113` -/
example : let cats : List AgentCategory := [⟨"buyer", [60, 40, 20, (-30)]⟩, ⟨"seller", [(-10), (-30), (-50)]⟩, ⟨"producerA", [(-1), (-3), (-5)]⟩, ⟨"producerB", [(-2), (-4), (-6), (-8)]⟩]
    (RecipeTree.init 4 [.int 0, .list [.int 1, .none, .int 2, .list [.int 3, .none]]]).map (fun t => t.pathsToLeaf) = .ok [[0, 1], [0, 2, 3]] := by decide +kernel

/-- `recipetree.py:115` -/
example : let cats : List AgentCategory := [⟨"buyer", [60, 40, 20, (-30)]⟩, ⟨"seller", [(-10), (-30), (-50)]⟩, ⟨"producerA", [(-1), (-3), (-5)]⟩, ⟨"producerB", [(-2), (-4), (-6), (-8)]⟩]
    (RecipeTree.init 4 [.int 0, .list [.int 1, .none, .int 2, .list [.int 3, .none]]]).map (fun t => t.pathsToLeaf) = .ok [[0, 1], [0, 2, 3]] := by decide +kernel

/-- `recipetree.py:117` -/
example : (RecipeTree.init 4 [.int 0, .list [.int 1, .none, .int 2, .list [.int 3, .none]]] >>= fun t => t.recipes 4) = .ok [[1, 1, 0, 0], [1, 0, 1, 1]] := by decide +kernel

/-- `recipetree.py:119` -/
example : let cats : List AgentCategory := [⟨"buyer", [60, 40, 20, (-30)]⟩, ⟨"seller", [(-10), (-30), (-50)]⟩, ⟨"producerA", [(-1), (-3), (-5)]⟩, ⟨"producerB", [(-2), (-4), (-6), (-8)]⟩]
    (RecipeTree.init 4 [.int 0, .list [.int 1, .none, .int 2, .list [.int 3, .none]]]).map (fun t => t.numOfDeals (TreeAuction.sizeAt cats)) = .ok 4 := by decide +kernel

/-- `recipetree.py:121` -/
example : (RecipeTree.init 4 [.int 0, .list [.int 1, .none, .int 2, .list [.int 3, .none]]] >>= fun t => (t.explained (TreeAuction.sizeAt [⟨"buyer", [60, 40, 20, (-30)]⟩, ⟨"seller", [(-10), (-30), (-50)]⟩, ⟨"producerA", [(-1), (-3), (-5)]⟩, ⟨"producerB", [(-2), (-4), (-6), (-8)]⟩]) [1, 2, 3, 4]).map (·.2.1)) =
    .ok [.potential 1 3 2, .potential 3 4 4, .allTraders 2 3 3, .someOf [3] 3 4, .allTraders 0 4 1, .someOf [1, 2] 4 6, .overall 4] := by decide +kernel

/-- `recipetree.py:137` -/
example : let cats : List AgentCategory := [⟨"buyer", [90, 80, 70, 60, 50, 40]⟩, ⟨"seller", [(-10), (-30), (-50)]⟩, ⟨"producerA", [(-1), (-3), (-5), (-7)]⟩, ⟨"producerB", [(-2), (-4)]⟩]
    (RecipeTree.init 4 [.int 0, .list [.int 1, .none, .int 2, .list [.int 3, .none]]]).map (fun t => (t.combinedValuesDetailed (TreeAuction.valuesAt cats)).map Forest.Item.flat) = .ok [[90, (-1), (-2)], [80, (-3), (-4)], [70, (-10)], [60, (-30)], [50, (-50)]] := by decide +kernel

/-- `recipetree.py:139` -/
example : let cats : List AgentCategory := [⟨"buyer", [90, 80, 70, 60, 50, 40]⟩, ⟨"seller", [(-10), (-30), (-50)]⟩, ⟨"producerA", [(-1), (-3), (-5), (-7)]⟩, ⟨"producerB", [(-2), (-4)]⟩]
    (RecipeTree.init 4 [.int 0, .list [.int 1, .none, .int 2, .list [.int 3, .none]]]).map (fun t => t.combinedValues (TreeAuction.valuesAt cats)) = .ok [87, 73, 60, 30, 0] := by decide +kernel

/-- `recipetree.py:141` -/
example : let cats : List AgentCategory := [⟨"buyer", [90, 80, 70, 60, 50, 40]⟩, ⟨"seller", [(-10), (-30), (-50)]⟩, ⟨"producerA", [(-1), (-3), (-5), (-7)]⟩, ⟨"producerB", [(-2), (-4)]⟩]
    (RecipeTree.init 4 [.int 0, .list [.int 1, .none, .int 2, .list [.int 3, .none]]]).map (fun t => t.optimalTradeGFT (TreeAuction.valuesAt cats)) = .ok 250 := by decide +kernel

/-- `recipetree.py:143` -/
example : let cats : List AgentCategory := [⟨"buyer", [90, 80, 70, 60, 50, 40]⟩, ⟨"seller", [(-10), (-30), (-50)]⟩, ⟨"producerA", [(-1), (-3), (-5), (-7)]⟩, ⟨"producerB", [(-2), (-4)]⟩]
    (RecipeTree.init 4 [.int 0, .list [.int 1, .none, .int 2, .list [.int 3, .none]]]).map (fun t => t.numOfDeals (TreeAuction.sizeAt cats)) = .ok 5 := by decide +kernel

/-- `recipetree.py:145` -/
example : let cats : List AgentCategory := [⟨"buyer", [90, 80, 70, 60, 50, 40]⟩, ⟨"seller", [(-10), (-30), (-50)]⟩, ⟨"producerA", [(-1), (-3), (-5), (-7)]⟩, ⟨"producerB", [(-2), (-4)]⟩]
    (RecipeTree.init 4 [.int 0, .list [.int 1, .none, .int 2, .list [.int 3, .none]]]).map (fun t => (t.largestCategories (TreeAuction.sizeAt cats)).2.2) = .ok [1, 2] := by decide +kernel

/-- `recipetree.py:150` -/
example : let cats : List AgentCategory := [⟨"buyer", [90, 80, 70, 60, 50, 40]⟩, ⟨"seller", [(-10), (-30), (-50)]⟩, ⟨"producerA", [(-1), (-3), (-5), (-7), (-9), (-11), (-13)]⟩, ⟨"producerB", [(-2), (-4), (-6), (-8), (-10)]⟩]
    (RecipeTree.init 4 [.int 0, .list [.int 1, .none, .int 2, .list [.int 3, .none]]]).map (fun t => (t.largestCategories (TreeAuction.sizeAt cats)).2.2) = .ok [1, 2] := by decide +kernel

/-- `recipetree.py:205` -/
example : RecipeTree.recipeFromPath [0, 2, 3] 5 = .ok [1, 0, 1, 1, 0] := by decide +kernel

/-- `recipetree.py:208` -/
example : IntegerTree.recipeFromPath [0, 2, 3] 5 [1, 2, 3, 2, 1] = .ok [1, 0, 3, 2, 0] := by decide +kernel

/-- `recipetree.py:351` -/
example : let cats : List AgentCategory := [⟨"0", []⟩, ⟨"1", [1]⟩, ⟨"2", [1, 1]⟩, ⟨"3", [1, 1, 1]⟩, ⟨"4", [1, 1, 1, 1]⟩, ⟨"5", [1, 1, 1, 1, 1]⟩, ⟨"6", [1, 1, 1, 1, 1, 1]⟩, ⟨"7", [1, 1, 1, 1, 1, 1, 1]⟩, ⟨"8", [1, 1, 1, 1, 1, 1, 1, 1]⟩, ⟨"9", [1, 1, 1, 1, 1, 1, 1, 1, 1]⟩]
    (RecipeTree.init 10 [.int 6, .none]).map (fun t => t.largestCategories (TreeAuction.sizeAt cats)) = .ok (6, 6, [6]) := by decide +kernel

/-- `recipetree.py:353` -/
example : let cats : List AgentCategory := [⟨"0", []⟩, ⟨"1", [1]⟩, ⟨"2", [1, 1]⟩, ⟨"3", [1, 1, 1]⟩, ⟨"4", [1, 1, 1, 1]⟩, ⟨"5", [1, 1, 1, 1, 1]⟩, ⟨"6", [1, 1, 1, 1, 1, 1]⟩, ⟨"7", [1, 1, 1, 1, 1, 1, 1]⟩, ⟨"8", [1, 1, 1, 1, 1, 1, 1, 1]⟩, ⟨"9", [1, 1, 1, 1, 1, 1, 1, 1, 1]⟩]
    (RecipeTree.init 10 [.int 6, .list [.int 8, .none]]).map (fun t => (t.largestCategories (TreeAuction.sizeAt cats)).2.2) = .ok [8] := by decide +kernel

/-- `recipetree.py:355` -/
example : let cats : List AgentCategory := [⟨"0", []⟩, ⟨"1", [1]⟩, ⟨"2", [1, 1]⟩, ⟨"3", [1, 1, 1]⟩, ⟨"4", [1, 1, 1, 1]⟩, ⟨"5", [1, 1, 1, 1, 1]⟩, ⟨"6", [1, 1, 1, 1, 1, 1]⟩, ⟨"7", [1, 1, 1, 1, 1, 1, 1]⟩, ⟨"8", [1, 1, 1, 1, 1, 1, 1, 1]⟩, ⟨"9", [1, 1, 1, 1, 1, 1, 1, 1, 1]⟩]
    (RecipeTree.init 10 [.int 8, .list [.int 6, .none]]).map (fun t => (t.largestCategories (TreeAuction.sizeAt cats)).2.2) = .ok [8] := by decide +kernel

/-- `recipetree.py:357` -/
example : let cats : List AgentCategory := [⟨"0", []⟩, ⟨"1", [1]⟩, ⟨"2", [1, 1]⟩, ⟨"3", [1, 1, 1]⟩, ⟨"4", [1, 1, 1, 1]⟩, ⟨"5", [1, 1, 1, 1, 1]⟩, ⟨"6", [1, 1, 1, 1, 1, 1]⟩, ⟨"7", [1, 1, 1, 1, 1, 1, 1]⟩, ⟨"8", [1, 1, 1, 1, 1, 1, 1, 1]⟩, ⟨"9", [1, 1, 1, 1, 1, 1, 1, 1, 1]⟩]
    (RecipeTree.init 10 [.int 6, .list [.int 8, .list [.int 7, .none]]]).map (fun t => (t.largestCategories (TreeAuction.sizeAt cats)).2.2) = .ok [8] := by decide +kernel

/-- `recipetree.py:359` -/
example : let cats : List AgentCategory := [⟨"0", []⟩, ⟨"1", [1]⟩, ⟨"2", [1, 1]⟩, ⟨"3", [1, 1, 1]⟩, ⟨"4", [1, 1, 1, 1]⟩, ⟨"5", [1, 1, 1, 1, 1]⟩, ⟨"6", [1, 1, 1, 1, 1, 1]⟩, ⟨"7", [1, 1, 1, 1, 1, 1, 1]⟩, ⟨"8", [1, 1, 1, 1, 1, 1, 1, 1]⟩, ⟨"9", [1, 1, 1, 1, 1, 1, 1, 1, 1]⟩]
    (RecipeTree.init 10 [.int 7, .list [.int 8, .list [.int 6, .none]]]).map (fun t => (t.largestCategories (TreeAuction.sizeAt cats)).2.2) ≠ .ok [6] := by decide +kernel

/-- `recipetree.py:361` -/
example : let cats : List AgentCategory := [⟨"0", []⟩, ⟨"1", [1]⟩, ⟨"2", [1, 1]⟩, ⟨"3", [1, 1, 1]⟩, ⟨"4", [1, 1, 1, 1]⟩, ⟨"5", [1, 1, 1, 1, 1]⟩, ⟨"6", [1, 1, 1, 1, 1, 1]⟩, ⟨"7", [1, 1, 1, 1, 1, 1, 1]⟩, ⟨"8", [1, 1, 1, 1, 1, 1, 1, 1]⟩, ⟨"9", [1, 1, 1, 1, 1, 1, 1, 1, 1]⟩]
    (RecipeTree.init 10 [.int 7, .list [.int 8, .list [.int 5, .list [.int 6, .none]]]]).map (fun t => (t.largestCategories (TreeAuction.sizeAt cats)).2.2) ≠ .ok [5] := by decide +kernel

/-- `recipetree.py:363` -/
example : let cats : List AgentCategory := [⟨"0", []⟩, ⟨"1", [1]⟩, ⟨"2", [1, 1]⟩, ⟨"3", [1, 1, 1]⟩, ⟨"4", [1, 1, 1, 1]⟩, ⟨"5", [1, 1, 1, 1, 1]⟩, ⟨"6", [1, 1, 1, 1, 1, 1]⟩, ⟨"7", [1, 1, 1, 1, 1, 1, 1]⟩, ⟨"8", [1, 1, 1, 1, 1, 1, 1, 1]⟩, ⟨"9", [1, 1, 1, 1, 1, 1, 1, 1, 1]⟩]
    (RecipeTree.init 10 [.int 6, .list [.int 3, .none, .int 4, .list [.int 2, .none]]]).map (fun t => (t.largestCategories (TreeAuction.sizeAt cats)).2.2) = .ok [3, 4] := by decide +kernel

/-- `recipetree.py:365` -/
example : let cats : List AgentCategory := [⟨"0", []⟩, ⟨"1", [1]⟩, ⟨"2", [1, 1]⟩, ⟨"3", [1, 1, 1]⟩, ⟨"4", [1, 1, 1, 1]⟩, ⟨"5", [1, 1, 1, 1, 1]⟩, ⟨"6", [1, 1, 1, 1, 1, 1]⟩, ⟨"7", [1, 1, 1, 1, 1, 1, 1]⟩, ⟨"8", [1, 1, 1, 1, 1, 1, 1, 1]⟩, ⟨"9", [1, 1, 1, 1, 1, 1, 1, 1, 1]⟩]
    (RecipeTree.init 10 [.int 6, .list [.int 3, .none, .int 2, .list [.int 4, .none]]]).map (fun t => (t.largestCategories (TreeAuction.sizeAt cats)).2.2) = .ok [6] := by decide +kernel

/-- `recipetree.py:367` -/
example : let cats : List AgentCategory := [⟨"0", []⟩, ⟨"1", [1]⟩, ⟨"2", [1, 1]⟩, ⟨"3", [1, 1, 1]⟩, ⟨"4", [1, 1, 1, 1]⟩, ⟨"5", [1, 1, 1, 1, 1]⟩, ⟨"6", [1, 1, 1, 1, 1, 1]⟩, ⟨"7", [1, 1, 1, 1, 1, 1, 1]⟩, ⟨"8", [1, 1, 1, 1, 1, 1, 1, 1]⟩, ⟨"9", [1, 1, 1, 1, 1, 1, 1, 1, 1]⟩]
    (RecipeTree.init 10 [.int 6, .list [.int 3, .none, .int 7, .list [.int 5, .none]]]).map (fun t => (t.largestCategories (TreeAuction.sizeAt cats)).2.2) = .ok [3, 7] := by decide +kernel

/-- `recipetree.py:369` -/
example : let cats : List AgentCategory := [⟨"0", []⟩, ⟨"1", [1]⟩, ⟨"2", [1, 1]⟩, ⟨"3", [1, 1, 1]⟩, ⟨"4", [1, 1, 1, 1]⟩, ⟨"5", [1, 1, 1, 1, 1]⟩, ⟨"6", [1, 1, 1, 1, 1, 1]⟩, ⟨"7", [1, 1, 1, 1, 1, 1, 1]⟩, ⟨"8", [1, 1, 1, 1, 1, 1, 1, 1]⟩, ⟨"9", [1, 1, 1, 1, 1, 1, 1, 1, 1]⟩]
    (RecipeTree.init 10 [.int 6, .list [.int 3, .none, .int 5, .list [.int 7, .none]]]).map (fun t => (t.largestCategories (TreeAuction.sizeAt cats)).2.2) = .ok [3, 7] := by decide +kernel

/-- `recipetree.py:371` -/
example : let cats : List AgentCategory := [⟨"0", []⟩, ⟨"1", [1]⟩, ⟨"2", [1, 1]⟩, ⟨"3", [1, 1, 1]⟩, ⟨"4", [1, 1, 1, 1]⟩, ⟨"5", [1, 1, 1, 1, 1]⟩, ⟨"6", [1, 1, 1, 1, 1, 1]⟩, ⟨"7", [1, 1, 1, 1, 1, 1, 1]⟩, ⟨"8", [1, 1, 1, 1, 1, 1, 1, 1]⟩, ⟨"9", [1, 1, 1, 1, 1, 1, 1, 1, 1]⟩]
    (RecipeTree.init 10 [.int 5, .list [.int 6, .list [.int 4, .none], .int 4, .list [.int 6, .none]]]).map (fun t => (t.largestCategories (TreeAuction.sizeAt cats)).2.2) = .ok [6, 6] := by decide +kernel

/-- `recipetree.py:373` -/
example : let cats : List AgentCategory := [⟨"0", []⟩, ⟨"1", [1]⟩, ⟨"2", [1, 1]⟩, ⟨"3", [1, 1, 1]⟩, ⟨"4", [1, 1, 1, 1]⟩, ⟨"5", [1, 1, 1, 1, 1]⟩, ⟨"6", [1, 1, 1, 1, 1, 1]⟩, ⟨"7", [1, 1, 1, 1, 1, 1, 1]⟩, ⟨"8", [1, 1, 1, 1, 1, 1, 1, 1]⟩, ⟨"9", [1, 1, 1, 1, 1, 1, 1, 1, 1]⟩]
    (RecipeTree.init 10 [.int 7, .list [.int 6, .list [.int 4, .none], .int 4, .list [.int 6, .none]]]).map (fun t => (t.largestCategories (TreeAuction.sizeAt cats)).2.2) = .ok [6, 6] := by decide +kernel

/-- `recipetree.py:375` -/
example : let cats : List AgentCategory := [⟨"0", []⟩, ⟨"1", [1]⟩, ⟨"2", [1, 1]⟩, ⟨"3", [1, 1, 1]⟩, ⟨"4", [1, 1, 1, 1]⟩, ⟨"5", [1, 1, 1, 1, 1]⟩, ⟨"6", [1, 1, 1, 1, 1, 1]⟩, ⟨"7", [1, 1, 1, 1, 1, 1, 1]⟩, ⟨"8", [1, 1, 1, 1, 1, 1, 1, 1]⟩, ⟨"9", [1, 1, 1, 1, 1, 1, 1, 1, 1]⟩]
    (RecipeTree.init 10 [.int 8, .list [.int 6, .list [.int 4, .none], .int 4, .list [.int 6, .none]]]).map (fun t => (t.largestCategories (TreeAuction.sizeAt cats)).2.2) = .ok [6, 6] := by decide +kernel

/-- `recipetree.py:377` -/
example : let cats : List AgentCategory := [⟨"0", []⟩, ⟨"1", [1]⟩, ⟨"2", [1, 1]⟩, ⟨"3", [1, 1, 1]⟩, ⟨"4", [1, 1, 1, 1]⟩, ⟨"5", [1, 1, 1, 1, 1]⟩, ⟨"6", [1, 1, 1, 1, 1, 1]⟩, ⟨"7", [1, 1, 1, 1, 1, 1, 1]⟩, ⟨"8", [1, 1, 1, 1, 1, 1, 1, 1]⟩, ⟨"9", [1, 1, 1, 1, 1, 1, 1, 1, 1]⟩]
    (RecipeTree.init 10 [.int 9, .list [.int 6, .list [.int 4, .none], .int 4, .list [.int 6, .none]]]).map (fun t => (t.largestCategories (TreeAuction.sizeAt cats)).2.2) = .ok [6, 6] := by decide +kernel

/-- `recipetree.py:379` -/
example : let cats : List AgentCategory := [⟨"0", []⟩, ⟨"1", [1]⟩, ⟨"2", [1, 1]⟩, ⟨"3", [1, 1, 1]⟩, ⟨"4", [1, 1, 1, 1]⟩, ⟨"5", [1, 1, 1, 1, 1]⟩, ⟨"6", [1, 1, 1, 1, 1, 1]⟩, ⟨"7", [1, 1, 1, 1, 1, 1, 1]⟩, ⟨"8", [1, 1, 1, 1, 1, 1, 1, 1]⟩, ⟨"9", [1, 1, 1, 1, 1, 1, 1, 1, 1]⟩]
    (RecipeTree.init 10 [.int 6, .list [.int 0, .none, .int 6, .none]]).map (fun t => t.largestCategories (TreeAuction.sizeAt cats)) = .ok (6, 6, [0, 6]) := by decide +kernel

/-- `recipetree.py:381` -/
example : let cats : List AgentCategory := [⟨"0", []⟩, ⟨"1", [1]⟩, ⟨"2", [1, 1]⟩, ⟨"3", [1, 1, 1]⟩, ⟨"4", [1, 1, 1, 1]⟩, ⟨"5", [1, 1, 1, 1, 1]⟩, ⟨"6", [1, 1, 1, 1, 1, 1]⟩, ⟨"7", [1, 1, 1, 1, 1, 1, 1]⟩, ⟨"8", [1, 1, 1, 1, 1, 1, 1, 1]⟩, ⟨"9", [1, 1, 1, 1, 1, 1, 1, 1, 1]⟩]
    (RecipeTree.init 10 [.int 6, .list [.int 6, .none, .int 0, .none]]).map (fun t => t.largestCategories (TreeAuction.sizeAt cats)) = .ok (6, 6, [6, 0]) := by decide +kernel

/-- `recipetree.py:386` -/
example : let cats : List AgentCategory := [⟨"0", [22, 11]⟩, ⟨"1", [22, 11]⟩, ⟨"2", [22, 11]⟩, ⟨"3", [22, 11]⟩, ⟨"4", [22, 11]⟩, ⟨"5", [22, 11]⟩, ⟨"6", [22, 11]⟩, ⟨"7", [22, 11]⟩, ⟨"8", [22, 11]⟩, ⟨"9", [22, 11]⟩]
    (RecipeTree.init 10 [.int 0, .list [.int 1, .list [.int 2, .list [.int 3, .list [.int 4, .none]]]]]).map (fun t => (t.largestCategories (TreeAuction.sizeAt cats)).2.2) = .ok [4] := by decide +kernel

/-- `recipetree.py:389` -/
example : let cats : List AgentCategory := [⟨"0", [22, 11]⟩, ⟨"1", [22, 11]⟩, ⟨"2", [22, 11]⟩, ⟨"3", [22, 11]⟩, ⟨"4", [22]⟩, ⟨"5", [22, 11]⟩, ⟨"6", [22, 11]⟩, ⟨"7", [22, 11]⟩, ⟨"8", [22, 11]⟩, ⟨"9", [22, 11]⟩]
    (RecipeTree.init 10 [.int 0, .list [.int 1, .list [.int 2, .list [.int 3, .list [.int 4, .none]]]]]).map (fun t => (t.largestCategories (TreeAuction.sizeAt cats)).2.2) = .ok [3] := by decide +kernel

/-- `recipetree.py:392` -/
example : let cats : List AgentCategory := [⟨"0", [22, 11]⟩, ⟨"1", [22, 11]⟩, ⟨"2", [22, 11]⟩, ⟨"3", [22]⟩, ⟨"4", [22]⟩, ⟨"5", [22, 11]⟩, ⟨"6", [22, 11]⟩, ⟨"7", [22, 11]⟩, ⟨"8", [22, 11]⟩, ⟨"9", [22, 11]⟩]
    (RecipeTree.init 10 [.int 0, .list [.int 1, .list [.int 2, .list [.int 3, .list [.int 4, .none]]]]]).map (fun t => (t.largestCategories (TreeAuction.sizeAt cats)).2.2) = .ok [2] := by decide +kernel

/-- `recipetree.py:395` -/
example : let cats : List AgentCategory := [⟨"0", [22, 11]⟩, ⟨"1", [22, 11]⟩, ⟨"2", [22]⟩, ⟨"3", [22]⟩, ⟨"4", [22]⟩, ⟨"5", [22, 11]⟩, ⟨"6", [22, 11]⟩, ⟨"7", [22, 11]⟩, ⟨"8", [22, 11]⟩, ⟨"9", [22, 11]⟩]
    (RecipeTree.init 10 [.int 0, .list [.int 1, .list [.int 2, .list [.int 3, .list [.int 4, .none]]]]]).map (fun t => (t.largestCategories (TreeAuction.sizeAt cats)).2.2) = .ok [1] := by decide +kernel

/-- `recipetree.py:398` -/
example : let cats : List AgentCategory := [⟨"0", [22, 11]⟩, ⟨"1", [22]⟩, ⟨"2", [22]⟩, ⟨"3", [22]⟩, ⟨"4", [22]⟩, ⟨"5", [22, 11]⟩, ⟨"6", [22, 11]⟩, ⟨"7", [22, 11]⟩, ⟨"8", [22, 11]⟩, ⟨"9", [22, 11]⟩]
    (RecipeTree.init 10 [.int 0, .list [.int 1, .list [.int 2, .list [.int 3, .list [.int 4, .none]]]]]).map (fun t => (t.largestCategories (TreeAuction.sizeAt cats)).2.2) = .ok [0] := by decide +kernel

/-- `recipetree.py:401` -/
example : let cats : List AgentCategory := [⟨"0", [22]⟩, ⟨"1", [22]⟩, ⟨"2", [22]⟩, ⟨"3", [22]⟩, ⟨"4", [22]⟩, ⟨"5", [22, 11]⟩, ⟨"6", [22, 11]⟩, ⟨"7", [22, 11]⟩, ⟨"8", [22, 11]⟩, ⟨"9", [22, 11]⟩]
    (RecipeTree.init 10 [.int 0, .list [.int 1, .list [.int 2, .list [.int 3, .list [.int 4, .none]]]]]).map (fun t => (t.largestCategories (TreeAuction.sizeAt cats)).2.2) = .ok [4] := by decide +kernel

end Auctions.Fidelity
