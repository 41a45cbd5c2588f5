import Verif.Model.RecipeTree
import Mathlib.Algebra.Order.Floor.Semiring
import Mathlib.Data.Rat.Floor

set_option autoImplicit false

/-!
# Model of `recipetree_integer.py`

As in `Model/RecipeTree`, a node is its category index; `cnt i` is the agent count of category `i` (1 without `agent_counts`), and `vals i`,
`size i` are the current contents of the category. Counts are positive: with a count of 0 `largest_categories` raises
`ZeroDivisionError`, which is not modelled. Python divides integers as floats (lines 610, 614, 640, 656); here division is exact.
-/

namespace Auctions.IntegerTree

open Auctions

/-- `recipetree_integer.py:296` — `agent_counts[self_index] if agent_counts else 1`. -/
def countOf (agentCounts : List ℕ) (i : ℕ) : ℕ := if agentCounts = [] then 1 else agentCounts.getD i 0

/-- `recipetree_integer.py:282-306` — `__init__`. A category index must be within the categories and, if `agent_counts` is given and
not empty, within `agent_counts` (`IndexError` in both cases). -/
def init (n : ℕ) (categoryIndices : List PyObj) (agentCounts : List ℕ) : Py RecipeTree :=
  RecipeTree.init (if agentCounts = [] then n else min n agentCounts.length) categoryIndices

/-- `recipetree_integer.py:340-341` — the loop of `recipe_from_path` with `agent_counts` (absent is the same as empty), on the current `result`. -/
def recipeFromPathLoop (agentCounts : List ℕ) : List ℕ → List ℕ → Py (List ℕ)
  | result, [] => .ok result
  | result, i :: path => do
    let c ← if agentCounts = [] then .ok 1 else pyGet agentCounts i
    if i < result.length then recipeFromPathLoop agentCounts (result.set i c) path else .error .indexError

/-- `recipetree_integer.py:327-342` — `recipe_from_path(path, num_categories, agent_counts)`; the same text is in `recipetree.py:199-214`. -/
def recipeFromPath (path : List ℕ) (numCategories : ℕ) (agentCounts : List ℕ) : Py (List ℕ) :=
  recipeFromPathLoop agentCounts (List.replicate numCategories 0) path

/-- `recipetree_integer.py:345-351` — `recipes()`; `self.agent_counts` is a list of ones if `agent_counts` is absent or empty (line 292). -/
def recipes (t : RecipeTree) (numCategories : ℕ) (agentCounts : List ℕ) : Py (List (List ℕ)) :=
  t.pathsToLeaf.mapM (fun path =>
    recipeFromPath path numCategories (if agentCounts = [] then List.replicate numCategories 1 else agentCounts))

/-- `recipetree_integer.py:367-372` — the loop that groups the values into sets of `count`; the first list is `current_set`. An incomplete
last set is dropped. -/
def blocks (count : ℕ) : List ℚ → List ℚ → List (List ℚ)
  | _, [] => []
  | cur, v :: vs =>
    if (cur ++ [v]).length = count then (cur ++ [v]) :: blocks count [] vs else blocks count (cur ++ [v]) vs

/-- `recipetree_integer.py:373`, `379` — `sort(key=sum, reverse=True)` (stable). -/
def sortBySumDesc (l : List (List ℚ)) : List (List ℚ) := l.insertionSort (fun a b => a.sum ≥ b.sum)

/-- `recipetree_integer.py:357-381` — `combined_values()`, concatenated over the trees of a forest (line 378).
(`self_values.sort` on line 364 sorts the category in place; its values are sorted already.) -/
def combinedValues (cnt : ℕ → ℕ) (vals : ℕ → List ℚ) : Forest → List (List ℚ)
  | .nil => []
  | .cons i ch siblings =>
    (match ch with
      | .nil => sortBySumDesc (blocks (cnt i) [] (sortDesc (vals i)))
      | .cons .. => List.zipWith (· ++ ·) (sortBySumDesc (blocks (cnt i) [] (sortDesc (vals i))))
          (sortBySumDesc (combinedValues cnt vals ch))) ++ combinedValues cnt vals siblings

/-- `recipetree_integer.py:416-445` — `combined_values_detailed()`: calls `combined_values` for the children. -/
def combinedValuesDetailed (t : RecipeTree) (cnt : ℕ → ℕ) (vals : ℕ → List ℚ) : List (List ℚ) :=
  match t.children with
  | .nil => blocks (cnt t.index) [] (sortDesc (vals t.index))
  | .cons .. => List.zipWith (· ++ ·) (blocks (cnt t.index) [] (sortDesc (vals t.index)))
      (sortBySumDesc (combinedValues cnt vals t.children))

/-- `recipetree_integer.py:472-483` — `optimal_trade()`: (the deals, their number, their total gain). -/
def optimalTrade (t : RecipeTree) (cnt : ℕ → ℕ) (vals : ℕ → List ℚ) : List (List ℚ) × ℕ × ℚ :=
  let deals := (combinedValuesDetailed t cnt vals).filter (fun vs => vs.sum ≥ 0)
  (deals, deals.length, deals.flatten.sum)

/-- `recipetree_integer.py:485-489` — `optimal_trade_GFT()`. -/
def optimalTradeGFT (t : RecipeTree) (cnt : ℕ → ℕ) (vals : ℕ → List ℚ) : ℚ :=
  (((combinedValues cnt vals t.forest).filter (fun vs => vs.sum ≥ 0)).map List.sum).sum

/-- `recipetree_integer.py:614` — `sum([ceil(child.category.size() / child.agent_count) for child in self.children], 0)`. -/
def rootSizes (cnt size : ℕ → ℕ) : Forest → ℕ
  | .nil => 0
  | .cons i _ siblings => ⌈(size i : ℚ) / cnt i⌉₊ + rootSizes cnt size siblings

/-- `recipetree_integer.py:492-632` — `largest_categories(indices=True)`, combined over the trees of a forest as in the loop of lines
624-628. -/
def largestCategories (cnt size : ℕ → ℕ) : Forest → ℚ × ℚ × List ℕ
  | .nil => (0, 0, [])
  | .cons i ch siblings =>
    let selfSize : ℚ := (size i : ℚ) / cnt i
    let node := if selfSize > rootSizes cnt size ch ∨ rootSizes cnt size ch = 0 then (selfSize, selfSize, [i])
      else ((largestCategories cnt size ch).1, selfSize, (largestCategories cnt size ch).2.2)
    let rest := largestCategories cnt size siblings
    (max node.1 rest.1, node.2.1 + rest.2.1, node.2.2 ++ rest.2.2)

/-- `recipetree_integer.py:635-646` — `num_of_deals()`, summed over the trees of a forest; natural number division is
`floor(self.category.size() / self.agent_count)`. -/
def numOfDeals (cnt size : ℕ → ℕ) : Forest → ℕ
  | .nil => 0
  | .cons i ch siblings =>
    (match ch with
      | .nil => size i / cnt i
      | .cons .. => min (numOfDeals cnt size ch) (size i / cnt i)) + numOfDeals cnt size siblings

/-- `recipetree_integer.py:649-689` — the numbers (`num_of_deals`, `kmin`, `kmax`) of `num_of_deals_explained` for each tree of a
forest; `kmin` ignores children with `kmin = 0` (line 667). -/
def numOfDealsExplained (cnt size : ℕ → ℕ) : Forest → List (ℕ × ℕ × ℕ)
  | .nil => []
  | .cons i ch siblings =>
    (match ch with
      | .nil => (size i / cnt i, size i / cnt i, size i / cnt i)
      | .cons .. =>
        let ts := numOfDealsExplained cnt size ch
        (min (ts.map (·.1)).sum (size i / cnt i), ((ts.map (·.2.1)).filter (· > 0)).min?.getD 0, (ts.map (·.2.2)).max?.getD 0))
      :: numOfDealsExplained cnt size siblings

end Auctions.IntegerTree
