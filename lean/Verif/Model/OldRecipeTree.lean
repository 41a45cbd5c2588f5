import Verif.Model.RecipeTree

set_option autoImplicit false

/-!
# Model of `recipetree.old.py`

The constructor (without `agent_counts`), `paths_to_leaf`, `recipe_from_path`, `recipes`, `combined_values`, `combined_values_detailed`
and `num_of_deals` have the same code as in `recipetree.py` and are modelled by the functions of `Model/RecipeTree`. The methods
below differ. Not modelled: the text of `num_of_deals_explained`.
-/

namespace Auctions

/-- `recipetree.old.py:341-360` — the old `largest_categories(indices=True)`, combined over the trees of a forest as in the loop of lines
347-351: (maximum of the largest sizes, sum of the combined sizes, concatenation of the lists). -/
def Forest.oldLargestCategories (size : ℕ → ℕ) : Forest → ℕ × ℕ × List ℕ
  | .nil => (0, 0, [])
  | .cons i ch siblings =>
    let node := match ch with
      | .nil => (size i, size i, [i])
      | .cons .. =>
        let sub := oldLargestCategories size ch
        if sub.2.1 ≥ size i then (sub.1, size i, sub.2.2) else (size i, sub.2.1, [i])
    let rest := oldLargestCategories size siblings
    (max node.1 rest.1, node.2.1 + rest.2.1, node.2.2 ++ rest.2.2)

namespace RecipeTree

/-- `recipetree.old.py:275-360` — the old `largest_categories(indices=True)`. -/
def oldLargestCategories (t : RecipeTree) (size : ℕ → ℕ) : ℕ × ℕ × List ℕ := t.forest.oldLargestCategories size

/-- `recipetree.old.py:255-266` — the old `optimal_trade()`. -/
def oldOptimalTrade (t : RecipeTree) (vals : ℕ → List ℚ) : Py (List (List ℚ) × ℕ × ℚ) := do
  let tuples ← (t.combinedValuesDetailed vals).mapM itemSum
  let deals := tuples.filter (fun vs => vs.sum > 0)
  .ok (deals, deals.length, deals.flatten.sum)

/-- `recipetree.old.py:268-272` — the old `optimal_trade_GFT()`. -/
def oldOptimalTradeGFT (t : RecipeTree) (vals : ℕ → List ℚ) : ℚ := ((t.combinedValues vals).filter (fun v => v > 0)).sum

end RecipeTree

end Auctions
