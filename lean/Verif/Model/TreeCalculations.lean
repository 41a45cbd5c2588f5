import Verif.Model.RecipeTree

set_option autoImplicit false

/-!
# Model of `tree_calculations.py`, and of `ps_recipe_to_recipe_struct`

The functions walk over a recipe structure such as `[0, [1, None, 2, [3, None]]]`, given as nested Python lists. Printing
is not modelled. Category indices are non-negative.
-/

namespace Auctions.TreeCalculations

open Auctions

/-- A category index used in `max` or as a list index: `TypeError` for `None` and for a list. -/
def asIndex : PyObj → Py ℕ
  | .int i => .ok i
  | _ => .error .typeError

/-- `l[i] = x`: `IndexError` out of range. -/
def setAt (l : List ℕ) (i x : ℕ) : Py (List ℕ) := if i < l.length then .ok (l.set i x) else .error .indexError

mutual

/-- `tree_calculations.py:32-41` — `get_depth_and_agents_size(recipe_tree)`. `len` of an integer is a `TypeError`. -/
def depthAndSize (recipeTree : PyObj) : Py (ℕ × ℕ) :=
  match recipeTree with
  | .none => .ok (0, 0)
  | .int _ => .error .typeError
  | .list items => do
    let (d, k) ← depthAndSizeLoop items
    .ok (d + 1, k)
termination_by structural recipeTree

/-- `tree_calculations.py:37-40` — the loop of `get_depth_and_agents_size`: the largest depth and index in the pairs from here on.
`recipe_tree[i + 1]` of a list of odd length is an `IndexError`. -/
def depthAndSizeLoop (items : List PyObj) : Py (ℕ × ℕ) :=
  match items with
  | [] => .ok (0, 0)
  | [_] => .error .indexError
  | x :: y :: rest => do
    let (depth, index) ← depthAndSize y
    let i ← asIndex x
    let (d, k) ← depthAndSizeLoop rest
    .ok (max depth d, max (max i index) k)
termination_by structural items

end

mutual

/-- `tree_calculations.py:48-53` — the body of the loop of `calculate_children_counts` for the pair (`index`, `children`). -/
def childrenCountsNode (index children : PyObj) (counts : List ℕ) : Py (List ℕ) :=
  match children with
  | .none => do
    let i ← asIndex index
    setAt counts i 1
  | .int _ => .error .typeError
  | .list items => do
    let i ← asIndex index
    let counts' ← setAt counts i (items.length / 2)
    childrenCounts items counts'
termination_by structural children

/-- `tree_calculations.py:46-54` — `calculate_children_counts(recipe_tree, children_counts)`; the list `children_counts`, which is
modified in place, is returned. -/
def childrenCounts (items : List PyObj) (counts : List ℕ) : Py (List ℕ) :=
  match items with
  | [] => .ok counts
  | [_] => .error .indexError
  | x :: y :: rest => do
    let counts' ← childrenCountsNode x y counts
    childrenCounts rest counts'
termination_by structural items

end

/-- `tree_calculations.py:43-44` — `get_children_counts(recipe_tree, category_size_list)`, for a list of `n` categories. -/
def getChildrenCounts (items : List PyObj) (n : ℕ) : Py (List ℕ) := childrenCounts items (List.replicate n 0)

mutual

/-- `tree_calculations.py:24-29` — the body of the loop of `analyze_recipe_tree` for the pair (`agent_index`, `next_recipe_tree`).
(`depth` does not get below 0 when it starts at the depth of the tree.) -/
def analyzeNode (index next : PyObj) (counts : List ℕ) (depth : ℕ) : Py (List ℕ) :=
  match next with
  | .none => do
    let i ← asIndex index
    setAt counts i depth
  | .int _ => .error .typeError
  | .list items => analyze items counts (depth - 1)
termination_by structural next

/-- `tree_calculations.py:21-29` — `analyze_recipe_tree(recipe_tree, agent_counts, depth)`; the list `agent_counts`, which is modified in
place, is returned. -/
def analyze (items : List PyObj) (counts : List ℕ) (depth : ℕ) : Py (List ℕ) :=
  match items with
  | [] => .ok counts
  | [_] => .error .indexError
  | x :: y :: rest => do
    let counts' ← analyzeNode x y counts depth
    analyze rest counts' depth
termination_by structural items

end

/-- `tree_calculations.py:11-18` — `get_agents_analyze(recipe_tree)`. -/
def getAgentsAnalyze (items : List PyObj) : Py (List ℕ) := do
  let (maxDepth, maxAgentIndex) ← depthAndSize (.list items)
  let counts ← analyze items (List.replicate (maxAgentIndex + 1) 1) maxDepth
  setAt counts 0 (maxDepth - 1)

/-- `ascending_auction_recipetree_test.py:50-52` — the loop `result = [category_index, result]` over the given categories and counts. -/
def structLoop : List (ℕ × ℕ) → PyObj → PyObj
  | [], result => result
  | (i, c) :: rest, result => structLoop rest (if c > 0 then .list [.int i, result] else result)

/-- `ascending_auction_recipetree_test.py:30-53` — `ps_recipe_to_recipe_struct(ps_recipe)`: the categories in reverse order, the first
category before all others (line 49: `l[-1:] + l[:-1]`). -/
def psRecipeToRecipeStruct (psRecipe : List ℕ) : PyObj :=
  let rev := (psRecipe.zipIdx.map (fun a => (a.2, a.1))).reverse
  structLoop (rev.getLast?.toList ++ rev.dropLast) .none

end Auctions.TreeCalculations
