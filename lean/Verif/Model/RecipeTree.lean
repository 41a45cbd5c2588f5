import Verif.Model.Agents

set_option autoImplicit false

/-!
# Model of `recipetree.py`

The nodes of a Python `RecipeTree` hold references to the category objects of the market, which the auction modifies in
place. In the model a node holds the category index, and every method that reads the categories gets as an argument their
current contents: `vals i` is `categories[i].values` and `size i` is `categories[i].size()`.

The children of a node form a `Forest`. The methods below are defined on forests; the value for a forest is what the Python
code computes in its loop over `self.children`. `RecipeTree.forest` turns a tree into a forest with one tree.

Not modelled: the `explanation` text of `num_of_deals_explained`, `anytree`'s rendering.
-/

namespace Auctions

/-- The Python objects that occur in a recipe structure such as `[0, [1, None, 2, [3, None]]]`
(integers are non-negative: negative category indices, which Python counts from the end, are not modelled). -/
inductive PyObj
  | none
  | int (n : ℕ)
  | list (items : List PyObj)

/-- `recipetree.py:29-30`, `self.children` — a list of trees: a first tree with root category `index` and children
`children`, followed by its siblings. -/
inductive Forest
  | nil
  | cons (index : ℕ) (children siblings : Forest)
  deriving DecidableEq, Repr

/-- `recipetree.py:29` — `class RecipeTree`: the category index of the root, and the children. -/
structure RecipeTree where
  index : ℕ
  children : Forest
  deriving DecidableEq, Repr

/-- `recipetree.py:166-170` — the lookup `categories[self_index]` for `n` categories:
`IndexError` out of range, `TypeError` for an index that is not an integer. -/
def categoryIndex (n : ℕ) : PyObj → Py ℕ
  | .int i => if i < n then .ok i else .error .indexError
  | _ => .error .typeError

mutual

/-- `recipetree.py:166-178` — `__init__` for the pair (`self_index`, `children_indices`), with `n` categories.
`len(children_indices)` of an integer is a `TypeError`. -/
def parseNode (n : ℕ) (selfIndex : PyObj) (childrenIndices : PyObj) : Py RecipeTree := do
  let i ← categoryIndex n selfIndex
  match childrenIndices with
  | .none => .ok ⟨i, .nil⟩
  | .int _ => .error .typeError
  | .list items => do
    let ch ← parseChildren n items
    .ok ⟨i, ch⟩
termination_by structural childrenIndices

/-- `recipetree.py:173-178` — the loop over `children_indices[child_index:child_index+2]`;
a last slice of length 1 makes the constructor raise `ValueError` (lines 161-162). -/
def parseChildren (n : ℕ) (items : List PyObj) : Py Forest :=
  match items with
  | [] => .ok .nil
  | [_] => .error .valueError
  | x :: y :: rest => do
    let t ← parseNode n x y
    let siblings ← parseChildren n rest
    .ok (.cons t.index t.children siblings)
termination_by structural items

end

namespace RecipeTree

/-- `recipetree.py:154-178` — `__init__(categories, category_indices)` for `n` categories. Elements after the first two
are ignored. (The argument `agent_counts` has no effect in this module.) -/
def init (n : ℕ) (categoryIndices : List PyObj) : Py RecipeTree :=
  if categoryIndices.length % 2 ≠ 0 then .error .valueError
  else match categoryIndices with
    | x :: y :: _ => parseNode n x y
    | _ => .error .indexError

/-- The tree as a forest with a single tree. -/
def forest (t : RecipeTree) : Forest := .cons t.index t.children .nil

end RecipeTree

namespace Forest

/-- `recipetree.py:182-196` — `paths_to_leaf(prefix)`, concatenated over the trees of a forest (lines 192-195).
`label` is the identity for `indices=True` and the category name otherwise. -/
def pathsToLeaf {α : Type} (label : ℕ → α) : List α → Forest → List (List α)
  | _, .nil => []
  | pre, .cons i ch siblings =>
    (match ch with
      | .nil => [pre ++ [label i]]
      | .cons .. => pathsToLeaf label (pre ++ [label i]) ch) ++ pathsToLeaf label pre siblings

/-- `recipetree.py:229-242` — `combined_values()`, concatenated over the trees of a forest (line 239). -/
def combinedValues (vals : ℕ → List ℚ) : Forest → List ℚ
  | .nil => []
  | .cons i ch siblings =>
    (match ch with
      | .nil => vals i
      | .cons .. => List.zipWith (· + ·) (vals i) (sortDesc (combinedValues vals ch))) ++ combinedValues vals siblings

/-- An element of `combined_values_detailed()`: a number for a leaf category, a tuple above it. -/
inductive Item
  | num (v : ℚ)
  | tup (vs : List ℚ)
  deriving DecidableEq, Repr

/-- `recipetree.py:20-25` — the numbers that `flatten` yields for an element. -/
def Item.flat : Item → List ℚ
  | .num v => [v]
  | .tup vs => vs

/-- `recipetree.py:292` — the sort key: `sum(x)` of a tuple, `x` itself for a number. -/
def Item.key : Item → ℚ
  | .num v => v
  | .tup vs => vs.sum

/-- `recipetree.py:278-294` — `combined_values_detailed()`, concatenated over the trees of a forest (line 290);
the sort by key is stable. -/
def combinedValuesDetailed (vals : ℕ → List ℚ) : Forest → List Item
  | .nil => []
  | .cons i ch siblings =>
    (match ch with
      | .nil => (vals i).map .num
      | .cons .. => List.zipWith (fun a x => Item.tup (a :: x.flat)) (vals i)
          ((combinedValuesDetailed vals ch).insertionSort (fun x y => x.key ≥ y.key)))
      ++ combinedValuesDetailed vals siblings

/-- `recipetree.py:407` — `sum([child.category.size() for child in self.children], 0)`. -/
def rootSizes (size : ℕ → ℕ) : Forest → ℕ
  | .nil => 0
  | .cons i _ siblings => size i + rootSizes size siblings

/-- `recipetree.py:404-425` — `largest_categories(indices=True)`, combined over the trees of a forest as in the loop of lines
417-421: (maximum of the largest sizes, sum of the combined sizes, concatenation of the lists). -/
def largestCategories (size : ℕ → ℕ) : Forest → ℕ × ℕ × List ℕ
  | .nil => (0, 0, [])
  | .cons i ch siblings =>
    let node := if size i > rootSizes size ch ∨ rootSizes size ch = 0 then (size i, size i, [i])
      else ((largestCategories size ch).1, size i, (largestCategories size ch).2.2)
    let rest := largestCategories size siblings
    (max node.1 rest.1, node.2.1 + rest.2.1, node.2.2 ++ rest.2.2)

/-- `recipetree.py:428-439` — `num_of_deals()`, summed over the trees of a forest (line 437). -/
def numOfDeals (size : ℕ → ℕ) : Forest → ℕ
  | .nil => 0
  | .cons i ch siblings =>
    (match ch with
      | .nil => size i
      | .cons .. => min (numOfDeals size ch) (size i)) + numOfDeals size siblings

/-- `recipetree.py:442-485` — the numbers (`num_of_deals`, `kmin`, `kmax`) that `num_of_deals_explained` returns for each tree
of a forest. (`min([])` and `max([])` cannot occur: a node that is not a leaf has a child; here they are 0.)
The explanation text, and with it the lookup `prices[self.category_index]`, is not modelled. -/
def numOfDealsExplained (size : ℕ → ℕ) : Forest → List (ℕ × ℕ × ℕ)
  | .nil => []
  | .cons i ch siblings =>
    (match ch with
      | .nil => (size i, size i, size i)
      | .cons .. =>
        let ts := numOfDealsExplained size ch
        (min (ts.map (·.1)).sum (size i), (ts.map (·.2.1)).min?.getD 0, (ts.map (·.2.2)).max?.getD 0))
      :: numOfDealsExplained size siblings

end Forest

namespace RecipeTree

/-- `recipetree.py:182-196` — `paths_to_leaf(indices=True)`. -/
def pathsToLeaf (t : RecipeTree) : List (List ℕ) := t.forest.pathsToLeaf id []

/-- `recipetree.py:182-196` — `paths_to_leaf(indices=False)`. -/
def pathsToLeafNames (name : ℕ → String) (t : RecipeTree) : List (List String) := t.forest.pathsToLeaf name []

/-- `recipetree.py:212-213` — the loop of `recipe_from_path` (without `agent_counts`), on the current `result`. -/
def recipeFromPathLoop : List ℕ → List ℕ → Py (List ℕ)
  | result, [] => .ok result
  | result, i :: path => if i < result.length then recipeFromPathLoop (result.set i 1) path else .error .indexError

/-- `recipetree.py:198-214` — `recipe_from_path(path, num_categories)`. -/
def recipeFromPath (path : List ℕ) (numCategories : ℕ) : Py (List ℕ) :=
  recipeFromPathLoop (List.replicate numCategories 0) path

/-- `recipetree.py:217-223` — `recipes()`. -/
def recipes (t : RecipeTree) (numCategories : ℕ) : Py (List (List ℕ)) :=
  t.pathsToLeaf.mapM (fun path => recipeFromPath path numCategories)

/-- `recipetree.py:229-242` — `combined_values()`. -/
def combinedValues (t : RecipeTree) (vals : ℕ → List ℚ) : List ℚ := t.forest.combinedValues vals

/-- `recipetree.py:278-294` — `combined_values_detailed()`. -/
def combinedValuesDetailed (t : RecipeTree) (vals : ℕ → List ℚ) : List Forest.Item := t.forest.combinedValuesDetailed vals

/-- `recipetree.py:329` — `sum(t)` of an element: a number is not iterable (`TypeError`). -/
def itemSum : Forest.Item → Py (List ℚ)
  | .num _ => .error .typeError
  | .tup vs => .ok vs

/-- `recipetree.py:321-332` — `optimal_trade()`: (the deals, their number, their total gain). -/
def optimalTrade (t : RecipeTree) (vals : ℕ → List ℚ) : Py (List (List ℚ) × ℕ × ℚ) := do
  let tuples ← (t.combinedValuesDetailed vals).mapM itemSum
  let deals := tuples.filter (fun vs => vs.sum ≥ 0)
  .ok (deals, deals.length, deals.flatten.sum)

/-- `recipetree.py:334-338` — `optimal_trade_GFT()`. -/
def optimalTradeGFT (t : RecipeTree) (vals : ℕ → List ℚ) : ℚ := ((t.combinedValues vals).filter (fun v => v ≥ 0)).sum

/-- `recipetree.py:341-425` — `largest_categories(indices=True)`. -/
def largestCategories (t : RecipeTree) (size : ℕ → ℕ) : ℕ × ℕ × List ℕ := t.forest.largestCategories size

/-- `recipetree.py:428-439` — `num_of_deals()`. -/
def numOfDeals (t : RecipeTree) (size : ℕ → ℕ) : ℕ := t.forest.numOfDeals size

/-- `recipetree.py:442-485` — `num_of_deals_explained(prices)` without the text, which is in `Model/Reports`: (number of deals, kmin, kmax). -/
def numOfDealsExplained (t : RecipeTree) (size : ℕ → ℕ) : ℕ × ℕ × ℕ :=
  (t.forest.numOfDealsExplained size).headD (0, 0, 0)

end RecipeTree

end Auctions
