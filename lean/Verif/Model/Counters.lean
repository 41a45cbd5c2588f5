import Verif.Model.RecipeTree
import Verif.Model.RecipeTreeInteger

set_option autoImplicit false

/-!
# Model of `optimal_trade_with_counters` in `recipetree.py` and `recipetree_integer.py`

The counter objects `{'counter': 0}` are mutable and shared by several deals. They are modelled by a store: a list of numbers, in which an
object is a position; a new object is appended.
-/

namespace Auctions

namespace Forest

/-- `recipetree.py:265` — `sort(reverse=True, key=lambda x: x[0])` (stable). -/
def sortByValueDesc (l : List (ℚ × ℕ)) : List (ℚ × ℕ) := l.insertionSort (fun x y => x.1 ≥ y.1)

/-- `recipetree.py:245-276` — `combined_values_detailed_with_counters()`, concatenated over the trees of a forest, on a store of counters.
It is called twice for every child (lines 259 and 263); the first results are not used. (`self_values.sort` on line 267 sorts the category in
place; the values of a category are sorted already.) -/
def combinedWithCounters (vals : ℕ → List ℚ) : Forest → List ℕ → List (ℚ × ℕ) × List ℕ
  | .nil, store => ([], store)
  | .cons i ch siblings, store =>
    let node := match ch with
      | .nil => ((vals i).map (fun v => (v, store.length)), store ++ [0])
      | .cons .. =>
        let first := combinedWithCounters vals ch store
        let second := combinedWithCounters vals ch first.2
        (List.zipWith (fun (c : ℚ × ℕ) (v : ℚ) => (c.1 + v, c.2)) (sortByValueDesc second.1) (sortDesc (vals i)), second.2)
    let rest := combinedWithCounters vals siblings node.2
    (node.1 ++ rest.1, rest.2)

end Forest

/-- The result of `optimal_trade_with_counters`: the deals as pairs of a value and the number of its counter object, the contents of the counter
objects when the method returns, and the four numbers. -/
structure CountedTrade where
  deals : List (ℚ × ℕ)
  store : List ℕ
  count : ℕ
  gain : ℚ
  kmin : ℕ
  kmax : ℕ
  deriving DecidableEq, Repr

/-- `recipetree.py:305-306` — `for value in optimal_trade_values: value[1]['counter'] += 1`. -/
def countDeals : List (ℚ × ℕ) → List ℕ → List ℕ
  | [], store => store
  | d :: ds, store => countDeals ds (store.set d.2 (store.getD d.2 0 + 1))

/-- `recipetree.py:311-318` — the loop that computes (`kmin`, `kmax`, `optimal_trade_count`, `optimal_trade_values_GFT`). -/
def counterLoop (store : List ℕ) : List (ℚ × ℕ) → ℕ × ℕ × ℕ × ℚ → ℕ × ℕ × ℕ × ℚ
  | [], acc => acc
  | d :: ds, (kmin, kmax, count, gain) =>
    let c := store.getD d.2 0
    if c > 0 then
      counterLoop store ds (if kmin > c then c else kmin, if kmax < c then c else kmax, count + 1, gain + d.1)
    else counterLoop store ds (kmin, kmax, count, gain)

/-- `recipetree.py:296-319` — `optimal_trade_with_counters()`. -/
def RecipeTree.optimalTradeWithCounters (t : RecipeTree) (vals : ℕ → List ℚ) : CountedTrade :=
  let values := t.forest.combinedWithCounters vals []
  let deals := values.1.filter (fun d => d.1 ≥ 0)
  let store := countDeals deals values.2
  let kmin := match deals with
    | [] => 99999
    | d :: _ => store.getD d.2 0
  let r := counterLoop store deals (kmin, 0, 0, 0)
  ⟨deals, store, r.2.2.1, r.2.2.2, r.1, r.2.1⟩

namespace IntegerTree

/-- An element of the list that `recipetree_integer.py:384-414` returns for a leaf: a set of values and its own counter object. -/
abbrev CountedSet := List ℚ × ℕ

/-- `recipetree_integer.py:397-399` — the pairs of a set and a new counter object. -/
def withCounters : List (List ℚ) → List ℕ → List CountedSet × List ℕ
  | [], store => ([], store)
  | b :: bs, store =>
    let rest := withCounters bs (store ++ [0])
    ((b, store.length) :: rest.1, rest.2)

/-- `recipetree_integer.py:403-413` — what happens in a node with the sets `blocks` and with children, given the lists returned by the children
(the children exist, so the case `[]` does not occur).
If the node has a complete set of agents, line 409 is evaluated for `i = 0`: `children_values[0][0]` raises `IndexError` if the list of the
first child is empty; otherwise it is a pair, which can be unpacked, but then `*self_values[0]` unpacks a number, a `TypeError`.
If it has none, line 413 evaluates the key `sum(x[0])` for the list `x` of the first child: `IndexError` if it is empty, otherwise `x[0]` is a
pair of a list and a dictionary, and `sum` raises `TypeError`. -/
def joinCounted (blocks : List (List ℚ)) (childrenValues : List (List CountedSet)) : Py (List CountedSet × List ℕ) :=
  match childrenValues with
  | [] => .error .indexError
  | first :: _ =>
    if 0 < blocks.length then if first = [] then .error .indexError else .error .typeError
    else if first = [] then .error .indexError else .error .typeError

/-- `recipetree_integer.py:384-414` — `[tree.combined_values_detailed_with_counters() for tree in f]` (line 403 with `f = self.children`), on a
store of counters. -/
def combinedWithCountersList (cnt : ℕ → ℕ) (vals : ℕ → List ℚ) : Forest → List ℕ → Py (List (List CountedSet) × List ℕ)
  | .nil, store => .ok ([], store)
  | .cons i ch siblings, store => do
    let bs := blocks (cnt i) [] (sortDesc (vals i))
    let sets := withCounters bs store
    let x ← match ch with
      | .nil => Except.ok (sets.1.insertionSort (fun x y => x.1.sum ≥ y.1.sum), sets.2)
      | .cons .. => do
        let xs ← combinedWithCountersList cnt vals ch sets.2
        joinCounted bs xs.1
    let xs ← combinedWithCountersList cnt vals siblings x.2
    .ok (x.1 :: xs.1, xs.2)

/-- `recipetree_integer.py:447-470` — `optimal_trade_with_counters()`; `gain` sums `sum(value[0])`. In the result a deal is its set of values
with its counter. -/
def optimalTradeWithCounters (t : RecipeTree) (cnt : ℕ → ℕ) (vals : ℕ → List ℚ) : Py (List CountedSet × CountedTrade) := do
  let all ← combinedWithCountersList cnt vals t.forest []
  let values := (all.1.headD [], all.2)
  let deals := values.1.filter (fun d => d.1.sum ≥ 0)
  let pairs := deals.map (fun d => (d.1.sum, d.2))
  let store := countDeals pairs values.2
  let kmin := match pairs with
    | [] => 99999
    | d :: _ => store.getD d.2 0
  let r := counterLoop store pairs (kmin, 0, 0, 0)
  .ok (deals, ⟨pairs, store, r.2.2.1, r.2.2.2, r.1, r.2.1⟩)

end IntegerTree

end Auctions
