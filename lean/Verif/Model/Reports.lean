import Verif.Model.TreeAuctionInteger
import Verif.Model.Trade

set_option autoImplicit false

/-!
# Model of the texts that describe a trade

`TradeWithSinglePrice.__repr__` (`trade.py`), `RecipeTree.num_of_deals_explained` (`recipetree.py`, `recipetree_integer.py`) and
`TradeWithMultipleRecipes.__repr__`. A text is modelled by the list of its lines, a line by the numbers and categories that it mentions; where the
text shows the name of a category, the line holds its index. The format of numbers and the words between them are not modelled.
-/

namespace Auctions

/-- `trade.py:148-150` — the two kinds of lines of `TradeWithSinglePrice.__repr__`: "all n agents trade and pay p" and "random k out of n agents
trade and pay p"; the text starts with the category, that is its name and values. -/
inductive PriceLine
  | all (category : AgentCategory) (n : ℕ) (price : ℚ)
  | random (category : AgentCategory) (k n : ℕ) (price : ℚ)
  deriving DecidableEq, Repr

namespace TradeWithSinglePrice

/-- `trade.py:139-150` — the loop of `__repr__` over the categories, from index `i` on. `prices` may be `None`: then `prices[i]` raises
`TypeError`. -/
def reprLoop (t : TradeWithSinglePrice) : ℕ → List AgentCategory → Py (List PriceLine)
  | _, [] => .ok []
  | i, c :: cs => do
    let count ← pyGet t.psRecipe i
    let here ← if count > 0 then do
        let ps ← match t.prices with
          | none => .error .typeError
          | some ps => .ok ps
        let price ← pyGet ps i
        let required := count * t.numOfDealsCache
        if c.size = required then .ok [PriceLine.all c c.size price] else .ok [PriceLine.random c required c.size price]
      else .ok []
    let rest ← reprLoop t (i + 1) cs
    .ok (here ++ rest)

/-- `trade.py:135-151` — `__repr__`; `none` is the text "No trade". -/
def repr (t : TradeWithSinglePrice) : Py (Option (List PriceLine)) :=
  if t.numOfDealsCache = 0 then .ok none
  else do
    let lines ← reprLoop t 0 t.categories
    .ok (some lines)

end TradeWithSinglePrice

/-- `recipetree.py:452-484` — the lines of `num_of_deals_explained`:
"`i`: `k` potential deals, price", "`i`: all `n` traders selected, price", "`i`: `k` out of `n` traders selected, price",
"`a + b + …`: all `n` traders selected", "`a + b + …`: `k` out of `n` traders selected", "`k` deals overall". -/
inductive Line
  | potential (i k : ℕ) (price : ℚ)
  | allTraders (i n : ℕ) (price : ℚ)
  | someTraders (i k n : ℕ) (price : ℚ)
  | allOf (children : List ℕ) (n : ℕ)
  | someOf (children : List ℕ) (k n : ℕ)
  | overall (k : ℕ)
  deriving DecidableEq, Repr

namespace Forest

/-- `recipetree.py:471` — `[child.name for child in self.children]` (here: the indices). -/
def roots : Forest → List ℕ
  | .nil => []
  | .cons i _ siblings => i :: roots siblings

/-- `recipetree.py:442-485` — `num_of_deals_explained(prices, add_num_of_overall_deals=False)` for each tree of a forest:
(number of deals, explanation, kmin, kmax). -/
def explained (size : ℕ → ℕ) (prices : List ℚ) : Forest → Py (List (ℕ × List Line × ℕ × ℕ))
  | .nil => .ok []
  | .cons i ch siblings => do
    let price ← pyGet prices i
    let here ← match ch with
      | .nil => .ok (size i, [Line.potential i (size i) price], size i, size i)
      | .cons .. => do
        let ts ← explained size prices ch
        let sum := (ts.map (·.1)).sum
        let deals := min sum (size i)
        .ok (deals,
          (ts.map (·.2.1)).flatten
            ++ [if deals = size i then Line.allTraders i (size i) price else Line.someTraders i deals (size i) price]
            ++ [if deals = sum then Line.allOf (roots ch) sum else Line.someOf (roots ch) deals sum],
          (ts.map (·.2.2.1)).min?.getD 0, (ts.map (·.2.2.2)).max?.getD 0)
    let rest ← explained size prices siblings
    .ok (here :: rest)

end Forest

/-- `recipetree.py:442-485` — `num_of_deals_explained(prices)`. -/
def RecipeTree.explained (t : RecipeTree) (size : ℕ → ℕ) (prices : List ℚ) : Py (ℕ × List Line × ℕ × ℕ) := do
  let es ← t.forest.explained size prices
  match es with
  | [] => .error .indexError
  | (k, lines, kmin, kmax) :: _ => .ok (k, lines ++ [.overall k], kmin, kmax)

/-- `ascending_auction_recipetree_protocol.py:50`, `66-69` — the explanation computed in `__init__`, and `__repr__`; `none` is the text "No trade". -/
def TreeAuction.TradeWithMultipleRecipes.repr (t : TreeAuction.TradeWithMultipleRecipes) : Py (Option (List Line)) := do
  let e ← t.recipeTree.explained (TreeAuction.sizeAt t.categories) t.prices
  if t.numOfDeals = 0 then .ok none else .ok (some e.2.1)

namespace IntegerTree

/-- `recipetree_integer.py:649-690` — `num_of_deals_explained(prices, add_num_of_overall_deals=False)` for each tree of a forest. The line
"all traders selected" shows `category.size()` (line 679), the line "out of" shows `num_of_deals * agent_count` (line 681). -/
def explained (cnt size : ℕ → ℕ) (prices : List ℚ) : Forest → Py (List (ℕ × List Line × ℕ × ℕ))
  | .nil => .ok []
  | .cons i ch siblings => do
    let price ← pyGet prices i
    let here ← match ch with
      | .nil => .ok (size i / cnt i, [Line.potential i (size i / cnt i) price], size i / cnt i, size i / cnt i)
      | .cons .. => do
        let ts ← explained cnt size prices ch
        let sum := (ts.map (·.1)).sum
        let deals := min sum (size i / cnt i)
        .ok (deals,
          (ts.map (·.2.1)).flatten
            ++ [if deals = size i / cnt i then Line.allTraders i (size i) price else Line.someTraders i (deals * cnt i) (size i) price]
            ++ [if deals = sum then Line.allOf ch.roots sum else Line.someOf ch.roots deals sum],
          ((ts.map (·.2.2.1)).filter (· > 0)).min?.getD 0, (ts.map (·.2.2.2)).max?.getD 0)
    let rest ← explained cnt size prices siblings
    .ok (here :: rest)

end IntegerTree

/-- `ascending_auction_recipetree_integer_protocol.py:49`, `67-70` — `__repr__` of the outcome of the auction with counts (the counts are those in the
nodes of the recipe tree). -/
def IntegerAuction.repr (cnt : ℕ → ℕ) (t : TreeAuction.TradeWithMultipleRecipes) : Py (Option (List Line)) := do
  let es ← IntegerTree.explained cnt (TreeAuction.sizeAt t.categories) t.prices t.recipeTree.forest
  match es with
  | [] => .error .indexError
  | (k, lines, _) :: _ => if t.numOfDeals = 0 then .ok none else .ok (some (lines ++ [.overall k]))

end Auctions
