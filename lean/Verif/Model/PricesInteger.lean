import Verif.Model.Prices

set_option autoImplicit false

/-!
# Model of `prices_integer.py`

Differs from `prices.py` by a list `agent_counts` in every vector, by not enforcing the condition of one increase per recipe, and by
computing the initial prices itself.
-/

namespace Auctions.IntegerPrices

open Auctions

/-- `prices_integer.py:18-25` — `dot(xx, yy, zz)` with all three arguments given. (An empty `zz` counts as absent, line 24; the
code never passes one.) -/
def dot3 : List ℚ → List ℕ → List ℕ → ℚ
  | x :: xs, y :: ys, z :: zs => x * y * z + dot3 xs ys zs
  | _, _, _ => 0

/-- `prices_integer.py:41`, `151` — the default for `agent_counts`: ones (also for an empty list). -/
def countsOrOnes (n : ℕ) (agentCounts : List ℕ) : List ℕ := if agentCounts = [] then List.replicate n 1 else agentCounts

/-- `prices_integer.py:33-43` — `class AscendingPriceVector`. -/
structure AscendingPriceVector where
  psRecipe : List ℕ
  agentCounts : List ℕ
  prices : List ℚ
  status : Option PriceStatus
  deriving DecidableEq, Repr

namespace AscendingPriceVector

/-- `prices_integer.py:38-43` — `__init__` with a single number as initial price. -/
def init (psRecipe : List ℕ) (initialPrice : ℚ) (agentCounts : List ℕ) : AscendingPriceVector :=
  ⟨psRecipe, countsOrOnes psRecipe.length agentCounts, List.replicate psRecipe.length initialPrice, none⟩

/-- `prices_integer.py:51-52` — `price_sum()`. -/
def priceSum (p : AscendingPriceVector) : ℚ := dot3 p.prices p.psRecipe p.agentCounts

/-- `prices_integer.py:54-55` — `price_sum_without_category(category_index)`. -/
def priceSumWithoutCategory (p : AscendingPriceVector) (i : ℕ) : Py ℚ := do
  let ri ← pyGet p.psRecipe i
  let pi ← pyGet p.prices i
  let ai ← pyGet p.agentCounts i
  .ok (p.priceSum - ri * pi * ai)

/-- `prices_integer.py:57-73` — `price_sum_after_increase(category_index, new_price)`. -/
def priceSumAfterIncrease (p : AscendingPriceVector) (i : ℕ) (newPrice : ℚ) : Py ℚ := do
  let s ← p.priceSumWithoutCategory i
  let ri ← pyGet p.psRecipe i
  let ai ← pyGet p.agentCounts i
  .ok (s + ri * newPrice * ai)

/-- `prices_integer.py:75-127` — `increase_price_up_to_balance(category_index, new_price, description, sum_upper_bound)`;
the computation of the new sum does not use `agent_counts`. -/
def increasePriceUpToBalance (p : AscendingPriceVector) (i : ℕ) (newPrice : ℚ) (sumUpperBound : ℚ := 0) : Py AscendingPriceVector := do
  let count ← pyGet p.psRecipe i
  let sumWithoutCategory ← p.priceSumWithoutCategory i
  let newSum := sumWithoutCategory + count * newPrice
  if newSum ≥ sumUpperBound then do
    let fixed ← pyDiv (sumUpperBound - sumWithoutCategory) count
    .ok { p with prices := p.prices.set i fixed, status := some .stoppedAtZeroSum }
  else .ok { p with prices := p.prices.set i newPrice, status := some .stoppedAtAgentValue }

end AscendingPriceVector

/-- `prices_integer.py:282-287` — the loop over `j` from `num_categories - 1` down to 0 up to the first `j` with `recipe[j] > 0`. -/
def lastPositive (recipe : List ℕ) : ℕ → Py (Option ℕ)
  | 0 => .ok none
  | j + 1 => do
    let x ← pyGet recipe j
    if x > 0 then .ok (some j) else lastPositive recipe j

/-- `prices_integer.py:280-288` — the loop over the recipes, on the current `price_vector`. -/
def initialPricesLoop (bound : ℚ) (n : ℕ) (maxDepth : ℕ) : List (List ℕ) → List ℚ → Py (List ℚ)
  | [], prices => .ok prices
  | recipe :: rest, prices => do
    match ← lastPositive recipe n with
    | none => initialPricesLoop bound n maxDepth rest prices
    | some j => do
      let pj ← pyGet prices j
      if pj ≠ bound then .error .valueError
      else do
        let rj ← pyGet recipe j
        initialPricesLoop bound n maxDepth rest
          (prices.set j (bound * ((maxDepth : ℚ) - recipe.sum + rj) / rj))

/-- `prices_integer.py:250-288` — `calculate_initial_prices(ps_recipes, max_price_per_category)`. -/
def calculateInitialPrices (psRecipes : List (List ℕ)) (bound : ℚ) : Py (List ℚ) :=
  match psRecipes with
  | [] => .error .indexError
  | r :: rs =>
    let maxDepth := (rs.map List.sum).foldl max r.sum
    initialPricesLoop bound r.length maxDepth (r :: rs) (List.replicate r.length bound)

/-- `prices_integer.py:133-162` — `class SimultaneousAscendingPriceVectors`.
`prices` is `self.vector.prices`; the recipe of `self.vector` is `ps_recipes[0]`, its counts are `agent_counts`. -/
structure SimultaneousAscendingPriceVectors where
  psRecipes : List (List ℕ)
  agentCounts : List ℕ
  prices : List ℚ
  status : Option PriceStatus
  deriving DecidableEq, Repr

namespace SimultaneousAscendingPriceVectors

/-- `prices_integer.py:142-162` — `__init__`. -/
def init (psRecipes : List (List ℕ)) (initialPriceSum : ℚ) (agentCounts : List ℕ) : Py SimultaneousAscendingPriceVectors :=
  match psRecipes with
  | [] => .error .valueError
  | r :: rs => if (r :: rs).any (fun q => q.length ≠ r.length) then .error .valueError
    else do
      let prices ← calculateInitialPrices (r :: rs) initialPriceSum
      .ok ⟨r :: rs, countsOrOnes r.length agentCounts, prices, none⟩

/-- `prices_integer.py:164-165` — `price_sum()`. -/
def priceSum (v : SimultaneousAscendingPriceVectors) : ℚ := dot3 v.prices (v.psRecipes.headD []) v.agentCounts

/-- `prices_integer.py:215-217` — the inner loop over the increases, for one recipe: `1 / agent_counts[category_index]` for each increase of a
category that the recipe contains. -/
def increasesInRecipe (counts recipe : List ℕ) : List (ℕ × ℚ) → Py ℚ
  | [] => .ok 0
  | (i, _) :: rest => do
    let c ← pyGet recipe i
    let x ← if c > 0 then do
        let a ← pyGet counts i
        pyDiv 1 a
      else .ok 0
    let n ← increasesInRecipe counts recipe rest
    .ok (x + n)

/-- `prices_integer.py:213-217` — `increases_per_recipe` (only logged). -/
def increasesPerRecipe (counts : List ℕ) (increases : List (ℕ × ℚ)) : List (List ℕ) → Py (List ℚ)
  | [] => .ok []
  | r :: rs => do
    let n ← increasesInRecipe counts r increases
    let ns ← increasesPerRecipe counts increases rs
    .ok (n :: ns)

/-- `prices_integer.py:223-224` — `increases_to_new_prices`. -/
def increasesToNewPrices (prices : List ℚ) : List (ℕ × ℚ) → Py (List ℚ)
  | [] => .ok []
  | (i, newPrice) :: rest => do
    let pi ← pyGet prices i
    let xs ← increasesToNewPrices prices rest
    .ok ((newPrice - pi) :: xs)

/-- `prices_integer.py:229-232`, `236-242` — the loop adding `min_increase * agent_counts[category_index]` to each listed category. -/
def applyIncreases (counts : List ℕ) (delta : ℚ) : List ℚ → List (ℕ × ℚ) → Py (List ℚ)
  | prices, [] => .ok prices
  | prices, (i, _) :: rest => do
    let pi ← pyGet prices i
    let a ← pyGet counts i
    applyIncreases counts delta (prices.set i (pi + delta * a)) rest

/-- `prices_integer.py:184-242` — `increase_prices(increases, sum_upper_bound=0)`; lines 219-220, the check that there is one increase per
recipe, are commented out. -/
def increasePrices (v : SimultaneousAscendingPriceVectors) (increases : List (ℕ × ℚ)) (sumUpperBound : ℚ := 0) :
    Py SimultaneousAscendingPriceVectors := do
  let _ ← increasesPerRecipe v.agentCounts increases v.psRecipes
  let increaseToUpperBound := sumUpperBound - v.priceSum
  let toNew ← increasesToNewPrices v.prices increases
  let minToNew ← pyMin toNew
  let minIncrease := min minToNew increaseToUpperBound
  let prices' ← applyIncreases v.agentCounts minIncrease v.prices increases
  if minIncrease = increaseToUpperBound then
    .ok { v with prices := prices', status := some .stoppedAtZeroSum }
  else
    .ok { v with prices := prices', status := some .stoppedAtAgentValue }

end SimultaneousAscendingPriceVectors

end Auctions.IntegerPrices
