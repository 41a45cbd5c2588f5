import Verif.Py

set_option autoImplicit false

/-!
# Model of `prices.py`

`calculate_initial_prices` (`prices.py:240-275`) calls `scipy.optimize.linprog` and is not modelled:
where it is used, the initial price vector is a parameter.
-/

namespace Auctions

/-- `prices.py:18-24` — `dot(xx, yy)`: sum of products over the zipped lists.
(The second argument is always a recipe, a list of counts.) -/
def dot : List ℚ → List ℕ → ℚ
  | x :: xs, y :: ys => x * y + dot xs ys
  | _, _ => 0

/-- `prices.py:27-29` — `class PriceStatus`. -/
inductive PriceStatus
  | stoppedAtAgentValue
  | stoppedAtZeroSum
  deriving DecidableEq, Repr

/-- `prices.py:32-41` — `class AscendingPriceVector`. `status = none` models Python's initial `None`. -/
structure AscendingPriceVector where
  psRecipe : List ℕ
  prices : List ℚ
  status : Option PriceStatus
  deriving DecidableEq, Repr

namespace AscendingPriceVector

/-- `prices.py:37-41` — `__init__` with a single number as initial price. -/
def init (psRecipe : List ℕ) (initialPrice : ℚ) : AscendingPriceVector :=
  ⟨psRecipe, List.replicate psRecipe.length initialPrice, none⟩

/-- `prices.py:37-41` — `__init__` with a list of initial prices. -/
def initList (psRecipe : List ℕ) (initialPrices : List ℚ) : AscendingPriceVector :=
  ⟨psRecipe, initialPrices, none⟩

/-- `prices.py:49-50` — `price_sum()`. -/
def priceSum (p : AscendingPriceVector) : ℚ := dot p.prices p.psRecipe

/-- `prices.py:52-53` — `price_sum_without_category(i)`. -/
def priceSumWithoutCategory (p : AscendingPriceVector) (i : ℕ) : Py ℚ := do
  let ri ← pyGet p.psRecipe i
  let pi ← pyGet p.prices i
  .ok (p.priceSum - ri * pi)

/-- `prices.py:55-65` — `price_sum_after_increase(i, new_price)`. -/
def priceSumAfterIncrease (p : AscendingPriceVector) (i : ℕ) (newPrice : ℚ) : Py ℚ := do
  let s ← p.priceSumWithoutCategory i
  let ri ← pyGet p.psRecipe i
  .ok (s + ri * newPrice)

/-- `prices.py:67-119` — `increase_price_up_to_balance(i, new_price, _, sum_upper_bound=0)`. -/
def increasePriceUpToBalance (p : AscendingPriceVector) (i : ℕ) (newPrice : ℚ) (sumUpperBound : ℚ := 0) :
    Py AscendingPriceVector := do
  let count ← pyGet p.psRecipe i
  let sumWithoutCategory ← p.priceSumWithoutCategory i
  let newSum := sumWithoutCategory + count * newPrice
  if newSum ≥ sumUpperBound then do
    let fixedNewPrice ← pyDiv (sumUpperBound - sumWithoutCategory) count
    .ok { p with prices := p.prices.set i fixedNewPrice, status := some .stoppedAtZeroSum }
  else
    .ok { p with prices := p.prices.set i newPrice, status := some .stoppedAtAgentValue }

end AscendingPriceVector

/-- `prices.py:125-152` — `class SimultaneousAscendingPriceVectors`.
`prices` is `self.vector.prices`; the recipe of `self.vector` is `ps_recipes[0]`. -/
structure SimultaneousAscendingPriceVectors where
  psRecipes : List (List ℕ)
  prices : List ℚ
  status : Option PriceStatus
  deriving DecidableEq, Repr

namespace SimultaneousAscendingPriceVectors

/-- `prices.py:133-152` — `__init__`; `initialPrices` stands for the result of `calculate_initial_prices`. -/
def init (psRecipes : List (List ℕ)) (initialPrices : List ℚ) : Py SimultaneousAscendingPriceVectors :=
  match psRecipes with
  | [] => .error .valueError
  | r :: rs => if (r :: rs).any (fun q => q.length ≠ r.length) then .error .valueError
    else .ok ⟨r :: rs, initialPrices, none⟩

/-- `prices.py:154-155` — `price_sum()`: the sum of the vector of recipe 0. -/
def priceSum (v : SimultaneousAscendingPriceVectors) : ℚ := dot v.prices (v.psRecipes.headD [])

/-- `prices.py:205-207` — the inner loop: the number of increases whose category has count 1 in `recipe`. -/
def increasesInRecipe (recipe : List ℕ) : List (ℕ × ℚ) → Py ℕ
  | [] => .ok 0
  | (i, _) :: rest => do
    let c ← pyGet recipe i
    let n ← increasesInRecipe recipe rest
    .ok (if c = 1 then n + 1 else n)

/-- `prices.py:203-207` — `increases_per_recipe`. -/
def increasesPerRecipe (increases : List (ℕ × ℚ)) : List (List ℕ) → Py (List ℕ)
  | [] => .ok []
  | r :: rs => do
    let n ← increasesInRecipe r increases
    let ns ← increasesPerRecipe increases rs
    .ok (n :: ns)

/-- `prices.py:213-214` — `increases_to_new_prices`. -/
def increasesToNewPrices (prices : List ℚ) : List (ℕ × ℚ) → Py (List ℚ)
  | [] => .ok []
  | (i, newPrice) :: rest => do
    let pi ← pyGet prices i
    let xs ← increasesToNewPrices prices rest
    .ok ((newPrice - pi) :: xs)

/-- `prices.py:219-222`, `226-232` — the loop adding `min_increase` to each listed category in turn. -/
def applyIncreases (delta : ℚ) : List ℚ → List (ℕ × ℚ) → Py (List ℚ)
  | prices, [] => .ok prices
  | prices, (i, _) :: rest => do
    let pi ← pyGet prices i
    applyIncreases delta (prices.set i (pi + delta)) rest

/-- `prices.py:174-232` — `increase_prices(increases, sum_upper_bound=0)`; an increase is a pair
(category index, target price); the third component (description) is only logged. -/
def increasePrices (v : SimultaneousAscendingPriceVectors) (increases : List (ℕ × ℚ)) (sumUpperBound : ℚ := 0) :
    Py SimultaneousAscendingPriceVectors := do
  let iprs ← increasesPerRecipe increases v.psRecipes
  if iprs.any (fun n => n ≠ 1) then .error .valueError
  else do
    let increaseToUpperBound := sumUpperBound - v.priceSum
    let toNew ← increasesToNewPrices v.prices increases
    let minToNew ← pyMin toNew
    let minIncrease := min minToNew increaseToUpperBound
    let prices' ← applyIncreases minIncrease v.prices increases
    if minIncrease = increaseToUpperBound then
      .ok { v with prices := prices', status := some .stoppedAtZeroSum }
    else
      .ok { v with prices := prices', status := some .stoppedAtAgentValue }

end SimultaneousAscendingPriceVectors

end Auctions
