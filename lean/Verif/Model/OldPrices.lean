import Verif.Model.Prices

set_option autoImplicit false

/-!
# Model of `old/SimultaneousAscendingPriceVector.py`

All the price-vectors are made from one list of initial prices (lines 52-55), and `AscendingPriceVector.__init__` keeps a list that it
gets (`prices.py:40`): the vectors share one list object, so an increase in one of them is seen in all. The model has this one list.
`calculate_initial_prices` calls `linprog` and is not modelled: its result is a parameter.
The `status` of the single vectors is set but never read; it is not modelled. The third component of an increase is only logged.
-/

namespace Auctions

/-- `old/SimultaneousAscendingPriceVector.py:34-59` — the old `class SimultaneousAscendingPriceVectors`; `prices` is the list shared by the vectors. -/
structure OldPriceVectors where
  psRecipes : List (List ℕ)
  prices : List ℚ
  status : Option PriceStatus
  deriving DecidableEq, Repr

namespace OldPriceVectors

/-- `old/SimultaneousAscendingPriceVector.py:43-59` — `__init__`. -/
def init (psRecipes : List (List ℕ)) (initialPrices : List ℚ) : Py OldPriceVectors :=
  match psRecipes with
  | [] => .error .valueError
  | r :: rs => if (r :: rs).any (fun q => q.length ≠ r.length) then .error .valueError
    else .ok ⟨r :: rs, initialPrices, none⟩

/-- `old/SimultaneousAscendingPriceVector.py:61-62` — `price_sum()`: the sum of vector 0. -/
def priceSum (v : OldPriceVectors) : ℚ := dot v.prices (v.psRecipes.headD [])

/-- `old/SimultaneousAscendingPriceVector.py:77-85` — the body of the inner loop for one category of one vector. -/
def mapStep (recipe : List ℕ) (prices : List ℚ) (result : List (Option ℚ)) (c : ℕ) : Py (List (Option ℚ)) := do
  let count ← pyGet recipe c
  if count > 0 then do
    let p ← pyGet prices c
    match ← pyGet result c with
    | none => .ok (result.set c (some p))
    | some q => if q ≠ p then .error .valueError else .ok result
  else .ok result

/-- `old/SimultaneousAscendingPriceVector.py:75-86` — the loops of `map_category_index_to_price()` over vectors and categories. -/
def mapLoop (numCategories : ℕ) (prices : List ℚ) : List (List ℕ) → List (Option ℚ) → Py (List (Option ℚ))
  | [], result => .ok result
  | r :: rs, result => do
    let result' ← (List.range numCategories).foldlM (mapStep r prices) result
    mapLoop numCategories prices rs result'

/-- `old/SimultaneousAscendingPriceVector.py:64-86` — `map_category_index_to_price()`; `None` for a category in no recipe. -/
def mapCategoryIndexToPrice (v : OldPriceVectors) : Py (List (Option ℚ)) :=
  let n := (v.psRecipes.headD []).length
  mapLoop n v.prices v.psRecipes (List.replicate n none)

/-- `old/SimultaneousAscendingPriceVector.py:112-115` — `new_sums`. -/
def newSums (prices : List ℚ) : List (List ℕ) → List (ℕ × ℚ) → Py (List ℚ)
  | [], _ => .ok []
  | _ :: _, [] => .error .indexError
  | r :: rs, (c, target) :: rest => do
    let s ← (AscendingPriceVector.initList r prices).priceSumAfterIncrease c target
    let ss ← newSums prices rs rest
    .ok (s :: ss)

/-- `old/SimultaneousAscendingPriceVector.py:116-118` — `min_new_sum`: sums closer to 0 than 10^-11 are set to 0. -/
def roundedMin (sums : List ℚ) : Py ℚ := do
  let m ← pyMin sums
  let m' := min 0 m
  .ok (if -(1 / 100000000000) < m' ∧ m' < 1 / 100000000000 then 0 else m')

/-- `old/SimultaneousAscendingPriceVector.py:121-123` — the loop raising the prices, one vector after the other. -/
def raiseLoop (bound : ℚ) : List (List ℕ) → List (ℕ × ℚ) → List ℚ → Py (List ℚ)
  | [], _, prices => .ok prices
  | _ :: _, [], _ => .error .indexError
  | r :: rs, (c, target) :: rest, prices => do
    let p ← (AscendingPriceVector.initList r prices).increasePriceUpToBalance c target bound
    raiseLoop bound rs rest p.prices

/-- `old/SimultaneousAscendingPriceVector.py:91-125` — `increase_prices(increases)`. -/
def increasePrices (v : OldPriceVectors) (increases : List (ℕ × ℚ)) : Py OldPriceVectors := do
  if increases.length ≠ v.psRecipes.length then .error .valueError
  else do
    let _ ← v.mapCategoryIndexToPrice
    let sums ← newSums v.prices v.psRecipes increases
    let bound ← roundedMin sums
    let prices ← raiseLoop bound v.psRecipes increases v.prices
    .ok { v with prices := prices, status := some (if bound = 0 then .stoppedAtZeroSum else .stoppedAtAgentValue) }

end OldPriceVectors

end Auctions
