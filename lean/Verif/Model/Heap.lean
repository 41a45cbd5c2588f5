import Verif.Model.Ascending
import Verif.Model.McAfee
import Verif.Model.TradeReduction
import Verif.Model.TreeAuction
import Verif.Model.TreeAuctionInteger

set_option autoImplicit false

/-!
# The protocols again, with explicit objects

In the other model files an `AgentCategory` is an immutable value. Here it is an object: it has an identity, its attribute `values` is a
reference to a list object, and both kinds of objects live in a heap and are modified in place, as in Python. Two variables (or two
entries of `market.categories`, or the attributes `values` of two categories) can refer to the same object. A run that raises an
exception leaves the heap as it was at that moment.

A `Market` is represented by the list of references `market.categories`; no code modifies this list.
-/

namespace Auctions.Heap

open Auctions

/-- `agents.py:40-43` — an `AgentCategory` object: its name, and the address of the list object `self.values`. -/
structure CatObj where
  name : String
  values : ℕ
  deriving DecidableEq, Repr

/-- All list objects and all category objects created so far; an address is a position. -/
structure Heap where
  lists : List (List ℚ)
  cats : List CatObj
  deriving DecidableEq, Repr

/-- A Python computation: it gets the heap, and leaves a new heap also when it raises. -/
def HPy (α : Type) : Type := Heap → Py α × Heap

instance : Monad HPy where
  pure a := fun h => (.ok a, h)
  bind x f := fun h => match x h with
    | (.ok a, h') => f a h'
    | (.error e, h') => (.error e, h')

/-- A computation that does not touch the heap. -/
def lift {α : Type} (p : Py α) : HPy α := fun h => (p, h)

/-- A new list object with the given contents. -/
def newList (vs : List ℚ) : HPy ℕ := fun h => (.ok h.lists.length, { h with lists := h.lists ++ [vs] })

/-- The contents of a list object (a dangling address, which cannot occur, is an `IndexError`). -/
def readList (l : ℕ) : HPy (List ℚ) := fun h => (pyGet h.lists l, h)

/-- Modify a list object in place. -/
def writeList (l : ℕ) (vs : List ℚ) : HPy Unit := fun h => (.ok (), { h with lists := h.lists.set l vs })

/-- A new category object. -/
def newCat (o : CatObj) : HPy ℕ := fun h => (.ok h.cats.length, { h with cats := h.cats ++ [o] })

/-- The attributes of a category object (a dangling address, which cannot occur, is an `IndexError`). -/
def readCat (r : ℕ) : HPy CatObj := fun h => (pyGet h.cats r, h)

/-- `agents.py:40-43` — `AgentCategory(name, values)`, where `values` is the list object `l`: `list(values)` is a new list object,
which is then sorted in place. -/
def initCat (name : String) (l : ℕ) : HPy ℕ := do
  let vs ← readList l
  let l' ← newList vs
  writeList l' (sortDesc vs)
  newCat ⟨name, l'⟩

/-- `self.values`, read. -/
def values (r : ℕ) : HPy (List ℚ) := do
  let o ← readCat r
  readList o.values

/-- `agents.py:45-49` — `size()`. -/
def size (r : ℕ) : HPy ℕ := do
  let vs ← values r
  pure vs.length

/-- `agents.py:57-67` — `append(value)`: `self.values.append(value)`, then `self.values.sort(reverse=True)`, both in place. -/
def append (r : ℕ) (v : ℚ) : HPy Unit := do
  let o ← readCat r
  let vs ← readList o.values
  writeList o.values (vs ++ [v])
  writeList o.values (sortDesc (vs ++ [v]))

/-- `agents.py:70-74` — `highest_agent_value()`. -/
def highestAgentValue (r : ℕ) : HPy ℚ := do
  let vs ← values r
  match vs with
  | [] => lift (.error .indexError)
  | v :: _ => pure v

/-- `agents.py:82-86` — `lowest_agent_value()`. -/
def lowestAgentValue (r : ℕ) : HPy ℚ := do
  let vs ← values r
  match vs.getLast? with
  | none => lift (.error .indexError)
  | some v => pure v

/-- `agents.py:88-93` — `self.values.pop(0)`. -/
def removeHighestAgent (r : ℕ) : HPy Unit := do
  let o ← readCat r
  let vs ← readList o.values
  match vs with
  | [] => lift (.error .indexError)
  | _ :: vs' => writeList o.values vs'

/-- `agents.py:95-101` — `remove_highest_agents(count)`. -/
def removeHighestAgents (r : ℕ) : ℕ → HPy Unit
  | 0 => pure ()
  | n + 1 => do
    removeHighestAgent r
    removeHighestAgents r n

/-- `agents.py:103-108` — `self.values.pop(-1)`. -/
def removeLowestAgent (r : ℕ) : HPy Unit := do
  let o ← readCat r
  let vs ← readList o.values
  match vs with
  | [] => lift (.error .indexError)
  | _ :: _ => writeList o.values vs.dropLast

/-- `agents.py:110-111` — `clone()`: passes the name and the list object `self.values` to the constructor. -/
def cloneCat (r : ℕ) : HPy ℕ := do
  let o ← readCat r
  initCat o.name o.values

/-- `markets.py:228` — `[c.clone() for c in self.categories]`. -/
def cloneCats : List ℕ → HPy (List ℕ)
  | [] => pure []
  | r :: rs => do
    let r' ← cloneCat r
    let rs' ← cloneCats rs
    pure (r' :: rs')

/-- `markets.py:227-228` — `clone()`; the constructor raises `ValueError` for a market without categories. -/
def clone (m : List ℕ) : HPy (List ℕ) := do
  let m' ← cloneCats m
  match m' with
  | [] => lift (.error .valueError)
  | _ :: _ => pure m'

/-- `markets.py:106-114` — `empty_agent_categories()`: each constructor call gets a new empty list. -/
def emptyAgentCategories : List ℕ → HPy (List ℕ)
  | [] => pure []
  | r :: rs => do
    let o ← readCat r
    let l ← newList []
    let r' ← initCat o.name l
    let rs' ← emptyAgentCategories rs
    pure (r' :: rs')

/-- `markets.py:38-44` — `append_trader(category_index, value)`. -/
def appendTrader (m : List ℕ) (i : ℕ) (v : ℚ) : HPy Unit := do
  let r ← lift (pyGet m i)
  append r v

/-- `markets.py:59-85` — `get_highest_agents(ps_recipe)`. The slices `self.values[0:count]` are new lists that only this function sees;
they are values here. -/
def getHighestAgents : List ℕ → List ℕ → HPy (Option (List ℚ))
  | [], _ => pure (some [])
  | _ :: _, [] => lift (.error .indexError)
  | c :: cs, r :: rs => do
    let vs ← values c
    if vs.length < r then pure none
    else do
      let rest ← getHighestAgents cs rs
      match rest with
      | none => pure none
      | some ps => pure (some (vs.take r ++ ps))

/-- `markets.py:87-95` — `remove_highest_agents(ps_recipe)`. -/
def removeHighestAgentsOfAll : List ℕ → List ℕ → HPy Unit
  | [], _ => pure ()
  | _ :: _, [] => lift (.error .indexError)
  | c :: cs, r :: rs => do
    removeHighestAgents c r
    removeHighestAgentsOfAll cs rs

/-- `markets.py:165-174` — the loop of `optimal_trade` on the market `remaining`. -/
def optimalTradeLoop (remaining : List ℕ) (psRecipe : List ℕ) (includeZero : Bool) : ℕ → List (List ℚ) → HPy (List (List ℚ))
  | 0, trade => pure trade
  | n + 1, trade => do
    let ps ← getHighestAgents remaining psRecipe
    match ps with
    | none => pure trade
    | some ps =>
      if ps.sum < 0 ∨ (ps.sum = 0 ∧ includeZero = false) then pure trade
      else do
        removeHighestAgentsOfAll remaining psRecipe
        optimalTradeLoop remaining psRecipe includeZero n (trade ++ [ps])

/-- `markets.py:116-176` — `optimal_trade`: the trade, and the categories of the remaining market. -/
def optimalTrade (m : List ℕ) (psRecipe : List ℕ) (maxIterations : ℕ := 2000000) (includeZero : Bool := true) :
    HPy (List (List ℚ) × List ℕ) := do
  if psRecipe.length ≠ m.length then lift (.error .valueError)
  else do
    let remaining ← clone m
    let trade ← optimalTradeLoop remaining psRecipe includeZero maxIterations []
    pure (sortBySum trade, remaining)

/-- A `TradeWithSinglePrice` object (`trade.py:101-108`): it keeps the list of category references that it is given. -/
structure Trade where
  categories : List ℕ
  psRecipe : List ℕ
  prices : Option (List ℚ)
  numOfDealsCache : ℕ

/-- `trade.py:106-108` — the list `[floor(size/count) for (category,count) in zip(...) if count>0]`. -/
def potentialDeals : List ℕ → List ℕ → HPy (List ℕ)
  | c :: cs, r :: rs =>
    if r > 0 then do
      let s ← size c
      let rest ← potentialDeals cs rs
      pure (s / r :: rest)
    else potentialDeals cs rs
  | _, _ => pure []

/-- `trade.py:101-108` — `TradeWithSinglePrice(categories, ps_recipe, prices)`. -/
def newTrade (categories : List ℕ) (psRecipe : List ℕ) (prices : Option (List ℚ)) : HPy Trade := do
  let ds ← potentialDeals categories psRecipe
  let k ← lift (pyMinNat ds)
  pure ⟨categories, psRecipe, prices, k⟩

/-- `ascending_auction_protocol.py:99` — `relevant_category_indices`. -/
def relevantCategoryIndices (m : List ℕ) (psRecipe : List ℕ) : List ℕ :=
  (List.range m.length).filter (fun i => Ascending.recipeAt psRecipe i > 0)

/-- `ascending_auction_protocol.py:112` — the sizes of the categories at this moment, from which `fractional_potential_ps` is computed. -/
def sizes : List ℕ → HPy (List ℕ)
  | [] => pure []
  | r :: rs => do
    let s ← size r
    let ss ← sizes rs
    pure (s :: ss)

/-- `ascending_auction_protocol.py:115-133` — the `while True` loop. The first argument is fuel; `none` means that it ran out. -/
def ascendingLoop (remaining : List ℕ) (psRecipe relevant : List ℕ) : ℕ → AscendingPriceVector → HPy (Option AscendingPriceVector)
  | 0, _ => pure none
  | fuel + 1, prices => do
    let ss ← sizes remaining
    let main ← lift (pyMaxBy (fun i => ((ss.getD i 0 : ℕ) : ℚ) / (Ascending.recipeAt psRecipe i : ℚ)) relevant)
    let mainCategory ← lift (pyGet remaining main)
    let s ← size mainCategory
    if s = 0 then pure (some prices)
    else do
      let target ← lowestAgentValue mainCategory
      let prices' ← lift (prices.increasePriceUpToBalance main target)
      if prices'.status = some .stoppedAtZeroSum then pure (some prices')
      else do
        removeLowestAgent mainCategory
        ascendingLoop remaining psRecipe relevant fuel prices'

/-- `ascending_auction_protocol.py:24-136` — `budget_balanced_ascending_auction`. -/
def ascendingAuction (m : List ℕ) (psRecipe : List ℕ) (fuel : ℕ) (maxIterations : ℕ := 999999999) : HPy (Option Trade) := do
  if psRecipe.length ≠ m.length then lift (.error .valueError)
  else do
    let _ ← optimalTrade m psRecipe maxIterations
    let remaining ← clone m
    let out ← ascendingLoop remaining psRecipe (relevantCategoryIndices m psRecipe) fuel (AscendingPriceVector.init psRecipe (-MAX_VALUE))
    match out with
    | none => pure none
    | some prices => do
      let t ← newTrade remaining psRecipe (some prices.prices)
      pure (some t)

/-- `mcafee_protocol.py:154-156` (also `trade_reduction_protocol.py:218-220`) — the loop over the categories of the remaining market. -/
def padEmpty : List ℕ → HPy Unit
  | [] => pure ()
  | c :: cs => do
    let s ← size c
    if s = 0 then do
      append c (-MAX_VALUE)
      padEmpty cs
    else padEmpty cs

/-- `mcafee_protocol.py:178-180` — `actual_traders[i].append(ps[i])` for every category. -/
def appendEach : List ℕ → List ℚ → HPy Unit
  | [], _ => pure ()
  | _ :: _, [] => lift (.error .indexError)
  | c :: cs, v :: vs => do
    append c v
    appendEach cs vs

/-- `mcafee_protocol.py:177-180` — the loop over the procurement-sets. -/
def appendAll (traders : List ℕ) : List (List ℚ) → HPy Unit
  | [] => pure ()
  | ps :: rest => do
    appendEach traders ps
    appendAll traders rest

/-- `mcafee_protocol.py:44-185` — `mcafee_trade_reduction`. (`del optimal_trade.procurement_sets[0]` changes a list that only this
function sees; it is a value here.) -/
def mcafee (m : List ℕ) (psRecipe : List ℕ) (priceHeuristic : Bool := true) : HPy Trade := do
  if psRecipe.length ≠ m.length then lift (.error .valueError)
  else if psRecipe.any (fun r => r ≠ 1) then lift (.error .valueError)
  else do
    let (optimal, remaining) ← optimalTrade m psRecipe
    padEmpty remaining
    let firstNegative ← getHighestAgents remaining psRecipe
    let candidate ← lift (if priceHeuristic then McAfee.priceCandidate firstNegative else .ok 0)
    let traders ← emptyAgentCategories m
    match optimal with
    | [] => newTrade traders psRecipe (some (List.replicate m.length 0))
    | lastPositive :: others =>
      if priceHeuristic ∧ McAfee.isPriceGoodForPs candidate lastPositive then do
        let prices ← lift (McAfee.heuristicPrices candidate lastPositive m.length)
        appendAll traders (lastPositive :: others)
        newTrade traders psRecipe (some prices)
      else do
        appendAll traders others
        newTrade traders psRecipe (some lastPositive)

/-- `markets.py:179-200` — `best_containing_PS(category_index, value)`, from category `i` on. -/
def bestContainingPS (categoryIndex : ℕ) (value : ℚ) : ℕ → List ℕ → HPy (List ℚ)
  | _, [] => pure []
  | i, c :: cs => do
    let x ← if i = categoryIndex then pure value else highestAgentValue c
    let rest ← bestContainingPS categoryIndex value (i + 1) cs
    pure (x :: rest)

/-- The local variables that the loop `trade_reduction_protocol.py:239-282` assigns. -/
structure Locals where
  latestPrices : Option (List ℚ)
  foundExternal : Bool

/-- `actual_traders[pivot_index_to_category_index[pivot_index]].append(pivot_value)`. -/
def appendActual (traders : List ℕ) (toCategory : List ℕ) (pivot : ℕ) (value : ℚ) : HPy Unit := do
  let ci ← lift (pyGet toCategory pivot)
  let c ← lift (pyGet traders ci)
  append c value

/-- `trade_reduction_protocol.py:243-276` — the body of the inner loop for one pivot. -/
def competeStep (m remaining traders : List ℕ) (psRecipe toCategory : List ℕ) (includingGft0 : Bool) (ps : List ℚ)
    (s : Locals) (pivot : ℕ) : HPy Locals := do
  let value ← lift (pyGet ps pivot)
  if s.foundExternal then do
    appendActual traders toCategory pivot value
    pure s
  else do
    let ci := TradeReduction.convertCategoryIndex psRecipe pivot
    let _ ← lift (pyGet m ci)
    let best ← bestContainingPS ci value 0 remaining
    let gft ← lift (Market.weightedSum best psRecipe)
    if gft > 0 ∨ (includingGft0 = true ∧ gft = 0) then do
      let prices ← lift (Market.pricesLoop ci value best psRecipe 0 m.length)
      appendActual traders toCategory pivot value
      pure ⟨some prices, true⟩
    else do
      appendTrader remaining ci value
      pure s

/-- `trade_reduction_protocol.py:280-282` — the body of the inner loop once prices are known. -/
def tradeStep (traders : List ℕ) (toCategory : List ℕ) (ps : List ℚ) (s : Locals) (pivot : ℕ) : HPy Locals := do
  let value ← lift (pyGet ps pivot)
  appendActual traders toCategory pivot value
  pure s

/-- A `for` loop. -/
def forLoop {α σ : Type} (body : σ → α → HPy σ) : σ → List α → HPy σ
  | s, [] => pure s
  | s, x :: xs => do
    let s' ← body s x
    forLoop body s' xs

/-- `trade_reduction_protocol.py:239-282` — the body of the outer loop for one procurement-set. -/
def psStep (m remaining traders : List ℕ) (psRecipe pivots toCategory : List ℕ) (includingGft0 : Bool) (s : Locals) (ps : List ℚ) :
    HPy Locals :=
  match s.latestPrices with
  | none => forLoop (competeStep m remaining traders psRecipe toCategory includingGft0 ps) s pivots
  | some _ => forLoop (tradeStep traders toCategory ps) s pivots

/-- `trade_reduction_protocol.py:214-216` — the procurement-sets to compete; the highest non-positive one, if any, is removed from the
remaining market. -/
def toCompete (remaining : List ℕ) (psRecipe : List ℕ) (optimal : List (List ℚ)) : HPy (List (List ℚ)) := do
  let highestNegative ← getHighestAgents remaining psRecipe
  match highestNegative with
  | some (x :: xs) => do
    removeHighestAgentsOfAll remaining psRecipe
    pure ((x :: xs) :: optimal)
  | _ => pure optimal

/-- `trade_reduction_protocol.py:34-286` — `budget_balanced_trade_reduction`. -/
def tradeReduction (m : List ℕ) (psRecipe : List ℕ) (includingGft0 : Bool := true) : HPy Trade := do
  if psRecipe.length ≠ m.length then lift (.error .valueError)
  else do
    let (optimal, remaining) ← optimalTrade m psRecipe
    if optimal.length = 0 then do
      let traders ← emptyAgentCategories m
      newTrade traders psRecipe (some (List.replicate psRecipe.length 0))
    else do
      let list ← toCompete remaining psRecipe optimal
      padEmpty remaining
      let traders ← emptyAgentCategories m
      let s ← forLoop
        (psStep m remaining traders psRecipe (TradeReduction.pivotIndexes 0 psRecipe)
          (TradeReduction.pivotIndexToCategoryIndex 0 psRecipe) includingGft0) ⟨none, false⟩ list
      newTrade traders psRecipe s.latestPrices

end Auctions.Heap
