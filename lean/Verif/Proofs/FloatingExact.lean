import Verif.Proofs.FloatingBasic
import Verif.Proofs.Floating
import Verif.Model.FloatingTree

set_option autoImplicit false

/-! # Helper lemmas: without rounding, the model of `Model/Floating` and `Model/FloatingTree` is the exact model -/

namespace Auctions.Floating

open Auctions

theorem flSum_id (l : List ℚ) : flSum id l = l.sum := by
  unfold flSum
  simp only [id]
  rw [List.sum_eq_foldl]

theorem flDiv_id (a b : ℚ) : flDiv id a b = pyDiv a b := by
  unfold flDiv pyDiv
  split <;> simp_all

theorem flDot_id (x : List ℚ) (r : List ℕ) : flDot id x r = dot x r := by
  rw [dot_zipWith, flDot, flSum_id]; rfl

theorem without_id (p : AscendingPriceVector) (i : ℕ) : priceSumWithoutCategory id p i = p.priceSumWithoutCategory i := by
  unfold priceSumWithoutCategory AscendingPriceVector.priceSumWithoutCategory
  simp only [flDot_id, id]; rfl

theorem increase_id (p : AscendingPriceVector) (i : ℕ) (x : ℚ) : increasePriceUpToBalance id p i x = p.increasePriceUpToBalance i x := by
  unfold increasePriceUpToBalance AscendingPriceVector.increasePriceUpToBalance
  simp only [without_id, flDiv_id, id]

theorem potentialDeals_id (cs : List AgentCategory) (r : List ℕ) : potentialDeals id cs r = TradeWithSinglePrice.potentialDeals cs r := by
  induction cs generalizing r with
  | nil => cases r <;> rfl
  | cons c cs ih =>
    cases r with
    | nil => rfl
    | cons n r =>
      simp only [potentialDeals, TradeWithSinglePrice.potentialDeals, ih, id]
      have : ⌊(c.size : ℚ) / n⌋ = ((c.size / n : ℕ) : ℤ) := by
        have h := Rat.floor_intCast_div_natCast (c.size : ℤ) n
        simpa using h
      rw [this]; rfl

theorem initTrade_id (cs : List AgentCategory) (r : List ℕ) (p : Option (List ℚ)) : initTrade id cs r p = TradeWithSinglePrice.init cs r p := by
  unfold initTrade TradeWithSinglePrice.init
  rw [potentialDeals_id]

theorem optimalTradeLoop_id (r : List ℕ) (z : Bool) (n : ℕ) (m : Market) (t : List (List ℚ)) :
    optimalTradeLoop id r z n m t = Market.optimalTradeLoop r z n m t := by
  induction n generalizing m t with
  | zero => rfl
  | succ n ih =>
    simp only [optimalTradeLoop, Market.optimalTradeLoop, flSum_id, ih]
    rfl

theorem optimalTrade_id (m : Market) (r : List ℕ) (n : ℕ) (z : Bool) : optimalTrade id m r n z = m.optimalTrade r n z := by
  unfold optimalTrade Market.optimalTrade
  simp only [optimalTradeLoop_id]
  have h : ∀ l : List (List ℚ), l.insertionSort (fun a b => flSum id a ≤ flSum id b) = sortBySum l :=
    fun l => sort_congr (fun x _ y _ => by rw [flSum_id, flSum_id])
  simp only [h]

theorem materialGain_id (t : TradeWithMaterialBalance) : materialGain id t = t.gainFromTrade := by
  unfold materialGain TradeWithMaterialBalance.gainFromTrade
  rw [flSum_id, show flSum id = List.sum from funext flSum_id]

theorem ascendingLoop_id (r relevant : List ℕ) (fuel : ℕ) (m : Market) (p : AscendingPriceVector) :
    ascendingLoop id r relevant fuel m p = Ascending.loop r relevant fuel m p := by
  induction fuel generalizing m p with
  | zero => rfl
  | succ n ih =>
    simp only [ascendingLoop, Ascending.loop, increase_id, ih]
    rfl

theorem ascendingAuction_id (m : Market) (r : List ℕ) (fuel n : ℕ) : ascendingAuction id m r fuel n = Ascending.auction m r fuel n := by
  unfold ascendingAuction Ascending.auction
  simp only [optimalTrade_id, ascendingLoop_id, initTrade_id]
  rfl

theorem weightedSum_id (best : List ℚ) (r : List ℕ) : weightedSum id best r = Market.weightedSum best r := by
  unfold weightedSum
  induction best generalizing r with
  | nil => rfl
  | cons x xs ih =>
    cases r with
    | nil => rfl
    | cons n r =>
      simp only [products, Market.weightedSum, ← ih]
      cases products id xs r with
      | error e => rfl
      | ok l => simp [Except.bind, bind, flSum_id]

theorem pricesLoop_id (c : ℕ) (v : ℚ) (best : List ℚ) (r : List ℕ) (i n : ℕ) : pricesLoop id c v best r i n = Market.pricesLoop c v best r i n := by
  induction n generalizing i with
  | zero => rfl
  | succ n ih => simp only [pricesLoop, Market.pricesLoop, weightedSum_id, flDiv_id, ih, id]

theorem tradeReduction_id (m : Market) (r : List ℕ) (z : Bool) : tradeReduction id m r z = TradeReduction.tradeReduction m r z := by
  have h1 : ∀ tc ps s q, competeStep id m r tc z ps s q = TradeReduction.competeStep m r tc z ps s q := by
    intro tc ps s q
    unfold competeStep TradeReduction.competeStep Market.calculatePricesByExternalCompetition
    simp only [weightedSum_id, pricesLoop_id]
  have h2 : ∀ pv tc s ps, psStep id m r pv tc z s ps = TradeReduction.psStep m r pv tc z s ps := by
    intro pv tc s ps
    unfold psStep TradeReduction.psStep
    rw [show competeStep id m r tc z ps = TradeReduction.competeStep m r tc z ps from funext fun s => funext fun q => h1 tc ps s q]
    rfl
  unfold tradeReduction TradeReduction.tradeReduction
  rw [show psStep id m r (TradeReduction.pivotIndexes 0 r) (TradeReduction.pivotIndexToCategoryIndex 0 r) z = _ from
    funext fun s => funext fun ps => h2 _ _ s ps]
  simp only [optimalTrade_id, initTrade_id]
  rfl

theorem mcafee_id (m : Market) (r : List ℕ) (h : Bool) : mcafeeTradeReduction id m r h = McAfee.mcafeeTradeReduction m r h := by
  unfold mcafeeTradeReduction McAfee.mcafeeTradeReduction
  have h1 : ∀ o, priceCandidate id o = McAfee.priceCandidate o := by
    intro o
    cases o with
    | none => rfl
    | some ps => simp only [priceCandidate, McAfee.priceCandidate, flDiv_id, flSum_id]
  have h2 : ∀ c l n, heuristicPrices id c l n = McAfee.heuristicPrices c l n := fun c l n => rfl
  simp only [optimalTrade_id, initTrade_id, h1, h2]
  rfl

theorem combinedValues_id (vals : ℕ → List ℚ) (f : Forest) : combinedValues id vals f = Forest.combinedValues vals f := by
  induction f with
  | nil => rfl
  | cons i ch sib h1 h2 =>
    cases ch with
    | nil => simp only [combinedValues, Forest.combinedValues, h2]
    | cons j c s =>
      rw [combinedValues, Forest.combinedValues, h1, h2]
      rfl

theorem treeGFT_id (t : RecipeTree) (vals : ℕ → List ℚ) : treeOptimalTradeGFT id t vals = t.optimalTradeGFT vals := by
  unfold treeOptimalTradeGFT RecipeTree.optimalTradeGFT RecipeTree.combinedValues
  rw [flSum_id, combinedValues_id]

theorem itemKey_id (x : Forest.Item) : itemKey id x = x.key := by
  cases x with
  | num v => rfl
  | tup vs => exact flSum_id vs

theorem combinedValuesDetailed_id (vals : ℕ → List ℚ) (f : Forest) : combinedValuesDetailed id vals f = Forest.combinedValuesDetailed vals f := by
  induction f with
  | nil => rfl
  | cons i ch sib h1 h2 =>
    cases ch with
    | nil => simp only [combinedValuesDetailed, Forest.combinedValuesDetailed, h2]
    | cons j c s =>
      rw [combinedValuesDetailed, Forest.combinedValuesDetailed, h1, h2]
      congr 2
      exact sort_congr (fun x _ y _ => by rw [itemKey_id, itemKey_id])

theorem treeOptimalTrade_id (t : RecipeTree) (vals : ℕ → List ℚ) : treeOptimalTrade id t vals = t.optimalTrade vals := by
  unfold treeOptimalTrade RecipeTree.optimalTrade RecipeTree.combinedValuesDetailed
  simp only [combinedValuesDetailed_id, flSum_id]

theorem toNewPrices_id (p : List ℚ) (incs : List (ℕ × ℚ)) : increasesToNewPrices id p incs = SimultaneousAscendingPriceVectors.increasesToNewPrices p incs := by
  induction incs with
  | nil => rfl
  | cons x rest ih => simp only [increasesToNewPrices, SimultaneousAscendingPriceVectors.increasesToNewPrices, ih, id]

theorem applyIncreases_id (d : ℚ) (p : List ℚ) (incs : List (ℕ × ℚ)) : applyIncreases id d p incs = SimultaneousAscendingPriceVectors.applyIncreases d p incs := by
  induction incs generalizing p with
  | nil => rfl
  | cons x rest ih => simp only [applyIncreases, SimultaneousAscendingPriceVectors.applyIncreases, ih, id]

theorem increasePrices_id (v : SimultaneousAscendingPriceVectors) (incs : List (ℕ × ℚ)) : increasePrices id v incs = v.increasePrices incs := by
  unfold increasePrices SimultaneousAscendingPriceVectors.increasePrices
  simp only [toNewPrices_id, applyIncreases_id, flDot_id, id]
  rfl

theorem treeLoop_id (t : RecipeTree) (fuel : ℕ) (cats : List AgentCategory) (v : SimultaneousAscendingPriceVectors) :
    treeLoop id t fuel cats v = TreeAuction.loop t fuel cats v := by
  induction fuel generalizing cats v with
  | zero => rfl
  | succ n ih => simp only [treeLoop, TreeAuction.loop, increasePrices_id, ih]

theorem treeAuction_id (g : List (List ℕ) → ℚ → Py (List ℚ)) (m : Market) (struct : List PyObj) (fuel : ℕ) :
    treeAuction id g m struct fuel = TreeAuction.auction g m struct fuel := by
  unfold treeAuction TreeAuction.auction
  have h : ∀ cats t p, treeTrade id cats t p = TreeAuction.TradeWithMultipleRecipes.init cats t p := by
    intro cats t p
    unfold treeTrade TreeAuction.TradeWithMultipleRecipes.init
    rw [treeGFT_id]
  simp only [treeOptimalTrade_id, treeLoop_id, h]
  rfl

end Auctions.Floating
