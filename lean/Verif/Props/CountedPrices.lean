import Verif.Model.PricesInteger
import Verif.Proofs.IntegerAuction
import Verif.Proofs.Simultaneous
import Verif.Spec.CountedPrices

set_option autoImplicit false

/-!
# C55 — price vectors with agent counts (`prices_integer.py`)
-/

namespace Auctions.Props

open Auctions Spec IntegerPrices

theorem dot3_eq (x : List ℚ) (r a : List ℕ) : dot3 x r a = countedSum r a x := by
  induction x generalizing r a with
  | nil => cases r <;> cases a <;> simp [dot3, countedSum]
  | cons y x ih =>
    cases r with
    | nil => simp [dot3, countedSum]
    | cons b r =>
      cases a with
      | nil => simp [dot3, countedSum]
      | cons c a =>
        have := ih r a
        unfold countedSum at this ⊢
        rw [dot3, List.zipWith_cons_cons, recipeSum_cons, this]
        push_cast; ring

theorem zip_get {r a : List ℕ} {i ri ai : ℕ} (hr : r[i]? = some ri) (ha : a[i]? = some ai) :
    (List.zipWith (· * ·) r a)[i]? = some (ri * ai) := by
  rw [List.getElem?_zipWith, hr, ha]

theorem countedSum_set {r a : List ℕ} {x : List ℚ} {i ri ai : ℕ} {p : ℚ} (hr : r[i]? = some ri) (ha : a[i]? = some ai)
    (hx : x[i]? = some p) (q : ℚ) : countedSum r a (x.set i q) = countedSum r a x - ri * ai * p + ri * ai * q := by
  unfold countedSum
  rw [recipeSum_set (zip_get hr ha) hx]; push_cast; ring

/-- **C55**. `price_sum()` of a vector weights every price with the recipe and the agent counts. -/
theorem counted_price_sum (p : IntegerPrices.AscendingPriceVector) : p.priceSum = countedSum p.psRecipe p.agentCounts p.prices :=
  dot3_eq _ _ _

/-- **C55**. `price_sum_after_increase(i, x)` is the sum the vector would have with the price `x` in category `i`. -/
theorem counted_sum_after_increase (p : IntegerPrices.AscendingPriceVector) (i : ℕ) (x : ℚ) (hr : i < p.psRecipe.length)
    (ha : i < p.agentCounts.length) (hp : i < p.prices.length) :
    p.priceSumAfterIncrease i x = .ok (countedSum p.psRecipe p.agentCounts (p.prices.set i x)) := by
  unfold IntegerPrices.AscendingPriceVector.priceSumAfterIncrease IntegerPrices.AscendingPriceVector.priceSumWithoutCategory
  simp only [pyGet_ok (List.getElem?_eq_getElem hr), pyGet_ok (List.getElem?_eq_getElem ha), pyGet_ok (List.getElem?_eq_getElem hp), bind,
    Except.bind, counted_price_sum]
  rw [countedSum_set (List.getElem?_eq_getElem hr) (List.getElem?_eq_getElem ha) (List.getElem?_eq_getElem hp)]
  congr 1; ring

/-- **C55**. What raising one price does: the price stops at the requested one or where the sum *with one agent in the category* hits the bound,
whichever is smaller. The resulting sum is what the other categories contribute (the sum with price 0 in the category) plus the agent count times
what one agent contributes. -/
theorem counted_raise (p : IntegerPrices.AscendingPriceVector) (i : ℕ) (x bound : ℚ) {ri ai : ℕ} {pi : ℚ} (hr : p.psRecipe[i]? = some ri)
    (ha : p.agentCounts[i]? = some ai) (hp : p.prices[i]? = some pi) (hpos : 0 < ri) :
    ∃ p', p.increasePriceUpToBalance i x bound = .ok p' ∧ p'.psRecipe = p.psRecipe ∧ p'.agentCounts = p.agentCounts ∧
      p'.prices.length = p.prices.length ∧ (∀ j, j ≠ i → p'.prices[j]? = p.prices[j]?) ∧
      ∀ others, others = countedSum p.psRecipe p.agentCounts (p.prices.set i 0) →
        p'.prices[i]? = some (min x ((bound - others) / ri)) ∧
        (p'.status = some .stoppedAtZeroSum ↔ bound ≤ others + ri * x) ∧
        (p'.status = some .stoppedAtAgentValue ↔ others + ri * x < bound) ∧
        p'.priceSum = others + ai * min (ri * x) (bound - others) := by
  have hri : (ri : ℚ) ≠ 0 := by exact_mod_cast hpos.ne'
  have hri' : (0 : ℚ) < ri := by exact_mod_cast hpos
  have hi : i < p.prices.length := (List.getElem?_eq_some_iff.1 hp).1
  unfold IntegerPrices.AscendingPriceVector.increasePriceUpToBalance IntegerPrices.AscendingPriceVector.priceSumWithoutCategory
  simp only [pyGet_ok hr, pyGet_ok ha, pyGet_ok hp, bind, Except.bind]
  obtain ⟨o, ho⟩ : ∃ o, o = countedSum p.psRecipe p.agentCounts (p.prices.set i 0) := ⟨_, rfl⟩
  have hset := countedSum_set hr ha hp
  have hsub : p.priceSum - ri * pi * ai = o := by rw [ho, hset, counted_price_sum]; ring
  have hset' : ∀ q, countedSum p.psRecipe p.agentCounts (p.prices.set i q) = o + ri * ai * q := by
    intro q; rw [hset, ho, hset]; ring
  rw [hsub]
  by_cases hge : o + ri * x ≥ bound
  · simp only [hge, if_true, pyDiv, hri, if_false]
    refine ⟨_, rfl, rfl, rfl, by simp, fun j hj => by rw [List.getElem?_set_ne (Ne.symm hj)], ?_⟩
    rintro _ rfl
    rw [← ho]
    have h1 : (bound - o) / ri ≤ x := by rw [div_le_iff₀ hri']; linarith
    refine ⟨by rw [List.getElem?_set_self hi, min_eq_right h1], by simp [hge], by simpa using hge, ?_⟩
    rw [counted_price_sum]
    simp only [hset']
    rw [min_eq_right (by linarith)]
    field_simp
  · simp only [hge, if_false]
    have hlt := not_le.1 hge
    refine ⟨_, rfl, rfl, rfl, by simp, fun j hj => by rw [List.getElem?_set_ne (Ne.symm hj)], ?_⟩
    rintro _ rfl
    rw [← ho]
    have h1 : x ≤ (bound - o) / ri := by rw [le_div_iff₀ hri']; linarith
    refine ⟨by rw [List.getElem?_set_self hi, min_eq_left h1], by simpa using hlt, by simp [hlt], ?_⟩
    rw [counted_price_sum]
    simp only [hset']
    rw [min_eq_left (by linarith)]
    ring

/-- **C55**, a category with one agent: the raise ends at the bound or below, and the status tells which. -/
theorem counted_raise_one (p : IntegerPrices.AscendingPriceVector) (i : ℕ) (x bound : ℚ) {ri : ℕ} (hr : p.psRecipe[i]? = some ri)
    (ha : p.agentCounts[i]? = some 1) (hp : i < p.prices.length) (hpos : 0 < ri) :
    ∃ p', p.increasePriceUpToBalance i x bound = .ok p' ∧
      p'.priceSum = min bound (countedSum p.psRecipe p.agentCounts (p.prices.set i x)) ∧
      (p'.status = some .stoppedAtZeroSum ↔ p'.priceSum = bound) ∧ (p'.status = some .stoppedAtAgentValue ↔ p'.priceSum < bound) := by
  obtain ⟨p', h1, -, -, -, -, h2⟩ := counted_raise p i x bound hr ha (List.getElem?_eq_getElem hp) hpos
  obtain ⟨-, h3, h4, h5⟩ := h2 _ rfl
  have e : countedSum p.psRecipe p.agentCounts (p.prices.set i x)
      = countedSum p.psRecipe p.agentCounts (p.prices.set i 0) + ri * x := by
    rw [countedSum_set hr ha (List.getElem?_eq_getElem hp), countedSum_set hr ha (List.getElem?_eq_getElem hp)]
    push_cast; ring
  generalize countedSum p.psRecipe p.agentCounts (p.prices.set i 0) = o at *
  have h6 : p'.priceSum = min bound (o + ri * x) := by
    rw [h5, min_comm bound, Nat.cast_one, one_mul, ← min_add_add_left]
    congr 1; ring
  refine ⟨p', h1, by rw [h6, e], ?_, ?_⟩
  · rw [h3, h6, min_eq_left_iff]
  · rw [h4, h6]
    constructor
    · intro h; rw [min_eq_right h.le]; exact h
    · intro h
      by_contra hc
      rw [min_eq_left (not_lt.1 hc)] at h; exact lt_irrefl _ h

/-- **C55**, a category with several agents: a raise that reports that it stopped at the bound has the bound as its sum only if the other categories
alone already have that sum. -/
theorem counted_raise_balanced_iff (p : IntegerPrices.AscendingPriceVector) (i : ℕ) (x bound : ℚ) {ri ai : ℕ}
    (hr : p.psRecipe[i]? = some ri) (ha : p.agentCounts[i]? = some ai) (hp : i < p.prices.length) (hpos : 0 < ri)
    {p' : IntegerPrices.AscendingPriceVector} (h : p.increasePriceUpToBalance i x bound = .ok p')
    (hs : p'.status = some .stoppedAtZeroSum) :
    p'.priceSum = bound ↔ ai = 1 ∨ countedSum p.psRecipe p.agentCounts (p.prices.set i 0) = bound := by
  obtain ⟨q, h1, -, -, -, -, h2⟩ := counted_raise p i x bound hr ha (List.getElem?_eq_getElem hp) hpos
  obtain rfl : q = p' := by rw [h1] at h; exact Except.ok.inj h
  obtain ⟨-, h3, -, h5⟩ := h2 _ rfl
  have hge := h3.1 hs
  rw [min_eq_right (by linarith)] at h5
  rw [h5]
  generalize countedSum p.psRecipe p.agentCounts (p.prices.set i 0) = o at *
  constructor
  · intro he
    have : ((ai : ℚ) - 1) * (bound - o) = 0 := by linarith
    rcases mul_eq_zero.1 this with h | h
    · left
      have : (ai : ℚ) = 1 := by linarith
      exact_mod_cast this
    · right; linarith
  · rintro (rfl | h)
    · push_cast; ring
    · rw [h]; ring

/-- **C55**, witness: two buyers per deal. The raise reports that it stopped at the sum zero, but the sum is 1000 (`[1, 1]`, counts `[2, 1]`,
initial price -1000, raise of category 0 to 1500). -/
theorem counted_raise_overshoots :
    let p := IntegerPrices.AscendingPriceVector.init [1, 1] (-1000) [2, 1]
    ∃ p', p.increasePriceUpToBalance 0 1500 = .ok p' ∧ p'.status = some .stoppedAtZeroSum ∧ p'.prices = [1000, -1000] ∧
      p'.priceSum = 1000 :=
  ⟨⟨[1, 1], [2, 1], [1000, -1000], some .stoppedAtZeroSum⟩, by decide +kernel, rfl, rfl, by decide +kernel⟩

theorem counted_apply {counts : List ℕ} (delta : ℚ) {prices : List ℚ} {incs : List (ℕ × ℚ)}
    (hc : counts.length = prices.length) (h : ∀ inc ∈ incs, inc.1 < prices.length) :
    ∃ prices', IntegerPrices.SimultaneousAscendingPriceVectors.applyIncreases counts delta prices incs = .ok prices' ∧
      prices'.length = prices.length ∧
      (∀ j < prices.length, prices'.getD j 0 = prices.getD j 0 + delta * counts.getD j 0 * (incs.filter (fun inc => inc.1 = j)).length) ∧
      ∀ r : List ℕ, r.length = prices.length →
        countedSum r counts prices' = countedSum r counts prices
          + delta * (incs.map (fun inc => (r.getD inc.1 0 * counts.getD inc.1 0 ^ 2 : ℕ))).sum := by
  induction incs generalizing prices with
  | nil => exact ⟨prices, rfl, rfl, by simp, by simp⟩
  | cons inc incs ih =>
    obtain ⟨i, x⟩ := inc
    have hi : i < prices.length := h (i, x) (by simp)
    have hic : i < counts.length := by omega
    obtain ⟨p', h1, h2, h3, h4⟩ := ih (prices := prices.set i (prices[i] + delta * counts[i])) (by simpa using hc)
      (fun inc hinc => by simpa using h inc (by simp [hinc]))
    refine ⟨p', ?_, by simpa using h2, ?_, ?_⟩
    · simp [IntegerPrices.SimultaneousAscendingPriceVectors.applyIncreases, pyGet_ok (List.getElem?_eq_getElem hi),
        pyGet_ok (List.getElem?_eq_getElem hic), bind, Except.bind, h1]
    · intro j hj
      rw [h3 j (by simpa using hj)]
      by_cases hij : i = j
      · subst hij
        simp [hi, hic]
        ring
      · simp [hij]
    · intro r hr
      rw [h4 r (by simpa using hr)]
      have hri : r[i]? = some (r[i]'(by omega)) := List.getElem?_eq_getElem (by omega)
      rw [countedSum_set hri (List.getElem?_eq_getElem hic) (List.getElem?_eq_getElem hi)]
      simp only [List.map_cons, List.sum_cons]
      have e1 : r.getD i 0 = r[i]'(by omega) := by rw [List.getD_eq_getElem?_getD, hri]; rfl
      have e2 : counts.getD i 0 = counts[i] := by rw [List.getD_eq_getElem?_getD, List.getElem?_eq_getElem hic]; rfl
      rw [e1, e2]; push_cast; ring

/-- **C55**. A simultaneous raise of existing categories with positive counts: with `d` the smallest requested raise and `s` the sum of the first
recipe, every listed category rises by `min(d, bound - s)` times its agent count (once per listing), the others stay, and the sum of a recipe
rises by that amount times the sum of `recipe[i] * counts[i] ^ 2` over the listed categories. The status tells whether `bound - s ≤ d`. -/
theorem counted_simultaneous_raise (v : IntegerPrices.SimultaneousAscendingPriceVectors) {r0 : List ℕ} {rs : List (List ℕ)}
    (hne : v.psRecipes = r0 :: rs) (hlen : ∀ r ∈ v.psRecipes, r.length = v.prices.length) (hcl : v.agentCounts.length = v.prices.length)
    (hpos : ∀ a ∈ v.agentCounts, 0 < a) (incs : List (ℕ × ℚ)) (hinc : incs ≠ []) (hidx : ∀ inc ∈ incs, inc.1 < v.prices.length)
    (bound : ℚ) :
    ∃ v' d, v.increasePrices incs bound = .ok v' ∧
      (∃ inc ∈ incs, inc.2 - v.prices.getD inc.1 0 = d) ∧ (∀ inc ∈ incs, d ≤ inc.2 - v.prices.getD inc.1 0) ∧
      v'.psRecipes = v.psRecipes ∧ v'.agentCounts = v.agentCounts ∧ v'.prices.length = v.prices.length ∧
      ∀ s, s = countedSum r0 v.agentCounts v.prices →
        (v'.status = some .stoppedAtZeroSum ↔ bound - s ≤ d) ∧ (v'.status = some .stoppedAtAgentValue ↔ d < bound - s) ∧
        (∀ j < v.prices.length, v'.prices.getD j 0
          = v.prices.getD j 0 + min d (bound - s) * v.agentCounts.getD j 0 * (incs.filter (fun inc => inc.1 = j)).length) ∧
        ∀ r ∈ v.psRecipes, countedSum r v.agentCounts v'.prices = countedSum r v.agentCounts v.prices
          + min d (bound - s) * (incs.map (fun inc => (r.getD inc.1 0 * v.agentCounts.getD inc.1 0 ^ 2 : ℕ))).sum := by
  obtain ⟨ns, hns⟩ := IntegerAuction.perRecipe_ok (counts := v.agentCounts) (rs := v.psRecipes) (incs := incs) (by
    intro r hr a ha
    have h1 := hidx a ha
    refine ⟨by rw [hlen r hr]; exact h1, _, List.getElem?_eq_getElem (by omega), ?_⟩
    exact hpos _ (List.getElem_mem (by omega)))
  have hto := increasesToNewPrices_eq hidx
  obtain ⟨d, hd1, hd2, hd3⟩ := pyMin_spec (l := incs.map (fun inc => inc.2 - v.prices.getD inc.1 0)) (by simpa using hinc)
  have hs0 : v.priceSum = countedSum r0 v.agentCounts v.prices := by
    unfold IntegerPrices.SimultaneousAscendingPriceVectors.priceSum
    rw [hne, dot3_eq]; rfl
  obtain ⟨p', h1, h2, h3, h4⟩ := counted_apply (min d (bound - v.priceSum)) hcl hidx
  have hmem : ∃ inc ∈ incs, inc.2 - v.prices.getD inc.1 0 = d := by simpa using hd2
  have hle : ∀ inc ∈ incs, d ≤ inc.2 - v.prices.getD inc.1 0 := fun inc hi => hd3 _ (List.mem_map.2 ⟨inc, hi, rfl⟩)
  unfold IntegerPrices.SimultaneousAscendingPriceVectors.increasePrices
  simp only [hns, IntegerAuction.toNew_eq, hto, hd1, h1, bind, Except.bind]
  by_cases hc : min d (bound - v.priceSum) = bound - v.priceSum
  · rw [if_pos hc]
    refine ⟨_, d, rfl, hmem, hle, rfl, rfl, h2, ?_⟩
    intro s hs
    have hge := min_eq_right_iff.1 hc
    rw [hs0, ← hs] at hge h3 h4
    exact ⟨by simp [hge], by simpa using hge, h3, fun r hr => h4 r (hlen r hr)⟩
  · rw [if_neg hc]
    refine ⟨_, d, rfl, hmem, hle, rfl, rfl, h2, ?_⟩
    intro s hs
    have hge : d < bound - v.priceSum := not_le.1 fun h => hc (min_eq_right h)
    rw [hs0, ← hs] at hge h3 h4
    exact ⟨by simp only [Option.some.injEq, reduceCtorEq, false_iff, not_le]; exact hge, by simp [hge], h3, fun r hr => h4 r (hlen r hr)⟩

/-- **C55**. A raise of nothing raises `ValueError` (`min` of an empty list); the recipes are not checked. -/
theorem counted_simultaneous_raise_nothing (v : IntegerPrices.SimultaneousAscendingPriceVectors) (bound : ℚ) :
    v.increasePrices [] bound = .error .valueError := by
  obtain ⟨ns, hns⟩ := IntegerAuction.perRecipe_ok (counts := v.agentCounts) (rs := v.psRecipes) (incs := []) (by simp)
  unfold IntegerPrices.SimultaneousAscendingPriceVectors.increasePrices
  simp [hns, IntegerPrices.SimultaneousAscendingPriceVectors.increasesToNewPrices, bind, Except.bind, pyMin]

/-- **C55**, witness: with a count of 2 the raise goes beyond the requested price and beyond the bound, and unbalances two recipes with equal sums. -/
theorem counted_simultaneous_overshoots :
    let v : IntegerPrices.SimultaneousAscendingPriceVectors := ⟨[[1, 1, 0], [1, 0, 1]], [1, 2, 1], [-40, -10, -20], none⟩
    (countedSum [1, 1, 0] [1, 2, 1] v.prices = -60 ∧ countedSum [1, 0, 1] [1, 2, 1] v.prices = -60) ∧
    v.increasePrices [(1, 0), (2, 0)] = .ok { v with prices := [-40, 10, -10], status := some .stoppedAtAgentValue } ∧
    (countedSum [1, 1, 0] [1, 2, 1] [-40, 10, -10] = -20 ∧ countedSum [1, 0, 1] [1, 2, 1] [-40, 10, -10] = -50) ∧
    v.increasePrices [(1, 100), (2, 100)] = .ok { v with prices := [-40, 110, 40], status := some .stoppedAtZeroSum } ∧
    countedSum [1, 1, 0] [1, 2, 1] [-40, 110, 40] = 180 := by
  decide +kernel

/-- Non-vacuity of C55: the doctests of `prices_integer.py:60-72`, and an instance of each theorem with counts other than 1. -/
example :
    (IntegerPrices.AscendingPriceVector.init [1, 1, 0, 0] (-1000) [2, 1, 1, 1]).priceSumAfterIncrease 0 10 = .ok (-980) ∧
    (IntegerPrices.AscendingPriceVector.init [1, 0, 1, 1] (-1000) [3, 1, 1, 1]).priceSumAfterIncrease 0 10 = .ok (-1970) ∧
    (IntegerPrices.AscendingPriceVector.init [1, 0, 1, 1] (-1000) []).priceSumAfterIncrease 0 10 = .ok (-1990) ∧
    (⟨[2, 1], [1, 3], [-10, -10], none⟩ : IntegerPrices.AscendingPriceVector).increasePriceUpToBalance 0 20
      = .ok ⟨[2, 1], [1, 3], [15, -10], some .stoppedAtZeroSum⟩ ∧
    (⟨[2, 1], [1, 3], [-10, -10], none⟩ : IntegerPrices.AscendingPriceVector).increasePriceUpToBalance 0 14
      = .ok ⟨[2, 1], [1, 3], [14, -10], some .stoppedAtAgentValue⟩ := by
  decide +kernel

end Auctions.Props
