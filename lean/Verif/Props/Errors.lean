import Verif.Props.TradeReduction
import Verif.Props.Ascending

set_option autoImplicit false

/-!
# C07, C08 — which inputs are rejected, and that accepted inputs never crash
-/

namespace Auctions.Props

open Auctions Spec Ascending TradeReduction McAfee

/-- **C07**. A recipe whose length differs from the number of categories is rejected by all four functions. -/
theorem recipe_length_mismatch_rejected {m : Market} {r : List ℕ} (h : r.length ≠ m.numCategories) (n fuel : ℕ) (z b : Bool) :
    m.optimalTrade r n z = .error .valueError ∧ auction m r fuel n = .error .valueError ∧
      mcafeeTradeReduction m r b = .error .valueError ∧ tradeReduction m r z = .error .valueError := by
  refine ⟨?_, ?_, ?_, ?_⟩
  · simp [Market.optimalTrade, h]
  · simp [auction, h]
  · simp [mcafeeTradeReduction, h]
  · simp [tradeReduction, h]

/-- **C07**. McAfee's protocol rejects every recipe with an entry other than 1. -/
theorem mcafee_rejects_other_recipes {m : Market} {r : List ℕ} {x : ℕ} (hx : x ∈ r) (h1 : x ≠ 1) (b : Bool) :
    mcafeeTradeReduction m r b = .error .valueError := by
  unfold mcafeeTradeReduction
  by_cases hl : r.length = m.numCategories
  · have : r.any (fun r => r ≠ 1) = true := by rw [List.any_eq_true]; exact ⟨x, hx, by simpa using h1⟩
    simp only [hl, ne_eq, not_true_eq_false, if_false]
    rw [if_pos (by simpa using this)]
  · simp [hl]

/-- **C07**. A market can be built exactly when it has a category. -/
theorem market_needs_category (cs : List AgentCategory) :
    (cs = [] → Market.init cs = .error .valueError) ∧ (cs ≠ [] → Market.init cs = .ok ⟨cs⟩) := by
  cases cs <;> simp [Market.init]

/-- **C08**. With a recipe of matching length, `optimal_trade` returns on every market. -/
theorem optimal_trade_total {m : Market} {r : List ℕ} (h : r.length = m.numCategories) (hcat : m.categories ≠ []) (n : ℕ) (z : Bool) :
    ∃ t, m.optimalTrade r n z = .ok t := by
  obtain ⟨k, -, he⟩ := optimalTrade_eq h hcat n z
  exact ⟨_, he⟩

/-- **C08**. McAfee's protocol returns on every market for a recipe of ones. -/
theorem mcafee_total {m : Market} (hcat : m.categories ≠ []) (b : Bool) :
    ∃ t, mcafeeTradeReduction m (List.replicate m.numCategories 1) b = .ok t := by
  obtain ⟨k, d, p, -, -, -, he⟩ := mcafee_eq rfl hcat b
  exact ⟨_, he⟩

/-- **C08**. Trade reduction returns on every market for every recipe of matching length that uses an agent. -/
theorem trade_reduction_total {m : Market} {r : List ℕ} (h : r.length = m.numCategories) (hcat : m.categories ≠ [])
    (hpos : ∃ x ∈ r, 0 < x) (z : Bool) : ∃ t, tradeReduction m r z = .ok t := by
  obtain ⟨k, -, -, hres⟩ := tr_eq h hcat hpos z (Q := fun _ _ => True) (fun _ => trivial) (fun _ _ _ _ _ _ _ _ => trivial)
  rcases hres with ⟨-, he⟩ | ⟨-, K, -, -, -, ⟨-, he⟩ | ⟨a, b, d, -, ⟨p, -, he⟩, -, -⟩⟩ <;> exact ⟨_, he⟩

/-- **C08**. A recipe of zeros makes the ascending auction raise `ValueError` (in the first iteration of its loop). -/
theorem ascending_zero_recipe {m : Market} {r : List ℕ} (h0 : ∀ x ∈ r, x = 0) (fuel n : ℕ) :
    auction m r (fuel + 1) n = .error .valueError := by
  by_cases hl : r.length = m.numCategories
  swap
  · simp [auction, hl]
  by_cases hcat : m.categories = []
  · have : m.optimalTrade r n = .error .valueError := by
      simp [Market.optimalTrade, hl, Market.clone, hcat, Market.init, bind, Except.bind]
    simp [auction, hl, this, bind, Except.bind]
  have hrel : relevantCategoryIndices m r = [] := by
    unfold relevantCategoryIndices
    rw [List.filter_eq_nil_iff]
    intro i hi
    simp only [List.mem_range] at hi
    rw [recipeAt_eq, rAt_eq_getElem (by omega)]
    have := h0 r[i] (List.getElem_mem _)
    simp only [gt_iff_lt, decide_eq_true_eq, not_lt]; omega
  obtain ⟨k, -, hk⟩ := optimalTrade_eq hl hcat n true
  simp [auction, hl, hk, bind, Except.bind, Market.clone_eq hcat, hrel, loop, pyMaxBy]

/-- Non-vacuity of C08 for the ascending auction is `ascending_total`; here, inputs meeting the hypotheses of the other two. -/
example : (⟨[⟨"buyer", [3, 1]⟩, ⟨"seller", []⟩]⟩ : Market).categories ≠ [] ∧
    ([2, 0] : List ℕ).length = (⟨[⟨"buyer", [3, 1]⟩, ⟨"seller", []⟩]⟩ : Market).numCategories ∧ ∃ x ∈ ([2, 0] : List ℕ), 0 < x := by
  decide +kernel

theorem gftLoop_zero_division (t : TradeWithSinglePrice) (b : Bool) {p : List ℚ} (hp : t.prices = some p) (cs : List AgentCategory) (k : ℕ)
    (hr : k + cs.length ≤ t.psRecipe.length) (hpl : k + cs.length ≤ p.length) (he : ∃ c ∈ cs, c.values = []) :
    t.gftLoop b k cs = .error .zeroDivisionError := by
  induction cs generalizing k with
  | nil => simp at he
  | cons c cs ih =>
    simp only [List.length_cons] at hr hpl
    have h1 : pyGet t.psRecipe k = .ok (t.psRecipe[k]'(by omega)) := by
      simp [pyGet, show k < t.psRecipe.length by omega]
    have h2 : pyGet p k = .ok (p[k]'(by omega)) := by simp [pyGet, show k < p.length by omega]
    by_cases hc : c.values = []
    · simp [TradeWithSinglePrice.gftLoop, TradeWithSinglePrice.gftStep, h1, hc, pyDiv, bind, Except.bind]
    · have hlen : (c.values.length : ℚ) ≠ 0 := by
        simpa using hc
      have he' : ∃ c ∈ cs, c.values = [] := by
        obtain ⟨x, hx, hx0⟩ := he
        rcases List.mem_cons.1 hx with rfl | hx
        · exact absurd hx0 hc
        · exact ⟨x, hx, hx0⟩
      have := ih (k + 1) (by omega) (by omega) he'
      simp [TradeWithSinglePrice.gftLoop, TradeWithSinglePrice.gftStep, h1, h2, hp, pyDiv, hlen, bind, Except.bind, this]

/-- **C48**. For a trade with a deal and with one price and one recipe count per category, `gain_from_trade` returns a number if every
category has a trader, and raises `ZeroDivisionError` if some category has none. -/
theorem gain_defined_iff (t : TradeWithSinglePrice) (b : Bool) {p : List ℚ} (hp : t.prices = some p) (hd : 0 < t.numOfDeals)
    (hr : t.psRecipe.length = t.categories.length) (hpl : p.length = t.categories.length) :
    ((∀ c ∈ t.categories, c.values ≠ []) → ∃ g, t.gainFromTrade b = .ok g) ∧
    ((∃ c ∈ t.categories, c.values = []) → t.gainFromTrade b = .error .zeroDivisionError) := by
  have hd' : t.numOfDealsCache ≠ 0 := by unfold TradeWithSinglePrice.numOfDeals at hd; omega
  unfold TradeWithSinglePrice.gainFromTrade
  rw [if_neg hd']
  refine ⟨fun h => ⟨_, gftLoop_eq _ b hp _ 0 (by omega) (by omega) h⟩, fun h => ?_⟩
  exact gftLoop_zero_division t b hp _ 0 (by omega) (by omega) h

/-- **C48**, a reachable case: a category that the recipe does not use and that has no agents makes the gain of a successful auction
undefined. -/
theorem gain_zero_division_witness :
    ∃ t, auction ⟨[⟨"buyer", [5]⟩, ⟨"seller", [-2, -3]⟩, ⟨"mediator", []⟩]⟩ [1, 1, 0] 10 = .ok (some t) ∧
      t.numOfDeals = 1 ∧ t.gainFromTrade = .error .zeroDivisionError := by
  refine ⟨⟨[⟨"buyer", [5]⟩, ⟨"seller", [-2]⟩, ⟨"mediator", []⟩], [1, 1, 0], some [3, -3, -100000000], 1⟩, ?_⟩
  decide +kernel

end Auctions.Props
