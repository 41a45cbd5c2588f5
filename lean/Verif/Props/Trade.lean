import Verif.Proofs.Trade
import Mathlib.Algebra.BigOperators.Ring.Finset

set_option autoImplicit false

/-!
# C11–C13 — properties of `TradeWithSinglePrice`
-/

namespace Auctions.Props

open Auctions Spec

/-- **C11**. Building a trade fails (with ValueError) exactly when no category has a positive count in the recipe; otherwise
the number of deals is the greatest `d` such that every category has agents for `d` deals. -/
theorem number_of_deals (cs : List AgentCategory) (r : List ℕ) (p : Option (List ℚ)) :
    ((∀ i < cs.length, r.getD i 0 = 0) ∧ TradeWithSinglePrice.init cs r p = .error .valueError) ∨
    ((∃ i < cs.length, 0 < r.getD i 0) ∧
      ∃ t, TradeWithSinglePrice.init cs r p = .ok t ∧ t.categories = cs ∧ t.psRecipe = r ∧ t.prices = p ∧
        IsGreatest {d | ∀ i < cs.length, d * r.getD i 0 ≤ ((cs.map AgentCategory.values).getD i []).length}
          t.numOfDeals) := by
  rcases trade_init_spec cs r p with h | ⟨h1, m, h2, h3, h4⟩
  · exact Or.inl h
  · exact Or.inr ⟨h1, _, h2, rfl, rfl, rfl, h3, fun d hd => h4 d hd⟩

/-- **C12**. The two ways to compute the gain differ by what the auctioneer collects:
the number of deals times the recipe-weighted sum of the prices. -/
theorem gain_split {t : TradeWithSinglePrice} {p : List ℚ} {a b : ℚ} (hp : t.prices = some p)
    (hr : t.psRecipe.length = t.categories.length) (hpl : p.length = t.categories.length)
    (ha : t.gainFromTrade true = .ok a) (hb : t.gainFromTrade false = .ok b) :
    a - b = t.numOfDeals * recipeSum t.psRecipe p ∧
    (recipeSum t.psRecipe p = 0 → a = b) ∧
    (0 < t.numOfDeals → (b < a ↔ 0 < recipeSum t.psRecipe p) ∧ (a < b ↔ recipeSum t.psRecipe p < 0)) := by
  suffices H : a - b = t.numOfDeals * recipeSum t.psRecipe p by
    refine ⟨H, fun h0 => ?_, fun hm => ?_⟩
    · rw [h0, mul_zero] at H; linarith
    · have hm' : (0 : ℚ) < t.numOfDeals := by exact_mod_cast hm
      have e1 : (b < a ↔ 0 < t.numOfDeals * recipeSum t.psRecipe p) := by
        rw [← H]; constructor <;> intro h <;> linarith
      have e2 : (a < b ↔ t.numOfDeals * recipeSum t.psRecipe p < 0) := by
        rw [← H]; constructor <;> intro h <;> linarith
      rw [e1, e2]
      exact ⟨by rw [mul_pos_iff_of_pos_left hm'], by
        constructor
        · intro h
          by_contra hge
          have := mul_nonneg hm'.le (not_lt.1 hge)
          linarith
        · exact mul_neg_of_pos_of_neg hm'⟩
  unfold TradeWithSinglePrice.gainFromTrade at ha hb
  by_cases h0 : t.numOfDealsCache = 0
  · simp only [h0, if_true, Except.ok.injEq] at ha hb
    simp [← ha, ← hb, TradeWithSinglePrice.numOfDeals, h0]
  · rw [if_neg h0] at ha hb
    have hne : ∀ c ∈ t.categories, c.values ≠ [] := by
      intro c hc hnil
      obtain ⟨pre, post, hsplit⟩ := List.append_of_mem hc
      rw [hsplit] at ha
      have : ∀ (pre : List AgentCategory) (s : ℕ) (x : ℚ), t.gftLoop true s (pre ++ c :: post) ≠ .ok x := by
        intro pre
        induction pre with
        | nil =>
          intro s x h
          simp only [List.nil_append, TradeWithSinglePrice.gftLoop, TradeWithSinglePrice.gftStep, bind, Except.bind] at h
          cases hg : pyGet t.psRecipe s <;> simp [hg, hnil, pyDiv] at h
        | cons d pre ih =>
          intro s x h
          simp only [List.cons_append, TradeWithSinglePrice.gftLoop, bind, Except.bind] at h
          cases h1 : t.gftStep true s d with
          | error e => simp [h1] at h
          | ok y =>
            cases h2 : t.gftLoop true (s + 1) (pre ++ c :: post) with
            | error e => simp [h1, h2] at h
            | ok z => exact ih _ _ h2
      exact this pre 0 a ha
    rw [gftLoop_eq t _ hp _ 0 (by omega) (by omega) hne] at ha hb
    simp only [Except.ok.injEq] at ha hb
    rw [← ha, ← hb, recipeSum_eq_sum hr hpl, Finset.mul_sum, ← Finset.sum_sub_distrib]
    refine Finset.sum_congr rfl fun i _ => ?_
    simp [TradeWithSinglePrice.numOfDeals]
    ring

/-- **C13**. The reported gain is the sum over the categories of the expected total value of the agents that a uniformly
random choice of `recipe[i] * num_of_deals` agents of the category selects. -/
theorem gain_is_expected_gain {cs : List AgentCategory} {r : List ℕ} {p : List ℚ} {t : TradeWithSinglePrice}
    (ht : TradeWithSinglePrice.init cs r (some p) = .ok t)
    (hr : r.length = cs.length) (hpl : p.length = cs.length) (hne : ∀ c ∈ cs, c.values ≠ []) :
    t.gainFromTrade = .ok (∑ i ∈ Finset.range cs.length,
      expectedTotal ((cs.map AgentCategory.values).getD i []) (r.getD i 0 * t.numOfDeals)) := by
  rcases trade_init_spec cs r (some p) with ⟨-, h⟩ | ⟨h1, m, h2, h3, h4⟩
  · rw [h] at ht; simp at ht
  rw [h2] at ht
  obtain rfl := Except.ok.inj ht
  have key : ∀ i ∈ Finset.range cs.length, expectedTotal (vAt cs i) (rAt r i * m)
      = (vAt cs i).sum * ((rAt r i * m : ℕ) / (vAt cs i).length) := by
    intro i hi
    have hi' := Finset.mem_range.1 hi
    refine expectedTotal_eq ?_ ?_
    · have := h3 i hi'; rwa [mul_comm] at this
    · rw [vAt_eq_getElem hi']
      exact hne _ (List.getElem_mem hi')
  change TradeWithSinglePrice.gainFromTrade _ true = .ok (∑ i ∈ Finset.range cs.length, expectedTotal (vAt cs i) (rAt r i * m))
  rw [Finset.sum_congr rfl key]
  unfold TradeWithSinglePrice.gainFromTrade
  by_cases h0 : m = 0
  · simp [h0]
  · simp only [h0, if_false]
    rw [gftLoop_eq _ _ rfl _ 0 (by simp [hr]) (by simp [hpl]) hne]
    simp

/-- Non-vacuity of C11–C13: the trades of the doctests of `trade.py`, with a surplus. -/
example :
    ∃ t, TradeWithSinglePrice.init [⟨"buyer", [8, 6, 5]⟩, ⟨"seller", [-1, -2]⟩] [1, 1] (some [4, -3]) = .ok t ∧ t.numOfDeals = 2 ∧
      t.gainFromTrade true = .ok (29/3) ∧ t.gainFromTrade false = .ok (23/3) ∧
      expectedTotal [8, 6, 5] 2 = 38/3 := by
  exact ⟨⟨[⟨"buyer", [8, 6, 5]⟩, ⟨"seller", [-1, -2]⟩], [1, 1], some [4, -3], 2⟩, by decide +kernel, by decide +kernel, by decide +kernel, by decide +kernel, by decide +kernel⟩

end Auctions.Props
