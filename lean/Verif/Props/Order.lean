import Verif.Spec.Order
import Verif.Proofs.Lists
import Verif.Model.Ascending
import Verif.Model.McAfee
import Verif.Model.TradeReduction
import Verif.Model.TreeAuction
import Verif.Model.TreeAuctionInteger

set_option autoImplicit false

/-! # C61: the outcome does not depend on the order in which the values are reported -/

namespace Auctions.Props

open Auctions Spec

theorem clone_eq_of_perm {c c' : AgentCategory} (h : c.name = c'.name ∧ c.values.Perm c'.values) : c.clone = c'.clone := by
  unfold AgentCategory.clone AgentCategory.init
  rw [h.1]
  congr 1
  exact eq_of_perm_of_sorted ((sortDesc_perm _).trans (h.2.trans (sortDesc_perm _).symm)) (sortDesc_sorted _) (sortDesc_sorted _)

theorem same_clones {m m' : Market} (h : SameReports m m') :
    m.categories.map AgentCategory.clone = m'.categories.map AgentCategory.clone := by
  unfold SameReports at h
  generalize m.categories = l at *
  generalize m'.categories = l' at *
  induction h with
  | nil => rfl
  | cons h1 _ ih => rw [List.map_cons, List.map_cons, clone_eq_of_perm h1, ih]

theorem same_clone {m m' : Market} (h : SameReports m m') : m.clone = m'.clone := by
  unfold Market.clone
  rw [same_clones h]

theorem same_num {m m' : Market} (h : SameReports m m') : m.numCategories = m'.numCategories := List.Forall₂.length_eq h

theorem same_empty {m m' : Market} (h : SameReports m m') : m.emptyAgentCategories = m'.emptyAgentCategories := by
  unfold SameReports at h
  unfold Market.emptyAgentCategories
  generalize m.categories = l at *
  generalize m'.categories = l' at *
  induction h with
  | nil => rfl
  | cons h1 _ ih => rw [List.map_cons, List.map_cons, h1.1, ih]

theorem optimal_trade_order {m m' : Market} (h : SameReports m m') (r : List ℕ) (n : ℕ) (z : Bool) :
    m.optimalTrade r n z = m'.optimalTrade r n z := by
  unfold Market.optimalTrade
  rw [same_num h, same_clone h]

theorem ascending_order {m m' : Market} (h : SameReports m m') (r : List ℕ) (fuel n : ℕ) :
    Ascending.auction m r fuel n = Ascending.auction m' r fuel n := by
  unfold Ascending.auction Ascending.relevantCategoryIndices
  rw [same_num h, same_clone h, optimal_trade_order h]

theorem mcafee_order {m m' : Market} (h : SameReports m m') (r : List ℕ) (b : Bool) :
    McAfee.mcafeeTradeReduction m r b = McAfee.mcafeeTradeReduction m' r b := by
  unfold McAfee.mcafeeTradeReduction
  rw [same_num h, same_empty h, optimal_trade_order h]

theorem competeStep_order {m m' : Market} (h : SameReports m m') (r tc : List ℕ) (b : Bool) (ps : List ℚ) :
    TradeReduction.competeStep m r tc b ps = TradeReduction.competeStep m' r tc b ps := by
  funext s pivot
  unfold TradeReduction.competeStep Market.calculatePricesByExternalCompetition
  rw [same_num h]
  generalize TradeReduction.convertCategoryIndex r pivot = ci
  have hl : m.categories.length = m'.categories.length := same_num h
  by_cases hc : ci < m.categories.length
  · have h1 : pyGet m.categories ci = .ok m.categories[ci] := by simp [pyGet, hc]
    have h2 : pyGet m'.categories ci = .ok m'.categories[ci] := by simp [pyGet, (show ci < m'.categories.length by omega)]
    simp only [h1, h2]
    rfl
  · have h1 : pyGet m.categories ci = .error .indexError := by simp [pyGet, not_lt.1 hc]
    have h2 : pyGet m'.categories ci = .error .indexError := by simp [pyGet, (show m'.categories.length ≤ ci by omega)]
    simp only [h1, h2]

theorem trade_reduction_order {m m' : Market} (h : SameReports m m') (r : List ℕ) (b : Bool) :
    TradeReduction.tradeReduction m r b = TradeReduction.tradeReduction m' r b := by
  have h1 : ∀ pi tc, TradeReduction.psStep m r pi tc b = TradeReduction.psStep m' r pi tc b := by
    intro pi tc; funext s ps; unfold TradeReduction.psStep; rw [competeStep_order h]
  unfold TradeReduction.tradeReduction
  rw [same_num h, same_empty h, optimal_trade_order h]
  simp only [h1]

theorem tree_auction_order {m m' : Market} (h : SameReports m m') (f : List (List ℕ) → ℚ → Py (List ℚ)) (s : List PyObj) (fuel : ℕ) :
    TreeAuction.auction f m s fuel = TreeAuction.auction f m' s fuel := by
  unfold TreeAuction.auction
  rw [same_clone h]

theorem integer_auction_order {m m' : Market} (h : SameReports m m') (s : List PyObj) (counts : List ℕ) (fuel : ℕ) :
    IntegerAuction.auction m s counts fuel = IntegerAuction.auction m' s counts fuel := by
  unfold IntegerAuction.auction
  rw [same_clone h]

/-- **C61**. The optimal trade and the outcomes of all auction protocols (or the exceptions they raise) do not depend on the order in which the
values of a category are given. -/
theorem outcome_order_independent {m m' : Market} (h : SameReports m m') :
    (∀ r n z, m.optimalTrade r n z = m'.optimalTrade r n z) ∧
    (∀ r fuel n, Ascending.auction m r fuel n = Ascending.auction m' r fuel n) ∧
    (∀ r b, McAfee.mcafeeTradeReduction m r b = McAfee.mcafeeTradeReduction m' r b) ∧
    (∀ r b, TradeReduction.tradeReduction m r b = TradeReduction.tradeReduction m' r b) ∧
    (∀ f s fuel, TreeAuction.auction f m s fuel = TreeAuction.auction f m' s fuel) ∧
    (∀ s counts fuel, IntegerAuction.auction m s counts fuel = IntegerAuction.auction m' s counts fuel) :=
  ⟨optimal_trade_order h, ascending_order h, mcafee_order h, trade_reduction_order h, tree_auction_order h, integer_auction_order h⟩

/-- Non-vacuity of C61: two orders of the same reports. -/
example : SameReports ⟨[⟨"buyer", [9, 4, 8, 7]⟩, ⟨"seller", [-6, -1, -2, -3]⟩]⟩ ⟨[⟨"buyer", [7, 8, 9, 4]⟩, ⟨"seller", [-1, -2, -3, -6]⟩]⟩ := by
  refine .cons ⟨rfl, ?_⟩ (.cons ⟨rfl, ?_⟩ .nil) <;> decide +kernel

end Auctions.Props
