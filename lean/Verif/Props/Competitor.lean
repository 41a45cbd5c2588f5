import Verif.Proofs.Competitor
import Verif.Props.Ascending
import Verif.Props.Coalition
import Verif.Props.Monotone
import Verif.Props.Comparison
import Verif.Props.McAfee
import Verif.Props.TreeAuction

set_option autoImplicit false

/-!
# C105 — competition in the single-recipe auctions: what one better category does to the deals and to the prices
-/

namespace Auctions.Props

open Auctions Spec Ascending TradeReduction McAfee

theorem mem_vAt {m : Market} (hb : ∀ vs ∈ m.valueLists, ∀ v ∈ vs, -MAX_VALUE ≤ v) (j : ℕ) : ∀ v ∈ vAt m.sorted j, -MAX_VALUE ≤ v := by
  intro v hv
  rw [vAt_sorted, mem_sortDesc] at hv
  have hv' : v ∈ m.valueLists.getD j [] := hv
  by_cases hj : j < m.valueLists.length
  · refine hb (m.valueLists.getD j []) ?_ v hv'
    simp [List.getD_eq_getElem?_getD, List.getElem?_eq_getElem hj]
  · simp [List.getD_eq_getElem?_getD, List.getElem?_eq_none (show m.valueLists.length ≤ j by omega)] at hv'

/-- The two markets meet the set-up of the comparison. -/
theorem better_of {m m' : Market} {r : List ℕ} {a : ℕ} (hr : r.length = m.numCategories) (hpos : ∃ x ∈ r, 0 < x)
    (hn : m'.numCategories = m.numCategories) (ha : a < m.numCategories)
    (hother : ∀ j, j ≠ a → (m'.valueLists.getD j []).Perm (m.valueLists.getD j []))
    (hgood : AsGood (m.valueLists.getD a []) (m'.valueLists.getD a []))
    (hb : ∀ vs ∈ m.valueLists, ∀ v ∈ vs, -MAX_VALUE ≤ v) (hb' : ∀ vs ∈ m'.valueLists, ∀ v ∈ vs, -MAX_VALUE ≤ v) :
    Better m.sorted m'.sorted r a where
  recipe := by rw [m.sorted_length]; exact hr
  length := by rw [m.sorted_length, m'.sorted_length]; exact hn
  other j hj := by
    rw [vAt_sorted, vAt_sorted]
    exact eq_of_perm_of_sorted (((sortDesc_perm _).trans (hother j hj)).trans (sortDesc_perm _).symm) (sortDesc_sorted _) (sortDesc_sorted _)
  entries := by rw [vAt_sorted, vAt_sorted]; exact hgood.sort
  sorted := sorted_vAt m
  sorted' := sorted_vAt m'
  bound := mem_vAt hb
  bound' := mem_vAt hb'
  lt := by rw [m.sorted_length]; exact ha
  ne := rel_ne_nil hr hpos

/-- **C105**. If one category becomes better (agents join it, reports in it rise) and the others keep their agents, the ascending auction makes at least
as many deals; the price of that category does not fall; no other price rises; and in the other categories all who remained
still remain. -/
theorem ascending_competition {m m' : Market} {r : List ℕ} {f₁ N₁ f₂ N₂ : ℕ} {t t' : TradeWithSinglePrice} {a : ℕ}
    (h : auction m r f₁ N₁ = .ok (some t)) (h' : auction m' r f₂ N₂ = .ok (some t')) (ha : a < m.numCategories)
    (hother : ∀ j, j ≠ a → (m'.valueLists.getD j []).Perm (m.valueLists.getD j []))
    (hgood : AsGood (m.valueLists.getD a []) (m'.valueLists.getD a []))
    (hb : ∀ vs ∈ m.valueLists, ∀ v ∈ vs, -MAX_VALUE ≤ v) (hb' : ∀ vs ∈ m'.valueLists, ∀ v ∈ vs, -MAX_VALUE ≤ v) :
    t.numOfDeals ≤ t'.numOfDeals ∧
    singlePrice t a ≤ singlePrice t' a ∧
    (∀ j < m.numCategories, j ≠ a → singlePrice t' j ≤ singlePrice t j) ∧
    (∀ j < m.numCategories, j ≠ a → singleRemaining t j <+: singleRemaining t' j) ∧
    (singleRemaining t a).length ≤ (singleRemaining t' a).length := by
  obtain ⟨hl, hcat, hpos⟩ := auction_ok_inv h
  obtain ⟨hl', -, -⟩ := auction_ok_inv h'
  have hB := better_of hl hpos (hl'.symm.trans hl) ha hother hgood hb hb'
  obtain ⟨n, s, p, d, hp, he, rfl, hd, hdmax⟩ := outcome_of_ok h
  obtain ⟨n', s', p', d', hp', he', rfl, hd', hdmax'⟩ := outcome_of_ok h'
  obtain ⟨h1, h2, h3⟩ := hB.outcome hp he hp' he'
  refine ⟨?_, ?_, ?_, ?_, ?_⟩
  · exact hdmax' d fun i hi => (hd i (by rw [← hB.length]; exact hi)).trans (h1 i)
  · rw [(single_outcome _ s r p d a).2.1, (single_outcome _ s' r p' d' a).2.1]; exact h3
  · intro j hj hja
    rw [(single_outcome _ s r p d j).2.1, (single_outcome _ s' r p' d' j).2.1]
    exact h2 j (by rw [m.sorted_length]; exact hj) hja
  · intro j hj hja
    rw [(single_outcome _ s r p d j).1, (single_outcome _ s' r p' d' j).1, hB.other j hja]
    exact List.take_prefix_take_left (h1 j)
  · rw [(single_outcome _ s r p d a).1, (single_outcome _ s' r p' d' a).1, List.length_take, List.length_take]
    have := hB.entries.length_le
    have := h1 a
    omega

/-- Market `m'` in the first `k` categories, market `m` in the others. -/
def hybrid (m m' : Market) (k : ℕ) : Market := ⟨m'.categories.take k ++ m.categories.drop k⟩

theorem hybrid_length {m m' : Market} (hn : m'.numCategories = m.numCategories) (k : ℕ) : (hybrid m m' k).numCategories = m.numCategories := by
  unfold Market.numCategories at *
  simp only [hybrid, List.length_append, List.length_take, List.length_drop]
  omega

theorem hybrid_values {m m' : Market} (hn : m'.numCategories = m.numCategories) (k j : ℕ) :
    (hybrid m m' k).valueLists.getD j [] = if j < k then m'.valueLists.getD j [] else m.valueLists.getD j [] := by
  unfold Market.numCategories at hn
  unfold hybrid Market.valueLists
  simp only [List.map_append, List.map_take, List.map_drop, List.getD_eq_getElem?_getD]
  by_cases h : j < k
  · rw [if_pos h]
    by_cases hj : j < m'.categories.length
    · rw [List.getElem?_append_left (by simp; omega), List.getElem?_take_of_lt h]
    · rw [List.getElem?_eq_none (by simp; omega), List.getElem?_eq_none (by simp; omega)]
  · rw [if_neg h]
    by_cases hk : k ≤ m'.categories.length
    · rw [List.getElem?_append_right (by simp; omega), List.length_take, List.length_map, min_eq_left hk, List.getElem?_drop]
      congr 2; omega
    · rw [List.getElem?_eq_none (by simp; omega), List.getElem?_eq_none (by simp; omega)]

/-- **C105**, all categories: if every category becomes at least as good, the ascending auction makes at least as many deals. -/
theorem ascending_deals_monotone {m m' : Market} {r : List ℕ} {f₁ N₁ f₂ N₂ : ℕ} {t t' : TradeWithSinglePrice}
    (h : auction m r f₁ N₁ = .ok (some t)) (h' : auction m' r f₂ N₂ = .ok (some t'))
    (hgood : ∀ j < m.numCategories, AsGood (m.valueLists.getD j []) (m'.valueLists.getD j []))
    (hb : ∀ vs ∈ m.valueLists, ∀ v ∈ vs, -MAX_VALUE ≤ v) (hb' : ∀ vs ∈ m'.valueLists, ∀ v ∈ vs, -MAX_VALUE ≤ v) :
    t.numOfDeals ≤ t'.numOfDeals := by
  obtain ⟨hl, hcat, hpos⟩ := auction_ok_inv h
  obtain ⟨hl', hcat', -⟩ := auction_ok_inv h'
  have hn : m'.numCategories = m.numCategories := hl'.symm.trans hl
  have hbk : ∀ k, ∀ vs ∈ (hybrid m m' k).valueLists, ∀ v ∈ vs, -MAX_VALUE ≤ v := by
    intro k vs hvs v hv
    simp only [hybrid, Market.valueLists, List.map_append, List.mem_append, List.map_take, List.map_drop] at hvs
    rcases hvs with hvs | hvs
    · exact hb' vs (List.mem_of_mem_take hvs) v hv
    · exact hb vs (List.mem_of_mem_drop hvs) v hv
  have key : ∀ k ≤ m.numCategories, ∃ tk f, auction (hybrid m m' k) r f 0 = .ok (some tk) ∧ t.numOfDeals ≤ tk.numOfDeals := by
    intro k hk
    induction k with
    | zero =>
      have h0 : hybrid m m' 0 = m := by obtain ⟨cs⟩ := m; simp [hybrid]
      rw [h0]
      obtain ⟨n, hm⟩ := auction_mono h
      exact ⟨t, n + 1, hm _ 0 (by omega), le_refl _⟩
    | succ k ih =>
      obtain ⟨tk, f, h1, h2⟩ := ih (by omega)
      have hne : (hybrid m m' (k + 1)).categories ≠ [] := by
        intro h0
        have h3 := hybrid_length hn (k + 1)
        unfold Market.numCategories at h3
        rw [h0] at h3
        exact hcat (List.length_eq_zero_iff.1 (h3.symm.trans rfl))
      obtain ⟨tn, h4⟩ := ascending_total (r := r) (hl.trans (hybrid_length hn (k + 1)).symm) hne hpos
      refine ⟨tn, _, h4 _ 0 (Nat.lt_succ_self _), h2.trans ?_⟩
      refine (ascending_competition (a := k) h1 (h4 _ 0 (Nat.lt_succ_self _)) (by rw [hybrid_length hn]; omega) (fun j hj => ?_) ?_ (hbk k) (hbk (k + 1))).1
      · rw [hybrid_values hn, hybrid_values hn]
        by_cases h5 : j < k
        · rw [if_pos h5, if_pos (by omega)]
        · rw [if_neg h5, if_neg (by omega)]
      · rw [hybrid_values hn, hybrid_values hn, if_neg (lt_irrefl k), if_pos (by omega)]
        exact hgood k (by omega)
  obtain ⟨tk, f, h1, h2⟩ := key m.numCategories (le_refl _)
  have hfull : hybrid m m' m.numCategories = m' := by
    obtain ⟨cs⟩ := m
    obtain ⟨cs'⟩ := m'
    unfold Market.numCategories at hn
    simp only [hybrid, Market.numCategories] at *
    rw [List.take_of_length_le (by omega), List.drop_of_length_le (le_refl _), List.append_nil]
  rw [hfull] at h1
  obtain ⟨n₁, hm₁⟩ := auction_mono h1
  obtain ⟨n₂, hm₂⟩ := auction_mono h'
  have h3 := hm₁ (max n₁ n₂ + 1) 0 (by omega)
  rw [hm₂ (max n₁ n₂ + 1) 0 (by omega)] at h3
  simp only [Except.ok.injEq, Option.some.injEq] at h3
  subst h3
  exact h2

theorem low_lists {m : Market} (h : ∀ vs ∈ m.valueLists, ∀ v ∈ vs, -MAX_VALUE ≤ v) : ∀ c ∈ m.categories, ∀ v ∈ c.values, -MAX_VALUE ≤ v :=
  fun c hc v hv => h c.values (List.mem_map.2 ⟨c, hc, rfl⟩) v hv

/-- **C105**, trade reduction: if every category becomes at least as good, trade reduction makes at least as many deals. -/
theorem trade_reduction_deals_monotone {m m' : Market} {r : List ℕ} {t t' : TradeWithSinglePrice} (hpos : ∃ x ∈ r, 0 < x)
    (h : tradeReduction m r = .ok t) (h' : tradeReduction m' r = .ok t')
    (hgood : ∀ j < m.numCategories, AsGood (m.valueLists.getD j []) (m'.valueLists.getD j []))
    (hb : ∀ vs ∈ m.valueLists, ∀ v ∈ vs, -MAX_VALUE ≤ v) (hb' : ∀ vs ∈ m'.valueLists, ∀ v ∈ vs, -MAX_VALUE ≤ v)
    (hN : m.numAgents ≤ 2000000) (hN' : m'.numAgents ≤ 2000000) : t.numOfDeals ≤ t'.numOfDeals := by
  obtain ⟨hl, hcat⟩ := tr_ok_inv h
  obtain ⟨hl', hcat'⟩ := tr_ok_inv h'
  obtain ⟨u, hu⟩ := ascending_total hl hcat hpos
  obtain ⟨u', hu'⟩ := ascending_total hl' hcat' hpos
  replace hu := hu _ 0 (Nat.lt_succ_self _)
  replace hu' := hu' _ 0 (Nat.lt_succ_self _)
  rw [← sbb_same_number_of_deals (low_lists hb) hN h hu, ← sbb_same_number_of_deals (low_lists hb') hN' h' hu']
  exact ascending_deals_monotone hu hu' hgood hb hb'

/-- **C105**, the prices of trade reduction, for the recipes for which it is the same mechanism as the ascending auction (C68): if one category
becomes better and the others keep their agents, and deals were made before, then the price of that category does not fall and no other price rises. -/
theorem trade_reduction_competition {m m' : Market} {c x : ℕ} {t t' : TradeWithSinglePrice} {a : ℕ} (hx : 0 < x)
    (h : tradeReduction m (List.replicate c 1 ++ [x]) = .ok t) (h' : tradeReduction m' (List.replicate c 1 ++ [x]) = .ok t')
    (hdeals : 0 < t.numOfDeals) (ha : a < m.numCategories)
    (hother : ∀ j, j ≠ a → (m'.valueLists.getD j []).Perm (m.valueLists.getD j []))
    (hgood : AsGood (m.valueLists.getD a []) (m'.valueLists.getD a []))
    (hb : ∀ vs ∈ m.valueLists, ∀ v ∈ vs, -MAX_VALUE ≤ v) (hb' : ∀ vs ∈ m'.valueLists, ∀ v ∈ vs, -MAX_VALUE ≤ v)
    (hdvd : ∀ i (hi : i < m.categories.length), (List.replicate c 1 ++ [x]).getD i 0 ∣ m.categories[i].size)
    (hdvd' : ∀ i (hi : i < m'.categories.length), (List.replicate c 1 ++ [x]).getD i 0 ∣ m'.categories[i].size)
    (hhigh : ∀ cat ∈ m.categories, ∀ v ∈ cat.values, ((c + x : ℕ) : ℚ) * v < MAX_VALUE)
    (hhigh' : ∀ cat ∈ m'.categories, ∀ v ∈ cat.values, ((c + x : ℕ) : ℚ) * v < MAX_VALUE)
    (hN : m.numAgents ≤ 2000000) (hN' : m'.numAgents ≤ 2000000) :
    t.numOfDeals ≤ t'.numOfDeals ∧
    singlePrice t a ≤ singlePrice t' a ∧
    (∀ j < m.numCategories, j ≠ a → singlePrice t' j ≤ singlePrice t j) ∧
    (∀ j < m.numCategories, j ≠ a → singleRemaining t j <+: singleRemaining t' j) ∧
    (singleRemaining t a).length ≤ (singleRemaining t' a).length := by
  have hpos : ∃ y ∈ List.replicate c 1 ++ [x], 0 < y := ⟨x, by simp, hx⟩
  obtain ⟨hl, hcat⟩ := tr_ok_inv h
  obtain ⟨hl', hcat'⟩ := tr_ok_inv h'
  obtain ⟨u, hu⟩ := ascending_total hl hcat hpos
  obtain ⟨u', hu'⟩ := ascending_total hl' hcat' hpos
  replace hu := hu _ 0 (Nat.lt_succ_self _)
  replace hu' := hu' _ 0 (Nat.lt_succ_self _)
  have hcmp := ascending_competition hu hu' ha hother hgood hb hb'
  rcases sbb_same_outcome hx hdvd (low_lists hb) hhigh hN h hu with rfl | ⟨h0, -⟩
  · rcases sbb_same_outcome hx hdvd' (low_lists hb') hhigh' hN' h' hu' with rfl | ⟨-, h0⟩
    · exact hcmp
    · have := hcmp.1
      omega
  · omega

/-- **C105**, McAfee: if every category becomes at least as good, the McAfee protocol loses at most one deal, and without the price heuristic none. -/
theorem mcafee_deals_monotone {m m' : Market} {r : List ℕ} {q : Bool} {t t' : TradeWithSinglePrice}
    (h : mcafeeTradeReduction m r q = .ok t) (h' : mcafeeTradeReduction m' r q = .ok t')
    (hgood : ∀ i, AsGood (m.valueLists.getD i []) (m'.valueLists.getD i [])) :
    t.numOfDeals ≤ t'.numOfDeals + 1 ∧ (q = false → t.numOfDeals ≤ t'.numOfDeals) := by
  obtain ⟨hr, hcat⟩ := mcafee_ok_inv h
  obtain ⟨hr', hcat'⟩ := mcafee_ok_inv h'
  have hl : r.length = m.numCategories := by rw [hr]; simp
  have hl' : r.length = m'.numCategories := by rw [hr']; simp
  obtain ⟨k, -, e⟩ := optimalTrade_eq hl hcat 2000000 true
  obtain ⟨k', -, e'⟩ := optimalTrade_eq hl' hcat' 2000000 true
  obtain ⟨h1, h2, h3, -⟩ := mcafee_deals h e
  obtain ⟨h1', h2', h3', -⟩ := mcafee_deals h' e'
  have hm := (optimal_trade_monotone hl hl' hgood e e').1
  refine ⟨by omega, fun hq => ?_⟩
  rw [h3 hq, h3' hq]
  omega

/-- **C105**, the limits. A buyer is added to a market of buyers and sellers:

* ascending auction: all prices move as they should, but a seller's expected gain falls from 5 to 9/2, because one more seller remains and the three
  that trade are drawn among four;
* McAfee with the price heuristic: the price of the buyers falls, because the heuristic price becomes acceptable;
* McAfee with the price heuristic: two deals become one, because the heuristic price becomes unacceptable;
* McAfee without the heuristic: the price of the buyers falls, because the optimal trade has one deal more. -/
theorem competition_limits :
    (let m : Market := ⟨[⟨"buyer", [10, 9, 8, 1]⟩, ⟨"seller", [-1, -2, -3, -6]⟩]⟩
     let m' : Market := ⟨[⟨"buyer", [10, 9, 8, 1, 7]⟩, ⟨"seller", [-1, -2, -3, -6]⟩]⟩
     ∃ t t', auction m [1, 1] 30 = .ok (some t) ∧ auction m' [1, 1] 30 = .ok (some t') ∧
       singlePrice t 0 = 6 ∧ singlePrice t' 0 = 7 ∧ t.numOfDeals = 3 ∧ t'.numOfDeals = 3 ∧
       singleChance t 1 * (-1 - singlePrice t 1) = 5 ∧ singleChance t' 1 * (-1 - singlePrice t' 1) = 9 / 2) ∧
    (let m : Market := ⟨[⟨"buyer", [10, 9, 0]⟩, ⟨"seller", [-1, -5, -8]⟩]⟩
     let m' : Market := ⟨[⟨"buyer", [10, 9, 0, 4]⟩, ⟨"seller", [-1, -5, -8]⟩]⟩
     ∃ t t', mcafeeTradeReduction m [1, 1] = .ok t ∧ mcafeeTradeReduction m' [1, 1] = .ok t' ∧ t.numOfDeals = 1 ∧ t'.numOfDeals = 2 ∧
       singlePrice t 0 = 9 ∧ singlePrice t' 0 = 6) ∧
    (let m : Market := ⟨[⟨"buyer", [10, 9, 0]⟩, ⟨"seller", [-1, -5, -12]⟩]⟩
     let m' : Market := ⟨[⟨"buyer", [10, 9, 0, 8]⟩, ⟨"seller", [-1, -5, -12]⟩]⟩
     ∃ t t', mcafeeTradeReduction m [1, 1] = .ok t ∧ mcafeeTradeReduction m' [1, 1] = .ok t' ∧ t.numOfDeals = 2 ∧ t'.numOfDeals = 1) ∧
    (let m : Market := ⟨[⟨"buyer", [10, 5, 1]⟩, ⟨"seller", [-1, -2, -3]⟩]⟩
     let m' : Market := ⟨[⟨"buyer", [10, 5, 1, 4]⟩, ⟨"seller", [-1, -2, -3]⟩]⟩
     ∃ t t', mcafeeTradeReduction m [1, 1] false = .ok t ∧ mcafeeTradeReduction m' [1, 1] false = .ok t' ∧ t.numOfDeals = 1 ∧ t'.numOfDeals = 2 ∧
       singlePrice t 0 = 5 ∧ singlePrice t' 0 = 4) := by
  refine ⟨⟨⟨[⟨"buyer", [10, 9, 8]⟩, ⟨"seller", [-1, -2, -3]⟩], [1, 1], some [6, -6], 3⟩,
      ⟨[⟨"buyer", [10, 9, 8]⟩, ⟨"seller", [-1, -2, -3, -6]⟩], [1, 1], some [7, -7], 3⟩, ?_⟩,
    ⟨⟨[⟨"buyer", [10]⟩, ⟨"seller", [-1]⟩], [1, 1], some [9, -5], 1⟩, ⟨[⟨"buyer", [10, 9]⟩, ⟨"seller", [-1, -5]⟩], [1, 1], some [6, -6], 2⟩, ?_⟩,
    ⟨⟨[⟨"buyer", [10, 9]⟩, ⟨"seller", [-1, -5]⟩], [1, 1], some [6, -6], 2⟩, ⟨[⟨"buyer", [10]⟩, ⟨"seller", [-1]⟩], [1, 1], some [9, -5], 1⟩, ?_⟩,
    ⟨⟨[⟨"buyer", [10]⟩, ⟨"seller", [-1]⟩], [1, 1], some [5, -2], 1⟩, ⟨[⟨"buyer", [10, 5]⟩, ⟨"seller", [-1, -2]⟩], [1, 1], some [4, -3], 2⟩, ?_⟩⟩ <;>
  decide +kernel

/-- **C105**, recipe trees: nothing of the kind holds for the tree auction. With the tree `[0, [1, None, 2, [3, None]]]` (a buyer trades with a seller, or with an A and a B),

* when a B joins a market in which no two agents are equal, the one deal is lost, without any change of the buyers' price: the better branch
  keeps the price clocks going until no branch has a whole deal;
* when an A joins who is equal to an A in the market, two deals become one and the price of the buyers rises from 16 to 23. -/
theorem tree_competition_limits :
    let s : List PyObj := [.int 0, .list [.int 1, .none, .int 2, .list [.int 3, .none]]]
    let f := fixedSolver [-100000000, -200000000, -100000000, -100000000]
    (∃ t t', TreeAuction.auction f ⟨[⟨"buyer", [20, 18, 2]⟩, ⟨"seller", [-18]⟩, ⟨"A", [-3]⟩, ⟨"B", []⟩]⟩ s 100 = .ok (some t) ∧
      TreeAuction.auction f ⟨[⟨"buyer", [20, 18, 2]⟩, ⟨"seller", [-18]⟩, ⟨"A", [-3]⟩, ⟨"B", [-2]⟩]⟩ s 100 = .ok (some t') ∧
      t.numOfDeals = 1 ∧ t'.numOfDeals = 0 ∧ t.prices.getD 0 0 = 18 ∧ t'.prices.getD 0 0 = 18) ∧
    (∃ t t', TreeAuction.auction f ⟨[⟨"buyer", [28, 23, 16]⟩, ⟨"seller", [-8]⟩, ⟨"A", [-11, -14]⟩, ⟨"B", [-2, -14]⟩]⟩ s 100 = .ok (some t) ∧
      TreeAuction.auction f ⟨[⟨"buyer", [28, 23, 16]⟩, ⟨"seller", [-8]⟩, ⟨"A", [-11, -14, -11]⟩, ⟨"B", [-2, -14]⟩]⟩ s 100 = .ok (some t') ∧
      t.numOfDeals = 2 ∧ t'.numOfDeals = 1 ∧ t.prices.getD 0 0 = 16 ∧ t'.prices.getD 0 0 = 23) := by
  have key : ∀ (P : TreeAuction.TradeWithMultipleRecipes → TreeAuction.TradeWithMultipleRecipes → Bool)
      (x y : Py (Option TreeAuction.TradeWithMultipleRecipes)),
      (match x, y with | .ok (some t), .ok (some t') => P t t' | _, _ => false) = true →
      ∃ t t', x = .ok (some t) ∧ y = .ok (some t') ∧ P t t' = true := by
    intro P x y h
    split at h
    · exact ⟨_, _, rfl, rfl, h⟩
    · simp at h
  refine ⟨?_, ?_⟩
  · obtain ⟨t, t', h1, h2, h3⟩ := key (fun t t' => decide (t.numOfDeals = 1 ∧ t'.numOfDeals = 0 ∧ t.prices.getD 0 0 = 18 ∧ t'.prices.getD 0 0 = 18)) _ _
      (by decide +kernel : (match TreeAuction.auction (fixedSolver [-100000000, -200000000, -100000000, -100000000]) ⟨[⟨"buyer", [20, 18, 2]⟩, ⟨"seller", [-18]⟩, ⟨"A", [-3]⟩, ⟨"B", []⟩]⟩
          [.int 0, .list [.int 1, .none, .int 2, .list [.int 3, .none]]] 100,
        TreeAuction.auction (fixedSolver [-100000000, -200000000, -100000000, -100000000]) ⟨[⟨"buyer", [20, 18, 2]⟩, ⟨"seller", [-18]⟩, ⟨"A", [-3]⟩, ⟨"B", [-2]⟩]⟩
          [.int 0, .list [.int 1, .none, .int 2, .list [.int 3, .none]]] 100 with
        | .ok (some t), .ok (some t') => decide (t.numOfDeals = 1 ∧ t'.numOfDeals = 0 ∧ t.prices.getD 0 0 = 18 ∧ t'.prices.getD 0 0 = 18)
        | _, _ => false) = true)
    exact ⟨t, t', h1, h2, by simpa using h3⟩
  · obtain ⟨t, t', h1, h2, h3⟩ := key (fun t t' => decide (t.numOfDeals = 2 ∧ t'.numOfDeals = 1 ∧ t.prices.getD 0 0 = 16 ∧ t'.prices.getD 0 0 = 23)) _ _
      (by decide +kernel : (match TreeAuction.auction (fixedSolver [-100000000, -200000000, -100000000, -100000000])
            ⟨[⟨"buyer", [28, 23, 16]⟩, ⟨"seller", [-8]⟩, ⟨"A", [-11, -14]⟩, ⟨"B", [-2, -14]⟩]⟩
          [.int 0, .list [.int 1, .none, .int 2, .list [.int 3, .none]]] 100,
        TreeAuction.auction (fixedSolver [-100000000, -200000000, -100000000, -100000000])
            ⟨[⟨"buyer", [28, 23, 16]⟩, ⟨"seller", [-8]⟩, ⟨"A", [-11, -14, -11]⟩, ⟨"B", [-2, -14]⟩]⟩
          [.int 0, .list [.int 1, .none, .int 2, .list [.int 3, .none]]] 100 with
        | .ok (some t), .ok (some t') => decide (t.numOfDeals = 2 ∧ t'.numOfDeals = 1 ∧ t.prices.getD 0 0 = 16 ∧ t'.prices.getD 0 0 = 23)
        | _, _ => false) = true)
    exact ⟨t, t', h1, h2, by simpa using h3⟩

/-- Non-vacuity of C105: the first pair of markets above meets the hypotheses of `ascending_competition` and of `trade_reduction_competition` (a buyer joins); the
price of the buyers rises from 6 to 7. -/
example :
    let m : Market := ⟨[⟨"buyer", [10, 9, 8, 1]⟩, ⟨"seller", [-1, -2, -3, -6]⟩]⟩
    let m' : Market := ⟨[⟨"buyer", [10, 9, 8, 1, 7]⟩, ⟨"seller", [-1, -2, -3, -6]⟩]⟩
    auction m [1, 1] 30 = .ok (some ⟨[⟨"buyer", [10, 9, 8]⟩, ⟨"seller", [-1, -2, -3]⟩], [1, 1], some [6, -6], 3⟩) ∧
    auction m' [1, 1] 30 = .ok (some ⟨[⟨"buyer", [10, 9, 8]⟩, ⟨"seller", [-1, -2, -3, -6]⟩], [1, 1], some [7, -7], 3⟩) ∧
    tradeReduction m [1, 1] = .ok ⟨[⟨"buyer", [10, 9, 8]⟩, ⟨"seller", [-1, -2, -3]⟩], [1, 1], some [6, -6], 3⟩ ∧
    tradeReduction m' [1, 1] = .ok ⟨[⟨"buyer", [10, 9, 8]⟩, ⟨"seller", [-1, -2, -3, -6]⟩], [1, 1], some [7, -7], 3⟩ ∧
    (∀ j, j ≠ 0 → (m'.valueLists.getD j []).Perm (m.valueLists.getD j [])) ∧
    AsGood (m.valueLists.getD 0 []) (m'.valueLists.getD 0 []) ∧
    (∀ vs ∈ m.valueLists, ∀ v ∈ vs, -MAX_VALUE ≤ v) ∧ (∀ vs ∈ m'.valueLists, ∀ v ∈ vs, -MAX_VALUE ≤ v) := by
  refine ⟨by decide +kernel, by decide +kernel, by decide +kernel, by decide +kernel, fun j hj => ?_, ?_, by decide +kernel, by decide +kernel⟩
  · match j, hj with
    | 0, hj => exact absurd rfl hj
    | 1, _ => exact List.Perm.refl _
    | j + 2, _ => simp [Market.valueLists]
  · exact as_good_of_added (Multiset.coe_le.2 (List.Sublist.subperm (by decide +kernel)))

end Auctions.Props
