import Verif.Proofs.Monotone
import Verif.Props.Counters
import Verif.Props.TreeAuction
import Verif.Props.TreeGain

set_option autoImplicit false

/-!
# C70, C71: the optimum never gets worse in a better market; the tree auction does at most as many deals as the optimal trade
-/

namespace Auctions.Props

open Auctions Spec TreeAuction

/-! ## What "at least as good" covers -/

/-- **C70**. Adding agents makes a category at least as good. -/
theorem as_good_of_added {v w : List ℚ} (h : (v : Multiset ℚ) ≤ w) : AsGood v w :=
  asGood_of_subperm (Multiset.coe_le.1 h)

/-- **C70**. Raising the value of one agent makes a category at least as good. -/
theorem as_good_of_raised {x y : ℚ} (h : x ≤ y) (l l' : List ℚ) : AsGood (l ++ x :: l') (l ++ y :: l') := by
  refine (asGood_refl l).append (EntriesLe.asGood ⟨h, ?_⟩)
  induction l' with
  | nil => trivial
  | cons a l' ih => exact ⟨le_refl a, ih⟩

/-! ## One recipe -/

/-- **C70**. For a recipe: if every category of market `m'` is at least as good as the same category of market `m`, the optimal trade of `m'` has at
least as many deals and at least as much gain. -/
theorem optimal_trade_monotone {m m' : Market} {r : List ℕ} (hr : r.length = m.numCategories) (hr' : r.length = m'.numCategories)
    (h : ∀ i, AsGood (m.valueLists.getD i []) (m'.valueLists.getD i [])) {N : ℕ} {z : Bool} {opt opt' : TradeWithMaterialBalance}
    {rem rem' : Market} (h1 : m.optimalTrade r N z = .ok (opt, rem)) (h2 : m'.optimalTrade r N z = .ok (opt', rem')) :
    opt.numOfDeals ≤ opt'.numOfDeals ∧ opt.gainFromTrade ≤ opt'.gainFromTrade := by
  have hent : ∀ i, EntriesLe (vAt m.sorted i) (vAt m'.sorted i) := by
    intro i
    rw [vAt_sorted, vAt_sorted]
    exact (h i).sort
  by_cases hc : m.categories = []
  · have hc' : m'.categories = [] := by
      have : m'.numCategories = 0 := by rw [← hr', hr, Market.numCategories, hc]; rfl
      exact List.length_eq_zero_iff.1 this
    obtain ⟨cs⟩ := m
    obtain ⟨cs'⟩ := m'
    simp only at hc hc'
    subst hc hc'
    rw [h1] at h2
    cases h2
    exact ⟨le_refl _, le_refl _⟩
  have hc' : m'.categories ≠ [] := by
    intro h0
    have : m.numCategories = 0 := by rw [← hr, hr', Market.numCategories, h0]; rfl
    exact hc (List.length_eq_zero_iff.1 this)
  obtain ⟨k, hk, e1⟩ := optimalTrade_eq hr hc N z
  obtain ⟨k', hk', e2⟩ := optimalTrade_eq hr' hc' N z
  rw [e1] at h1
  rw [e2] at h2
  cases h1
  cases h2
  have hl : m.sorted.length = m'.sorted.length := by rw [m.sorted_length, m'.sorted_length]; exact hr.symm.trans hr'
  have hrl : r.length = m.sorted.length := by rw [m.sorted_length]; exact hr
  have hblk : ∀ j < k, (blk m.sorted r j).sum ≤ (blk m'.sorted r j).sum := fun j hj => blk_le hl hrl hent (hk.taken j hj).1
  have hkk : k ≤ k' := by
    by_contra hlt
    push Not at hlt
    have h3 := hk.le_max
    have h4 := hk.taken k' hlt
    rcases hk'.stop (by omega) with h5 | h5
    · refine h5 fun i hi => ?_
      exact (h4.1 i (by omega)).trans (hent i).length_le
    · have h6 := h4.2
      have h7 := hblk k' hlt
      unfold Good at h5 h6
      push Not at h5 h6
      rcases h5 with h5 | ⟨h5, hz⟩
      · linarith [h6.1]
      · exact h6.2 (by linarith [h6.1]) hz
  refine ⟨by simpa [TradeWithMaterialBalance.numOfDeals] using hkk, ?_⟩
  rw [gain_blks, gain_blks]
  refine (Finset.sum_le_sum (fun j hj => hblk j (Finset.mem_range.1 hj))).trans ?_
  refine Finset.sum_le_sum_of_subset_of_nonneg (fun j hj => ?_) (fun j hj _ => ?_)
  · rw [Finset.mem_range] at *; omega
  · have := (hk'.taken j (Finset.mem_range.1 hj)).2
    unfold Good at this
    push Not at this
    exact this.1

/-! ## Recipe trees -/

theorem optimal_count_eq (t : RecipeTree) (V : ℕ → List ℚ) :
    ((treeDeals V t.forest).filter (fun d => treeGain d ≥ 0)).length = ((t.forest.combinedValues V).filter (fun v => (0 : ℚ) ≤ v)).length := by
  rw [combinedValues_eq, List.filter_map, List.length_map]
  rfl

/-- **C70**. In a recipe tree: if every category of market `W` is at least as good as the same category of market `V`, the optimal trade of `W`
has at least as many deals and at least as much gain. (No condition on the tree: categories may even occur twice.) -/
theorem tree_optimum_monotone {t : RecipeTree} {V W : ℕ → List ℚ} (hV : ∀ i ∈ treeNodes t, SortedDesc (V i))
    (hW : ∀ i ∈ treeNodes t, SortedDesc (W i)) (h : ∀ i ∈ treeNodes t, AsGood (V i) (W i))
    {ds es : List (List ℚ)} {k l : ℕ} {g g' : ℚ} (h1 : t.optimalTrade V = .ok (ds, k, g)) (h2 : t.optimalTrade W = .ok (es, l, g')) :
    k ≤ l ∧ g ≤ g' := by
  have hg := combinedValues_asGood (V := V) (W := W) t.forest (by rw [treeNodes_eq]; exact h) (by rw [treeNodes_eq]; exact hV)
    (by rw [treeNodes_eq]; exact hW)
  by_cases hc : t.children = .nil
  · have key : ∀ (U : ℕ → List ℚ) xs n y, t.optimalTrade U = .ok (xs, n, y) → U t.index = [] ∧ n = 0 ∧ y = 0 := by
      intro U xs n y hU
      obtain ⟨i, ch⟩ := t
      subst hc
      by_cases hne : U i = []
      · have : RecipeTree.optimalTrade ⟨i, .nil⟩ U = .ok ([], 0, 0) := by
          simp [RecipeTree.optimalTrade, RecipeTree.combinedValuesDetailed, RecipeTree.forest, Forest.combinedValuesDetailed, hne, bind,
            Except.bind, pure, Except.pure]
        rw [this] at hU
        simp only [Except.ok.injEq, Prod.mk.injEq] at hU
        exact ⟨hne, hU.2.1.symm, hU.2.2.symm⟩
      · rw [tree_single_category_error hne] at hU
        cases hU
    obtain ⟨-, rfl, rfl⟩ := key _ _ _ _ h1
    obtain ⟨-, rfl, rfl⟩ := key _ _ _ _ h2
    exact ⟨le_refl _, le_refl _⟩
  · rw [optimalTrade_deals hc] at h1 h2
    simp only [Except.ok.injEq, Prod.mk.injEq] at h1 h2
    obtain ⟨-, rfl, rfl⟩ := h1
    obtain ⟨-, rfl, rfl⟩ := h2
    constructor
    · rw [optimal_count_eq, optimal_count_eq]
      exact hg 0
    · have := hg.nonneg_sum
      rw [combinedValues_eq, combinedValues_eq, List.filter_map, List.filter_map] at this
      exact this

/-- **C70**, the same for `optimal_trade_GFT()`. -/
theorem tree_gft_monotone {t : RecipeTree} {V W : ℕ → List ℚ} (hV : ∀ i ∈ treeNodes t, SortedDesc (V i))
    (hW : ∀ i ∈ treeNodes t, SortedDesc (W i)) (h : ∀ i ∈ treeNodes t, AsGood (V i) (W i)) : t.optimalTradeGFT V ≤ t.optimalTradeGFT W :=
  (combinedValues_asGood (V := V) (W := W) t.forest (by rw [treeNodes_eq]; exact h) (by rw [treeNodes_eq]; exact hV)
    (by rw [treeNodes_eq]; exact hW)).nonneg_sum

section

variable {f : List (List ℕ) → ℚ → Py (List ℚ)} {m : Market} {struct : List PyObj} {fuel : ℕ}
  {trade : TradeWithMultipleRecipes} {t : RecipeTree}

/-- **C71**. If no value is below `-MAX_VALUE`, the auction does at most as many deals as `optimal_trade_with_counters()`, and thus
`optimal_trade()`, counts, and its gain is between 0 and the optimal gain. -/
theorem tree_auction_at_most_optimal_trade (hf : PriceContract f) (ht : RecipeTree.init m.numCategories struct = .ok t)
    (hn : (treeNodes t).Nodup) (hlow : ∀ l ∈ m.valueLists, ∀ x ∈ l, -MAX_VALUE ≤ x) (h : auction f m struct fuel = .ok (some trade))
    {r : CountedTrade} (hr : r = t.optimalTradeWithCounters (fun i => sortDesc (m.valueLists.getD i []))) :
    trade.numOfDeals ≤ r.count ∧ 0 ≤ trade.gainFromTrade ∧ trade.gainFromTrade ≤ r.gain := by
  have hvals : valuesAt m.sorted = fun i => sortDesc (m.valueLists.getD i []) := by
    funext i; exact valuesAt_sorted m i
  rw [← hvals] at hr
  have hsorted : ∀ i, SortedDesc (valuesAt m.sorted i) := by
    intro i; rw [valuesAt_sorted]; exact sortDesc_sorted _
  obtain ⟨-, -, -, -, c5⟩ := counted_deals (t := t) (vals := valuesAt m.sorted) hn (fun i _ => hsorted i) _ rfl
  obtain ⟨-, d2, d3, -⟩ := c5 r hr
  have hbal := (tree_auction_budget_balanced hf ht hn h).2
  have hbest := tree_auction_keeps_best hf ht hn h
  obtain ⟨cats, v, s, rfl, h1, -, -⟩ := outcome hf ht hn (fun _ _ _ => True) (by intros; trivial) (by intros; trivial)
    (by intros; trivial) h
  have hgood : ∀ i ∈ treeNodes t, AsGood (valuesAt cats i) (valuesAt m.sorted i) := by
    intro i _
    obtain ⟨k, hk⟩ := h1.pre i
    rw [hk]
    exact asGood_of_subperm (List.take_sublist _ _).subperm
  have hcomb := combinedValues_asGood t.forest (by rw [treeNodes_eq]; exact hgood) (fun i _ => h1.sorted i) (fun i _ => hsorted i)
  have hgain : (TradeWithMultipleRecipes.init cats t v.prices).gainFromTrade ≤ r.gain := by
    have e : treeTotalGain ((treeDeals (valuesAt m.sorted) t.forest).filter (fun d => treeGain d ≥ 0))
        = t.optimalTradeGFT (valuesAt m.sorted) := (filtered_deals hn).2
    rw [d3, e]
    exact hcomb.nonneg_sum
  have hnn : 0 ≤ (TradeWithMultipleRecipes.init cats t v.prices).gainFromTrade := by
    refine List.sum_nonneg fun x hx => ?_
    simpa using (List.mem_filter.1 hx).2
  refine ⟨?_, hnn, hgain⟩
  rcases hbal with hb | hb
  · rw [hb.1]; omega
  · have hnum : (TradeWithMultipleRecipes.init cats t v.prices).numOfDeals = (t.forest.combinedValues (valuesAt cats)).length := by
      change (t.numOfDealsExplained (sizeAt cats)).1 = _
      rw [tree_num_of_deals_explained, RecipeTree.numOfDeals, sizeAt_fun, numOfDeals_eq]
    have hall : (t.forest.combinedValues (valuesAt cats)).filter (fun v => (0 : ℚ) ≤ v) = t.forest.combinedValues (valuesAt cats) := by
      rw [List.filter_eq_self]
      intro x hx
      rw [combinedValues_eq] at hx
      obtain ⟨d, hd, rfl⟩ := List.mem_map.1 hx
      have hfe := treeDeals_feasible (valuesAt cats) t.forest (by rw [treeNodes_eq]; exact hn)
      have hp := hfe.1 d hd
      have h0 := hb _ hp
      have hge : ∀ a ∈ d, finalPrice (TradeWithMultipleRecipes.init cats t v.prices) a.1 ≤ a.2 := by
        intro a ha
        refine (hbest a.1).2 hlow a.2 ?_
        rw [remaining_eq]
        refine (hfe.2 a.1).subset ?_
        exact List.mem_map.2 ⟨a, List.mem_filter.2 ⟨List.mem_flatten.2 ⟨d, hd, ha⟩, by simp⟩, rfl⟩
      have hle : ((d.map Prod.fst).map (finalPrice (TradeWithMultipleRecipes.init cats t v.prices))).sum ≤ treeGain d := by
        rw [List.map_map, treeGain]
        exact List.sum_le_sum fun a ha => hge a ha
      simp only [decide_eq_true_eq]
      linarith
    rw [d2, optimal_count_eq, hnum, ← hall]
    exact hcomb 0

end

/-! ## Examples -/

/-- A market for the recipe `[1, 2]`, and the same market after one seller has come and one buyer has raised his value. -/
def before : Market := ⟨[⟨"buyer", [9, 8, 6]⟩, ⟨"seller", [-1, -2, -5, -6]⟩]⟩

def after : Market := ⟨[⟨"buyer", [9, 8, 10]⟩, ⟨"seller", [-1, -2, -5, -6, -3]⟩]⟩

/-- Non-vacuity of C70: the optimal trade goes from one deal with a gain of 6 to two deals with a gain of 8. -/
example :
    before.numCategories = 2 ∧ after.numCategories = 2 ∧
    (∀ i, AsGood (before.valueLists.getD i []) (after.valueLists.getD i [])) ∧
    (before.optimalTrade [1, 2]).map (fun o => (o.1.numOfDeals, o.1.gainFromTrade)) = .ok (1, 6) ∧
    (after.optimalTrade [1, 2]).map (fun o => (o.1.numOfDeals, o.1.gainFromTrade)) = .ok (2, 8) := by
  refine ⟨rfl, rfl, fun i => ?_, by decide +kernel, by decide +kernel⟩
  match i with
  | 0 => exact as_good_of_raised (by norm_num) [9, 8] []
  | 1 => exact as_good_of_added (Multiset.coe_le.2 (List.sublist_append_left [-1, -2, -5, -6] [-3]).subperm)
  | i + 2 => exact asGood_refl _

/-- Non-vacuity of C71: four optimal deals with a gain of 583; the auction does three of them, with a gain of 528. -/
example :
    PriceContract lossSolver ∧ RecipeTree.init lossMarket.numCategories lossStruct = .ok lossTree ∧ (treeNodes lossTree).Nodup ∧
    (∀ l ∈ lossMarket.valueLists, ∀ x ∈ l, -MAX_VALUE ≤ x) ∧
    (auction lossSolver lossMarket lossStruct 100).map (fun o => o.map (fun t => (t.numOfDeals, t.gainFromTrade))) = .ok (some (3, 528)) ∧
    (let r := lossTree.optimalTradeWithCounters (fun i => sortDesc (lossMarket.valueLists.getD i []))
     (r.count, r.gain) = (4, 583)) := by
  refine ⟨fixedSolver_contract _, ?_⟩
  decide +kernel

/-- Non-vacuity of C70 for a tree: `[0, [1, None, 2, [3, None]]]`; a new agent in category 3 raises the optimum. -/
example :
    let t : RecipeTree := ⟨0, .cons 1 .nil (.cons 2 (.cons 3 .nil .nil) .nil)⟩
    let V := fun i => ([[17, 14, 13, 9, 6], [-4, -5, -11], [-1, -3, -4], [-2]] : List (List ℚ)).getD i []
    let W := fun i => ([[17, 14, 13, 9, 6], [-4, -5, -11], [-1, -3, -4], [-1, -2]] : List (List ℚ)).getD i []
    (∀ i ∈ treeNodes t, SortedDesc (V i)) ∧ (∀ i ∈ treeNodes t, SortedDesc (W i)) ∧ (∀ i ∈ treeNodes t, AsGood (V i) (W i)) ∧
    (t.optimalTrade V).map Prod.snd = .ok (3, 32) ∧ (t.optimalTrade W).map Prod.snd = .ok (4, 37) := by
  refine ⟨by unfold SortedDesc; decide +kernel, by unfold SortedDesc; decide +kernel, ?_, by decide +kernel, by decide +kernel⟩
  intro i hi
  simp only [treeNodes, nodes, List.append_nil, List.nil_append, List.cons_append, List.mem_cons, List.not_mem_nil, or_false] at hi
  rcases hi with rfl | rfl | rfl | rfl
  · exact asGood_refl _
  · exact asGood_refl _
  · exact asGood_refl _
  · exact as_good_of_added (Multiset.coe_le.2 (List.sublist_cons_self (-1 : ℚ) [-2]).subperm)

end Auctions.Props
