import Verif.Proofs.IntegerCut
import Verif.Props.Tree

set_option autoImplicit false

/-!
# C51, C52 — recipe trees with agent counts (`recipetree_integer.py`)
-/

namespace Auctions.Props

open Auctions Spec IntegerTree

/-! ## C51: the optimal trade -/

/-- `combined_values_detailed` gives the same as `combined_values`. -/
theorem integer_combined_detailed {t : RecipeTree} {cnt : ℕ → ℕ} {vals : ℕ → List ℚ} (hc : ∀ i ∈ treeNodes t, 0 < cnt i) :
    combinedValuesDetailed t cnt vals = combinedValues cnt vals t.forest := by
  obtain ⟨i, ch⟩ := t
  have hi : 0 < cnt i := hc i (by simp [treeNodes])
  cases ch with
  | nil =>
    have h := sortBySumDesc_groups hi (vals i)
    simp only [combinedValuesDetailed, RecipeTree.forest, combinedValues, List.append_nil]
    exact h.symm
  | cons j c s =>
    have h := sortBySumDesc_groups hi (vals i)
    have e : combinedValues cnt vals (RecipeTree.mk i (.cons j c s)).forest
        = List.zipWith (· ++ ·) (sortBySumDesc (blocks (cnt i) [] (sortDesc (vals i))))
          (sortBySumDesc (combinedValues cnt vals (.cons j c s))) ++ combinedValues cnt vals .nil := by
      show combinedValues cnt vals (.cons i (.cons j c s) .nil) = _
      conv_lhs => rw [combinedValues]
    rw [e, combinedValues, List.append_nil, h]
    rfl

/-- The deals without losses among those that the code forms. -/
theorem integer_filtered_deals {t : RecipeTree} {cnt : ℕ → ℕ} {vals : ℕ → List ℚ} (hn : (treeNodes t).Nodup)
    (hc : ∀ i ∈ treeNodes t, 0 < cnt i) :
    ∃ deals : List TreeDeal, WeightedFeasible t cnt vals deals ∧ (∀ d ∈ deals, 0 ≤ treeGain d) ∧
      treeTotalGain deals = optimalTradeGFT t cnt vals ∧
      (combinedValues cnt vals t.forest).filter (fun vs => vs.sum ≥ 0) = deals.map (List.map Prod.snd) := by
  have hc' : ∀ i ∈ nodes t.forest, 0 < cnt i := by rw [treeNodes_eq]; exact hc
  have hfil : (combinedValues cnt vals t.forest).filter (fun vs => vs.sum ≥ 0)
      = (((groupDeals (fun i => groups (cnt i) (sortDesc (vals i))) t.forest).filter (fun d => groupGain d ≥ 0)).map agents).map
          (List.map Prod.snd) := by
    rw [combinedValues_deals hc', List.filter_map, List.map_map]
    have h1 : (List.map Prod.snd ∘ agents) = dealValues := by funext d; exact dealValues_agents d
    rw [h1]
    congr 1
    apply List.filter_congr
    intro d _
    simp [Function.comp, dealValues_sum]
  refine ⟨((groupDeals (fun i => groups (cnt i) (sortDesc (vals i))) t.forest).filter (fun d => groupGain d ≥ 0)).map agents,
    groupDeals_weighted hn hc List.filter_sublist, ?_, ?_, hfil⟩
  · intro d hd
    obtain ⟨g, hg, rfl⟩ := List.mem_map.1 hd
    rw [treeGain_agents]
    simpa using (List.mem_filter.1 hg).2
  · rw [optimalTradeGFT, hfil, treeTotalGain, List.map_map, List.map_map, List.map_map]
    rfl

/-- **C51**. In a tree whose nodes are different categories, with positive agent counts, the value of `optimal_trade_GFT()` is the largest total
value of a collection of deals, each taking from every category of some path as many agents as its count says. -/
theorem integer_tree_gft_is_maximum {t : RecipeTree} {cnt : ℕ → ℕ} {vals : ℕ → List ℚ} (hn : (treeNodes t).Nodup)
    (hc : ∀ i ∈ treeNodes t, 0 < cnt i) :
    IsGreatest {g | ∃ deals, WeightedFeasible t cnt vals deals ∧ treeTotalGain deals = g} (optimalTradeGFT t cnt vals) := by
  constructor
  · obtain ⟨deals, h1, -, h2, -⟩ := integer_filtered_deals (vals := vals) hn hc
    exact ⟨deals, h1, h2⟩
  · rintro g ⟨deals, hd, rfl⟩
    obtain ⟨D, hD, -, hle⟩ := weighted_le hn hc hd
    have hsorted : ∀ i ∈ nodes t.forest, SortedDesc ((groups (cnt i) (sortDesc (vals i))).map List.sum) := by
      intro i hi
      rw [treeNodes_eq] at hi
      exact groups_sorted (hc i hi) (sortDesc_sorted _)
    obtain ⟨u, hu, -, hg⟩ := feasible_le_combined (f := t.forest) (by rw [treeNodes_eq]; exact hn) hsorted hD
    refine hle.trans (hg.trans ((subperm_sum_le_filter hu).trans (le_of_eq ?_)))
    rw [← combinedValues_sums (by rw [treeNodes_eq]; exact hc), List.filter_map, optimalTradeGFT]
    rfl

/-- **C51**. `optimal_trade()` returns the values of the deals of a feasible collection without losses, their number and their total value,
which is the value of `optimal_trade_GFT()`. -/
theorem integer_tree_optimal_trade {t : RecipeTree} {cnt : ℕ → ℕ} {vals : ℕ → List ℚ} (hn : (treeNodes t).Nodup)
    (hc : ∀ i ∈ treeNodes t, 0 < cnt i) :
    ∃ deals : List TreeDeal, WeightedFeasible t cnt vals deals ∧ (∀ d ∈ deals, 0 ≤ treeGain d) ∧
      treeTotalGain deals = optimalTradeGFT t cnt vals ∧
      optimalTrade t cnt vals = (deals.map (List.map Prod.snd), deals.length, treeTotalGain deals) := by
  obtain ⟨deals, h1, h2, h3, h4⟩ := integer_filtered_deals (vals := vals) hn hc
  refine ⟨deals, h1, h2, h3, ?_⟩
  rw [optimalTrade, integer_combined_detailed hc, h4]
  simp only [List.length_map, List.sum_flatten, List.map_map, treeTotalGain]
  rfl

/-- Non-vacuity of C51: two agents of category 1 and three of category 2 per deal. -/
example :
    let t : RecipeTree := ⟨0, .cons 1 .nil (.cons 2 .nil .nil)⟩
    let cnt : ℕ → ℕ := countOf [1, 2, 3]
    let vals : ℕ → List ℚ := fun i => [[-1, -2, -4], [6, 3, 2, 1, 0], [9, -1, 1, 0, 3, 2]].getD i []
    (treeNodes t).Nodup ∧ (∀ i ∈ treeNodes t, 0 < cnt i) ∧ optimalTradeGFT t cnt vals = 20 ∧
      optimalTrade t cnt vals = ([[-1, 9, 3, 2], [-2, 6, 3]], 2, 20) := by
  refine ⟨by decide, by decide, by decide +kernel, by decide +kernel⟩

/-! ## C52: construction, recipes, numbers of deals, chosen categories -/

/-- **C52**. Construction as without counts, except that each category must also have a count, if `agent_counts` is given and not empty. -/
theorem integer_tree_construction {n : ℕ} {x y : PyObj} {rest : List PyObj} {counts : List ℕ} (he : rest.length % 2 = 0)
    {t : RecipeTree} :
    IntegerTree.init n (x :: y :: rest) counts = .ok t ↔
      Denotes [x, y] (.cons t.index t.children .nil) ∧ ∀ i ∈ treeNodes t, i < n ∧ (counts = [] ∨ i < counts.length) := by
  rw [IntegerTree.init, tree_construction he]
  by_cases h : counts = []
  · simp [h]
  · simp [h]

theorem recipeFromPathLoop_counts {counts res path : List ℕ} (h : ∀ i ∈ path, i < res.length ∧ i < counts.length) :
    IntegerTree.recipeFromPathLoop counts res path
      = .ok ((List.range res.length).map (fun i => if i ∈ path then counts.getD i 0 else res.getD i 0)) := by
  induction path generalizing res with
  | nil =>
    rw [IntegerTree.recipeFromPathLoop]
    congr 1
    apply List.ext_getElem
    · simp
    · intro k h1 h2; simp [List.getD_eq_getElem?_getD, List.getElem?_eq_getElem h1]
  | cons i path ih =>
    obtain ⟨h1, h2⟩ := h i (by simp)
    rw [IntegerTree.recipeFromPathLoop, if_neg (by rintro rfl; simp at h2), pyGet, List.getElem?_eq_getElem h2]
    simp only [bind, Except.bind]
    rw [if_pos h1, ih (by intro j hj; rw [List.length_set]; exact h j (by simp [hj]))]
    congr 1
    rw [List.length_set]
    apply List.map_congr_left
    intro k hk
    have hk' : k < res.length := by simpa using hk
    by_cases hki : k = i
    · subst hki
      by_cases hkp : k ∈ path
      · simp [hkp]
      · simp [hkp, hk', h2]
    · simp [hki, List.getD_eq_getElem?_getD, List.getElem?_set_ne (Ne.symm hki)]

/-- **C52**. `recipes()` of a constructed tree: for each path in turn, the vector with the counts of its categories, and 0 elsewhere. -/
theorem integer_tree_recipes {n : ℕ} {x y : PyObj} {rest : List PyObj} {counts : List ℕ} (he : rest.length % 2 = 0) {t : RecipeTree}
    (h : IntegerTree.init n (x :: y :: rest) counts = .ok t) :
    IntegerTree.recipes t n counts = .ok (t.pathsToLeaf.map (weightedIndicator n (countOf counts))) := by
  obtain ⟨-, hnode⟩ := (integer_tree_construction he).1 h
  rw [IntegerTree.recipes]
  apply mapM_ok
  intro p hp
  have hp' : ∀ i ∈ p, i < n ∧ (counts = [] ∨ i < counts.length) := by
    intro i hi
    apply hnode
    rw [← treeNodes_eq]
    exact isPath_subset (mem_pathsToLeaf.1 hp) i hi
  rw [IntegerTree.recipeFromPath, recipeFromPathLoop_counts]
  · congr 1
    rw [weightedIndicator, List.length_replicate]
    apply List.map_congr_left
    intro i hi
    have hi' : i < n := by simpa using hi
    by_cases hip : i ∈ p
    · by_cases hcs : counts = []
      · simp [hip, hcs, countOf, hi']
      · simp [hip, hcs, countOf]
    · simp [hip, hi']
  · intro i hi
    obtain ⟨h1, h2⟩ := hp' i hi
    refine ⟨by simpa using h1, ?_⟩
    split
    · simpa using h1
    · rcases h2 with h2 | h2
      · contradiction
      · exact h2

/-- **C52**. In a tree whose nodes are different categories, with positive counts, `num_of_deals()` is the largest number of deals of a
feasible collection. -/
theorem integer_tree_num_of_deals_is_maximum {t : RecipeTree} {cnt : ℕ → ℕ} (vals : ℕ → List ℚ) (hn : (treeNodes t).Nodup)
    (hc : ∀ i ∈ treeNodes t, 0 < cnt i) :
    IsGreatest {k | ∃ deals, WeightedFeasible t cnt vals deals ∧ deals.length = k}
      (IntegerTree.numOfDeals cnt (fun i => (vals i).length) t.forest) := by
  have hc' : ∀ i ∈ nodes t.forest, 0 < cnt i := by rw [treeNodes_eq]; exact hc
  have hlen : IntegerTree.numOfDeals cnt (fun i => (vals i).length) t.forest = (combinedValues cnt vals t.forest).length := by
    rw [numOfDeals_div, ← List.length_map (f := List.sum), combinedValues_sums hc', ← numOfDeals_eq]
    have : ∀ (f : Forest) (s1 s2 : ℕ → ℕ), (∀ i ∈ nodes f, s1 i = s2 i) → f.numOfDeals s1 = f.numOfDeals s2 := by
      intro f s1 s2 h
      induction f with
      | nil => rfl
      | cons i ch s ih1 ih2 =>
        rw [numOfDeals_cons, numOfDeals_cons, nodeNum, nodeNum, h i (by simp [nodes]),
          ih1 (fun j hj => h j (by simp [nodes, hj])), ih2 (fun j hj => h j (by simp [nodes, hj]))]
    apply this
    intro i hi
    rw [List.length_map, groups_length (hc' i hi), sortDesc_length]
  rw [hlen]
  constructor
  · refine ⟨(groupDeals (fun i => groups (cnt i) (sortDesc (vals i))) t.forest).map agents,
      groupDeals_weighted hn hc (List.Sublist.refl _), ?_⟩
    rw [combinedValues_deals hc', List.length_map, List.length_map]
  · rintro k ⟨deals, hd, rfl⟩
    obtain ⟨D, hD, hl, -⟩ := weighted_le hn hc hd
    obtain ⟨u, hu, hu', -⟩ := feasible_le_combined (f := t.forest) (by rw [treeNodes_eq]; exact hn)
      (fun i hi => groups_sorted (hc' i hi) (sortDesc_sorted _)) hD
    have := hu.length_le
    rw [← combinedValues_sums hc', List.length_map] at this
    omega

/-- The numbers of `num_of_deals_explained` of a tree. -/
theorem integer_explained_eq (t : RecipeTree) (cnt size : ℕ → ℕ) :
    ∃ e, numOfDealsExplained cnt size t.forest = [e] := by
  rw [RecipeTree.forest, explained_cons]
  exact ⟨_, rfl⟩

/-- **C52**. `num_of_deals_explained` reports the number `num_of_deals()`; its `kmax` is the largest number of groups of a leaf category, and its
`kmin` the smallest number of groups of a leaf category that has a group, or 0 if none has. -/
theorem integer_tree_num_of_deals_explained (t : RecipeTree) (cnt size : ℕ → ℕ) :
    ∃ kmin kmax, numOfDealsExplained cnt size t.forest = [(IntegerTree.numOfDeals cnt size t.forest, kmin, kmax)] ∧
      IsGreatest {k | ∃ i ∈ treeLeaves t, size i / cnt i = k} kmax ∧
      (IsLeast {k | 0 < k ∧ ∃ i ∈ treeLeaves t, size i / cnt i = k} kmin ∨
        (kmin = 0 ∧ ∀ i ∈ treeLeaves t, size i / cnt i = 0)) := by
  obtain ⟨⟨num, kmin, kmax⟩, he⟩ := integer_explained_eq t cnt size
  have hdiv := explained_div cnt size t.forest
  have hkm := explained_kmin cnt size t.forest
  have hlen : t.forest.numOfDealsExplained (fun i => size i / cnt i) = [t.numOfDealsExplained (fun i => size i / cnt i)] := by
    rw [RecipeTree.numOfDealsExplained, RecipeTree.forest, numOfDealsExplained_cons]; rfl
  rw [he, hlen] at hdiv
  rw [he] at hkm
  simp only [List.map_cons, List.map_nil, List.cons.injEq, and_true, Prod.mk.injEq] at hdiv hkm
  refine ⟨kmin, kmax, ?_, ?_, ?_⟩
  · rw [he, numOfDeals_div, hdiv.1, tree_num_of_deals_explained]; rfl
  · rw [hdiv.2]
    exact (tree_kmin_kmax t _).2
  · have hroot : kmin = 0 ∨ 0 < kmin := Nat.eq_zero_or_pos kmin
    rcases hroot with h0 | h0
    · right
      refine ⟨h0, ?_⟩
      rw [h0] at hkm
      simp only [gt_iff_lt, lt_irrefl, decide_false, Bool.false_eq_true, not_false_eq_true, List.filter_cons_of_neg,
        List.filter_nil, List.min?_nil] at hkm
      have := List.min?_eq_none_iff.1 hkm.symm
      rw [List.filter_eq_nil_iff] at this
      intro i hi
      have := this _ (List.mem_map_of_mem hi)
      simp only [decide_eq_true_eq] at this
      exact Nat.eq_zero_of_not_pos this
    · left
      rw [List.filter_cons_of_pos (by simpa using h0)] at hkm
      simp only [List.filter_nil, List.min?_singleton] at hkm
      obtain ⟨h1, h2⟩ := List.min?_eq_some_iff.1 hkm.symm
      refine ⟨⟨h0, ?_⟩, ?_⟩
      · exact List.mem_map.1 (List.mem_filter.1 h1).1
      · rintro k ⟨hk, i, hi, rfl⟩
        exact h2 _ (List.mem_filter.2 ⟨List.mem_map_of_mem hi, by simpa using hk⟩)

/-- **C52**. In a tree whose nodes are different categories, `largest_categories` chooses different categories of the tree, such that every path
contains exactly one of them; the combined size it reports is the size of the root category divided by its count. -/
theorem integer_tree_cut {t : RecipeTree} (cnt size : ℕ → ℕ) (hn : (treeNodes t).Nodup) :
    (IntegerTree.largestCategories cnt size t.forest).2.2.Nodup ∧
      (∀ i ∈ (IntegerTree.largestCategories cnt size t.forest).2.2, i ∈ treeNodes t) ∧
      (∀ p, TreePath t p → ((IntegerTree.largestCategories cnt size t.forest).2.2.filter (· ∈ p)).length = 1) ∧
      (IntegerTree.largestCategories cnt size t.forest).2.1 = (size t.index : ℚ) / cnt t.index := by
  obtain ⟨h1, h2⟩ := IntegerTree.largest_cut cnt size (f := t.forest) (by rw [treeNodes_eq]; exact hn)
  refine ⟨h1, ?_, h2, largest_root cnt size t⟩
  intro i hi; rw [← treeNodes_eq]; exact IntegerTree.largest_subset cnt size _ i hi

/-- Non-vacuity of C52: a tree with counts 1, 2, 3, and sizes with a leaf that has no complete group. -/
example :
    let s : List PyObj := [.int 0, .list [.int 1, .none, .int 2, .none]]
    let t : RecipeTree := ⟨0, .cons 1 .nil (.cons 2 .nil .nil)⟩
    let size : ℕ → ℕ := fun i => [4, 5, 2].getD i 0
    IntegerTree.init 3 s [1, 2, 3] = .ok t ∧ IntegerTree.init 3 s [1, 2] = .error .indexError ∧
      (treeNodes t).Nodup ∧ (∀ i ∈ treeNodes t, 0 < countOf [1, 2, 3] i) ∧
      IntegerTree.recipes t 3 [1, 2, 3] = .ok [[1, 2, 0], [1, 0, 3]] ∧
      IntegerTree.numOfDeals (countOf [1, 2, 3]) size t.forest = 2 ∧
      IntegerTree.numOfDealsExplained (countOf [1, 2, 3]) size t.forest = [(2, 2, 2)] ∧
      (IntegerTree.largestCategories (countOf [1, 2, 3]) size t.forest).2.2 = [1, 2] := by
  refine ⟨by decide +kernel, by decide +kernel, by decide, by decide, by decide +kernel, by decide +kernel, by decide +kernel, by decide +kernel⟩

end Auctions.Props
