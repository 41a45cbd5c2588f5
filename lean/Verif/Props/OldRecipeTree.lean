import Verif.Proofs.Cut
import Verif.Props.Tree

set_option autoImplicit false

/-!
# C91 — the old recipe tree, and what both versions of `largest_categories` choose
-/

namespace Auctions.Props

open Auctions Spec

theorem sum_filter_pos (l : List ℚ) : (l.filter (fun v => v > 0)).sum = (l.filter (fun v => v ≥ 0)).sum := by
  induction l with
  | nil => rfl
  | cons a l ih =>
    rcases lt_trichotomy a 0 with h | h | h
    · rw [List.filter_cons_of_neg (by simpa using h.le), List.filter_cons_of_neg (by simpa using h)]; exact ih
    · subst h
      rw [List.filter_cons_of_neg (by simp), List.filter_cons_of_pos (by simp), List.sum_cons, zero_add]; exact ih
    · rw [List.filter_cons_of_pos (by simpa using h), List.filter_cons_of_pos (by simpa using h.le), List.sum_cons, List.sum_cons, ih]

theorem sum_flatten_filter_pos (l : List (List ℚ)) :
    (l.filter (fun vs => vs.sum > 0)).flatten.sum = (l.filter (fun vs => vs.sum ≥ 0)).flatten.sum := by
  induction l with
  | nil => rfl
  | cons a l ih =>
    rcases lt_trichotomy a.sum 0 with h | h | h
    · rw [List.filter_cons_of_neg (by simpa using h.le), List.filter_cons_of_neg (by simpa using h)]; exact ih
    · rw [List.filter_cons_of_neg (by simp [h]), List.filter_cons_of_pos (by simp [h]), List.flatten_cons, List.sum_append, h, zero_add]; exact ih
    · rw [List.filter_cons_of_pos (by simpa using h), List.filter_cons_of_pos (by simpa using h.le), List.flatten_cons, List.flatten_cons, List.sum_append, List.sum_append, ih]

/-- **C91**. The old optimal trade makes the deals of the new one that have a positive gain; both have the same total gain, and fail on the same inputs. -/
theorem old_tree_optimal_trade (t : RecipeTree) (vals : ℕ → List ℚ) :
    (∀ e, t.oldOptimalTrade vals = .error e ↔ t.optimalTrade vals = .error e) ∧
      (∀ deals k g, t.optimalTrade vals = .ok (deals, k, g) → t.oldOptimalTrade vals
        = .ok (deals.filter (fun d => d.sum ≠ 0), k - (deals.filter (fun d => d.sum = 0)).length, g)) ∧
      t.oldOptimalTradeGFT vals = t.optimalTradeGFT vals := by
  refine ⟨fun e => ?_, fun deals k g h => ?_, sum_filter_pos _⟩
  · unfold RecipeTree.oldOptimalTrade RecipeTree.optimalTrade
    cases (t.combinedValuesDetailed vals).mapM RecipeTree.itemSum with
    | error e' => exact Iff.rfl
    | ok l => constructor <;> intro h <;> cases h
  · unfold RecipeTree.optimalTrade at h
    unfold RecipeTree.oldOptimalTrade
    cases hm : (t.combinedValuesDetailed vals).mapM RecipeTree.itemSum with
    | error e' => rw [hm] at h; cases h
    | ok l =>
      rw [hm] at h
      have h' : (l.filter (fun vs => vs.sum ≥ 0), (l.filter (fun vs => vs.sum ≥ 0)).length, (l.filter (fun vs => vs.sum ≥ 0)).flatten.sum) = (deals, k, g) :=
        Except.ok.inj h
      rw [Prod.mk.injEq, Prod.mk.injEq] at h'
      obtain ⟨rfl, rfl, rfl⟩ := h'
      show Except.ok (l.filter (fun vs => vs.sum > 0), (l.filter (fun vs => vs.sum > 0)).length, (l.filter (fun vs => vs.sum > 0)).flatten.sum) = _
      have h1 : l.filter (fun vs => vs.sum > 0) = (l.filter (fun vs => vs.sum ≥ 0)).filter (fun d => d.sum ≠ 0) := by
        rw [List.filter_filter]
        refine List.filter_congr fun d _ => ?_
        rw [← Bool.decide_and, decide_eq_decide]
        constructor
        · intro h; exact ⟨h.ne', h.le⟩
        · rintro ⟨h1, h2⟩; exact lt_of_le_of_ne h2 (Ne.symm h1)
      rw [sum_flatten_filter_pos, h1]
      congr 2
      have := List.length_eq_length_filter_add (l := l.filter (fun vs => vs.sum ≥ 0)) (fun d => decide (d.sum = 0))
      have h2 : (l.filter (fun vs => vs.sum ≥ 0)).filter (fun d => d.sum ≠ 0) = (l.filter (fun vs => vs.sum ≥ 0)).filter (fun d => !decide (d.sum = 0)) := by
        refine List.filter_congr fun d _ => ?_
        simp
      rw [h2]
      congr 1
      omega

/-- **C91**. In a tree whose nodes are different categories, the old `largest_categories` chooses a cut; it reports the size of a largest chosen category and, as combined
size, the number of deals that the tree allows (the new one reports the size of the root). -/
theorem old_tree_cut {t : RecipeTree} (size : ℕ → ℕ) (hn : (treeNodes t).Nodup) :
    IsCut t (t.oldLargestCategories size).2.2 ∧ IsGreatest {k | ∃ i ∈ (t.oldLargestCategories size).2.2, size i = k} (t.oldLargestCategories size).1 ∧
      (t.oldLargestCategories size).2.1 = t.numOfDeals size := by
  have hn' : (nodes t.forest).Nodup := by rw [treeNodes_eq]; exact hn
  have hc := old_isChoice size t.forest
  obtain ⟨h1, h2⟩ := hc.cut hn'
  refine ⟨⟨h1, fun i hi => ?_, h2⟩, ?_, old_combined size t.forest⟩
  · rw [← treeNodes_eq]; exact hc.subset i hi
  · exact (old_maxSize size _).isGreatest (hc.ne_nil (by simp [RecipeTree.forest]))

/-- **C91**. The chosen categories together have at least as many agents as there are possible deals, and more, unless every category has as many agents as its children together. -/
theorem old_tree_cut_spare (t : RecipeTree) (size : ℕ → ℕ) :
    t.numOfDeals size ≤ ((t.oldLargestCategories size).2.2.map size).sum ∧
      (((t.oldLargestCategories size).2.2.map size).sum = t.numOfDeals size ↔ ExactSizes size t.forest) := by
  refine ⟨(old_total size t.forest).1, (old_total size t.forest).2, fun h => ?_⟩
  rw [RecipeTree.oldLargestCategories, exact_choice h (old_isChoice size _)]
  exact (exact_rootSizes h).symm

/-- **C91**, the new `largest_categories`: it reports the size of a largest chosen category. The chosen categories together have at least as many agents as the root; if no category is empty, they have more
agents than there are possible deals, unless every category has as many agents as its children together. -/
theorem new_tree_cut_spare (t : RecipeTree) (size : ℕ → ℕ) :
    IsGreatest {k | ∃ i ∈ (t.largestCategories size).2.2, size i = k} (t.largestCategories size).1 ∧
      size t.index ≤ ((t.largestCategories size).2.2.map size).sum ∧ t.numOfDeals size ≤ size t.index ∧
      ((∀ i ∈ treeNodes t, 0 < size i) → (((t.largestCategories size).2.2.map size).sum = t.numOfDeals size ↔ ExactSizes size t.forest)) := by
  have hr : t.forest.rootSizes size = size t.index := rfl
  refine ⟨(new_maxSize size _).isGreatest ((new_isChoice size _).ne_nil (by simp [RecipeTree.forest])), hr ▸ (new_total size t.forest).1,
    hr ▸ numOfDeals_le_rootSizes size t.forest, fun hp => ⟨(new_total size t.forest).2 ?_, fun h => ?_⟩⟩
  · intro i hi
    rw [treeNodes_eq] at hi
    exact hp i hi
  · rw [RecipeTree.largestCategories, exact_choice h (new_isChoice size _)]
    exact (exact_rootSizes h).symm

/-- The two versions choose different cuts: 9 agents above two chains with 6, 4 and 4, 6 agents. At most 8 deals are possible; the old version chooses the root, the new one the children, and then the grandchild. -/
example :
    let t : RecipeTree := ⟨0, .cons 1 (.cons 2 .nil .nil) (.cons 3 (.cons 4 .nil .nil) .nil)⟩
    let size : ℕ → ℕ := fun i => [9, 6, 4, 4, 6].getD i 0
    (treeNodes t).Nodup ∧ t.numOfDeals size = 8 ∧ t.oldLargestCategories size = (9, 8, [0]) ∧ t.largestCategories size = (6, 9, [1, 4]) := by
  decide

/-- A deal of gain 0: the new version counts it. -/
example :
    let t : RecipeTree := ⟨0, .cons 1 .nil .nil⟩
    let vals : ℕ → List ℚ := fun i => [[60, 40, 20], [-10, -40, -50]].getD i []
    t.optimalTrade vals = .ok ([[60, -10], [40, -40]], 2, 50) ∧ t.oldOptimalTrade vals = .ok ([[60, -10]], 1, 50) := by
  decide +kernel

/-- Exact sizes: 5 above 2 and 3. -/
example :
    let t : RecipeTree := ⟨0, .cons 1 .nil (.cons 2 (.cons 3 .nil .nil) .nil)⟩
    let size : ℕ → ℕ := fun i => [5, 2, 3, 3].getD i 0
    ExactSizes size t.forest ∧ t.oldLargestCategories size = (3, 5, [1, 3]) ∧ t.largestCategories size = (3, 5, [1, 3]) ∧ t.numOfDeals size = 5 := by
  refine ⟨?_, by decide, by decide, by decide⟩
  simp [RecipeTree.forest, ExactSizes, roots]

/-- With an empty category, the new version can choose a cut that has no agent to spare although another category has: it does not look below children that have no agents. The old version does. -/
example :
    let t : RecipeTree := ⟨0, .cons 1 (.cons 2 .nil .nil) .nil⟩
    let size : ℕ → ℕ := fun i => [0, 0, 5].getD i 0
    t.numOfDeals size = 0 ∧ t.largestCategories size = (0, 0, [0]) ∧ t.oldLargestCategories size = (5, 0, [2]) := by
  decide

end Auctions.Props
