import Verif.Proofs.TreeShape
import Mathlib.Order.Bounds.Basic

set_option autoImplicit false

/-!
# C30 – C33 — properties of recipe trees
-/

namespace Auctions.Props

open Auctions Spec

/-! ## C30: construction, paths and recipes -/

/-- **C30**. A structure of even length whose first two elements are `x, y` is accepted exactly when `[x, y]` denotes a tree all of whose
category indices exist, and then the constructed tree is the denoted one (elements after the first two are ignored). -/
theorem tree_construction {n : ℕ} {x y : PyObj} {rest : List PyObj} (he : rest.length % 2 = 0) {t : RecipeTree} :
    RecipeTree.init n (x :: y :: rest) = .ok t ↔
      Denotes [x, y] (.cons t.index t.children .nil) ∧ ∀ i ∈ treeNodes t, i < n := by
  rw [init_ok he]
  simp [RecipeTree.forest, nodes, treeNodes]

/-- **C30**. A structure of odd length raises `ValueError`. -/
theorem tree_odd_structure {n : ℕ} {l : List PyObj} (h : l.length % 2 = 1) :
    RecipeTree.init n l = .error .valueError := by
  simp [RecipeTree.init, h]

/-- **C30**. A well-formed structure with a category index that does not exist raises `IndexError`. -/
theorem tree_index_out_of_range {n : ℕ} {x y : PyObj} {rest : List PyObj} (he : rest.length % 2 = 0) {i : ℕ} {ch : Forest}
    (hd : Denotes [x, y] (.cons i ch .nil)) (h : ∃ j ∈ treeNodes ⟨i, ch⟩, n ≤ j) :
    RecipeTree.init n (x :: y :: rest) = .error .indexError := by
  have h0 : ¬ ((x :: y :: rest).length % 2 ≠ 0) := by simp; omega
  have herr : parseChildren n [x, y] = .error .indexError := by
    apply parseChildren_error _ _ hd
    obtain ⟨j, hj, hnj⟩ := h
    intro hall
    have := hall j (by simpa [nodes, treeNodes] using hj)
    omega
  rw [RecipeTree.init, if_neg h0]
  rw [parseChildren] at herr
  cases hp : parseNode n x y with
  | error e =>
    rw [hp] at herr
    simpa [bind, Except.bind] using herr
  | ok t =>
    rw [hp] at herr
    simp [bind, Except.bind, parseChildren] at herr

/-- **C30**. A nested structure of odd length is rejected: no error inside a structure is overlooked. -/
theorem tree_rejects_malformed {n : ℕ} {x y : PyObj} {rest : List PyObj} (he : rest.length % 2 = 0)
    (h : ¬ ∃ i ch, Denotes [x, y] (.cons i ch .nil)) : ∃ e, RecipeTree.init n (x :: y :: rest) = .error e := by
  cases hr : RecipeTree.init n (x :: y :: rest) with
  | error e => exact ⟨e, rfl⟩
  | ok t => exact absurd ⟨_, _, ((tree_construction he).1 hr).1⟩ h

/-- **C30**. `paths_to_leaf` lists, in left-to-right order (the lexicographic order of addresses) and once per leaf, the
categories on the path from the root to that leaf. -/
theorem tree_paths (t : RecipeTree) :
    ∃ addresses : List (List ℕ), addresses.Pairwise (· < ·) ∧
      (∀ a, a ∈ addresses ↔ ∃ p, AtAddress (.cons t.index t.children .nil) a p) ∧
      List.Forall₂ (AtAddress (.cons t.index t.children .nil)) addresses t.pathsToLeaf := by
  refine ⟨leafAddresses t.forest, leafAddresses_sorted _, ?_, leafAddresses_paths _⟩
  intro a
  constructor
  · intro ha
    obtain ⟨k, hk, rfl⟩ := List.getElem_of_mem ha
    have h := leafAddresses_paths t.forest
    have hl := h.length_eq
    exact ⟨_, (List.forall₂_iff_get.1 h).2 k hk (by omega)⟩
  · rintro ⟨p, hp⟩; exact mem_leafAddresses hp

/-- **C30**. The names version of `paths_to_leaf` lists the names of the same paths. -/
theorem tree_paths_names (t : RecipeTree) (name : ℕ → String) :
    t.pathsToLeafNames name = t.pathsToLeaf.map (List.map name) := by
  rw [RecipeTree.pathsToLeafNames, pathsToLeaf_prefix]
  simp [RecipeTree.pathsToLeaf]

/-- **C30**. `recipes()` of a constructed tree: for each path in turn, the 0/1 vector with 1 exactly at its categories. -/
theorem tree_recipes {n : ℕ} {l : List PyObj} {t : RecipeTree} (h : RecipeTree.init n l = .ok t) :
    t.recipes n = .ok (t.pathsToLeaf.map (indicator n)) ∧
      ∀ p, TreePath t p ↔ p ∈ t.pathsToLeaf := by
  have hnodes : ∀ i ∈ nodes t.forest, i < n := by
    by_cases hodd : l.length % 2 = 1
    · rw [tree_odd_structure hodd] at h; cases h
    · match l, h with
      | [], h => simp [RecipeTree.init] at h
      | [_], h => simp at hodd
      | x :: y :: rest, h =>
        have : rest.length % 2 = 0 := by simp at hodd; omega
        exact ((init_ok this).1 h).2
  exact ⟨recipes_eq hnodes, fun p => mem_pathsToLeaf.symm⟩

/-- Non-vacuity of C30: `[0, [1, None, 2, [3, None, 4, None]]]` with 5 categories, and an index that does not exist. -/
example :
    let s : List PyObj := [.int 0, .list [.int 1, .none, .int 2, .list [.int 3, .none, .int 4, .none]]]
    let ch : Forest := .cons 1 .nil (.cons 2 (.cons 3 .nil (.cons 4 .nil .nil)) .nil)
    RecipeTree.init 5 s = .ok ⟨0, ch⟩ ∧ Denotes s (.cons 0 ch .nil) ∧ RecipeTree.init 4 s = .error .indexError ∧
    (⟨0, ch⟩ : RecipeTree).pathsToLeaf = [[0, 1], [0, 2, 3], [0, 2, 4]] ∧
    (⟨0, ch⟩ : RecipeTree).recipes 5 = .ok [[1, 1, 0, 0, 0], [1, 0, 1, 1, 0], [1, 0, 1, 0, 1]] := by
  refine ⟨by decide +kernel, .node (.leaf (.node (.leaf (.leaf .nil)) .nil)) .nil, by decide +kernel, by decide +kernel, by decide +kernel⟩

/-! ## C31: the optimal trade -/

theorem treeNodes_eq (t : RecipeTree) : nodes t.forest = treeNodes t := by simp [RecipeTree.forest, nodes, treeNodes]

theorem filtered_deals {t : RecipeTree} {vals : ℕ → List ℚ} (hn : (treeNodes t).Nodup) :
    FeasibleDeals t vals ((treeDeals vals t.forest).filter (fun d => treeGain d ≥ 0)) ∧
      treeTotalGain ((treeDeals vals t.forest).filter (fun d => treeGain d ≥ 0)) = t.optimalTradeGFT vals := by
  have hf := treeDeals_feasible vals t.forest (by rw [treeNodes_eq]; exact hn)
  refine ⟨⟨fun d hd => hf.1 d (List.mem_filter.1 hd).1, fun i => ?_⟩, ?_⟩
  · exact (agentsOf_sublist (flatten_sublist List.filter_sublist)).subperm.trans (hf.2 i)
  · rw [RecipeTree.optimalTradeGFT, RecipeTree.combinedValues, combinedValues_eq, List.filter_map, treeTotalGain]
    rfl

/-- **C31**. In a tree whose nodes are different categories (with descending values, as in every category object), the value of
`optimal_trade_GFT()` is the largest total value of a feasible collection of deals. -/
theorem tree_gft_is_maximum {t : RecipeTree} {vals : ℕ → List ℚ} (hn : (treeNodes t).Nodup)
    (hs : ∀ i ∈ treeNodes t, SortedDesc (vals i)) :
    IsGreatest {g | ∃ deals, FeasibleDeals t vals deals ∧ treeTotalGain deals = g} (t.optimalTradeGFT vals) := by
  refine ⟨⟨_, filtered_deals hn⟩, ?_⟩
  rintro g ⟨deals, hd, rfl⟩
  obtain ⟨u, hu, -, hg⟩ := feasible_le_combined (f := t.forest) (by rw [treeNodes_eq]; exact hn)
    (by rw [treeNodes_eq]; exact hs) hd
  exact hg.trans (subperm_sum_le_filter hu)

theorem optimalTrade_deals {t : RecipeTree} {vals : ℕ → List ℚ} (hc : t.children ≠ .nil) :
    t.optimalTrade vals = .ok (((treeDeals vals t.forest).filter (fun d => treeGain d ≥ 0)).map (List.map Prod.snd),
      ((treeDeals vals t.forest).filter (fun d => treeGain d ≥ 0)).length,
      treeTotalGain ((treeDeals vals t.forest).filter (fun d => treeGain d ≥ 0))) := by
  rw [RecipeTree.optimalTrade, RecipeTree.combinedValuesDetailed, combinedValuesDetailed_eq]
  have hform : ∀ d ∈ treeDeals vals t.forest, toItem d = .tup (d.map Prod.snd) := by
    intro d hd
    have hp := treeDeals_path vals _ d hd
    rw [RecipeTree.forest, isPath_cons] at hp
    rcases hp with ⟨h, -⟩ | ⟨q, hq, hp⟩ | hp
    · exact absurd h hc
    · have := isPath_ne_nil hp
      rcases d with _ | ⟨a, _ | ⟨b, d⟩⟩
      · simp at hq
      · simp at hq; exact absurd hq.2 this
      · rfl
    · exact absurd hp isPath_nil
  have hm : ((treeDeals vals t.forest).map toItem).mapM RecipeTree.itemSum
      = .ok (((treeDeals vals t.forest).map toItem).map Forest.Item.flat) := by
    apply mapM_ok
    intro x hx
    obtain ⟨d, hd, rfl⟩ := List.mem_map.1 hx
    rw [hform d hd]; rfl
  rw [hm]
  have hfil : ((((treeDeals vals t.forest).map toItem).map Forest.Item.flat).filter (fun vs => vs.sum ≥ 0))
      = ((treeDeals vals t.forest).filter (fun d => treeGain d ≥ 0)).map (List.map Prod.snd) := by
    rw [List.map_map, List.filter_map]
    have : (Forest.Item.flat ∘ toItem) = List.map Prod.snd := by funext d; exact toItem_flat d
    rw [this]; rfl
  simp only [bind, Except.bind]
  rw [hfil]
  simp only [List.length_map, List.sum_flatten, List.map_map, treeTotalGain]
  rfl

/-- **C31**. In a tree with at least two categories, `optimal_trade()` returns the values of the deals of a feasible collection
without losses, their number and their total value, and this is the value of `optimal_trade_GFT()`. -/
theorem tree_optimal_trade {t : RecipeTree} {vals : ℕ → List ℚ} (hn : (treeNodes t).Nodup) (hc : t.children ≠ .nil) :
    ∃ deals : List TreeDeal, FeasibleDeals t vals deals ∧ (∀ d ∈ deals, 0 ≤ treeGain d) ∧
      treeTotalGain deals = t.optimalTradeGFT vals ∧
      t.optimalTrade vals = .ok (deals.map (List.map Prod.snd), deals.length, treeTotalGain deals) := by
  obtain ⟨h1, h2⟩ := filtered_deals (vals := vals) hn
  refine ⟨_, h1, ?_, h2, ?_⟩
  · intro d hd; simpa using (List.mem_filter.1 hd).2
  · exact optimalTrade_deals hc

/-- **C31**, the restriction to distinct categories is needed: in the tree `[0, [1, None, 1, None]]` both leaves are category 1, and the
code counts its only agent twice. With sellers [-1, -2] and one buyer 9 it reports the gain 15, but at most 8 is feasible. -/
theorem tree_duplicate_category_overcounts :
    let t : RecipeTree := ⟨0, .cons 1 .nil (.cons 1 .nil .nil)⟩
    let vals : ℕ → List ℚ := fun i => if i = 0 then [-1, -2] else [9]
    RecipeTree.init 2 [.int 0, .list [.int 1, .none, .int 1, .none]] = .ok t ∧ t.optimalTradeGFT vals = 15 ∧
      ∀ deals, FeasibleDeals t vals deals → treeTotalGain deals ≤ 8 := by
  refine ⟨by decide +kernel, by decide +kernel, ?_⟩
  intro deals hd
  -- every deal contains one agent of each category
  have hpath : ∀ d ∈ deals, ∃ a b, d = [(0, a), (1, b)] := by
    intro d hd'
    have hp := hd.1 d hd'
    simp only [isPath_cons, isPath_nil, or_false, and_false, exists_false, true_and, reduceCtorEq, false_and, false_or] at hp
    obtain ⟨q, hq, hp | hp⟩ := hp <;>
    · rw [hp] at hq
      rcases d with _ | ⟨⟨i, a⟩, _ | ⟨⟨j, b⟩, _ | ⟨c, d⟩⟩⟩ <;> simp at hq
      exact ⟨a, b, by simp [hq]⟩
  have h0 := hd.2 0
  have h1 := hd.2 1
  simp only [if_true, one_ne_zero, if_false] at h0 h1
  have hlen : ∀ ds : List TreeDeal, (∀ d ∈ ds, ∃ a b, d = [(0, a), (1, b)]) → (agentsOf 1 ds.flatten).length = ds.length := by
    intro ds
    induction ds with
    | nil => intro _; rfl
    | cons d ds ih =>
      intro h
      obtain ⟨a, b, rfl⟩ := h d (by simp)
      rw [List.flatten_cons, agentsOf_append, List.length_append, ih (fun d hd => h d (by simp [hd]))]
      simp [agentsOf]; omega
  have hle := h1.length_le
  rw [hlen deals hpath] at hle
  simp only [List.length_cons, List.length_nil] at hle
  rcases deals with _ | ⟨d, _ | ⟨d', ds⟩⟩
  · simp [treeTotalGain]
  · obtain ⟨a, b, rfl⟩ := hpath d (by simp)
    have ha : a ∈ ([-1, -2] : List ℚ) := h0.subset (by simp [agentsOf])
    have hb : b ∈ ([9] : List ℚ) := h1.subset (by simp [agentsOf])
    simp only [List.mem_cons, List.not_mem_nil, or_false] at ha hb
    simp only [treeTotalGain, treeGain, List.map_cons, List.map_nil, List.sum_cons, List.sum_nil]
    rcases ha with rfl | rfl <;> subst hb <;> norm_num
  · simp at hle

/-- Non-vacuity of C31: sellers 0, branches to buyers 1 and to producers 2 with buyers 3. -/
example :
    let t : RecipeTree := ⟨0, .cons 1 .nil (.cons 2 (.cons 3 .nil .nil) .nil)⟩
    let vals : ℕ → List ℚ := fun i => [[-1, -2, -4], [6, 3], [-1, -3], [9, 1]].getD i []
    (treeNodes t).Nodup ∧ (∀ i ∈ treeNodes t, SortedDesc (vals i)) ∧ t.optimalTradeGFT vals = 11 ∧
      t.optimalTrade vals = .ok ([[-1, -1, 9], [-2, 6]], 2, 11) := by
  refine ⟨by decide, ?_, by decide +kernel, by decide +kernel⟩
  intro i hi
  simp only [treeNodes, nodes, List.nil_append, List.append_nil, List.mem_cons, List.not_mem_nil, or_false] at hi
  rcases hi with rfl | rfl | rfl | rfl <;> (unfold SortedDesc; decide +kernel)

/-! ## C32: the number of deals -/

/-- **C32**. In a tree whose nodes are different categories, `num_of_deals()` is the largest number of deals of a feasible collection. -/
theorem tree_num_of_deals_is_maximum {t : RecipeTree} (vals : ℕ → List ℚ) (hn : (treeNodes t).Nodup) :
    IsGreatest {k | ∃ deals, FeasibleDeals t vals deals ∧ deals.length = k} (t.numOfDeals (fun i => (vals i).length)) := by
  have hn' : (nodes t.forest).Nodup := by rw [treeNodes_eq]; exact hn
  constructor
  · refine ⟨treeDeals vals t.forest, treeDeals_feasible vals t.forest hn', ?_⟩
    rw [RecipeTree.numOfDeals, numOfDeals_eq, combinedValues_eq, List.length_map]
  · rintro k ⟨deals, hd, rfl⟩
    have hd' : TreeFeasible t.forest (fun i => sortDesc (vals i)) deals :=
      ⟨hd.1, fun i => (hd.2 i).trans (sortDesc_perm _).symm.subperm⟩
    obtain ⟨u, hu, hl, -⟩ := feasible_le_combined hn' (fun i _ => sortDesc_sorted _) hd'
    have := hu.length_le
    rw [← numOfDeals_eq] at this
    simp only [sortDesc_length] at this
    rw [RecipeTree.numOfDeals]; omega

/-- **C32**. The number that `num_of_deals_explained` reports is `num_of_deals()`. -/
theorem tree_num_of_deals_explained (t : RecipeTree) (size : ℕ → ℕ) :
    (t.numOfDealsExplained size).1 = t.numOfDeals size := by
  have h := explained_num size t.forest
  rw [RecipeTree.numOfDealsExplained, RecipeTree.numOfDeals, ← h, RecipeTree.forest, numOfDealsExplained_cons]
  simp [Forest.numOfDealsExplained]

/-- **C32**. `kmin` is the size of a smallest and `kmax` the size of a largest leaf category. -/
theorem tree_kmin_kmax (t : RecipeTree) (size : ℕ → ℕ) :
    IsLeast {k | ∃ i ∈ treeLeaves t, size i = k} (t.numOfDealsExplained size).2.1 ∧
      IsGreatest {k | ∃ i ∈ treeLeaves t, size i = k} (t.numOfDealsExplained size).2.2 := by
  obtain ⟨h1, h2⟩ := explained_k size t.forest
  have hlen : t.forest.numOfDealsExplained size = [t.numOfDealsExplained size] := by
    rw [RecipeTree.numOfDealsExplained, RecipeTree.forest, numOfDealsExplained_cons]; rfl
  rw [hlen] at h1 h2
  simp only [List.map_cons, List.map_nil, List.min?_singleton, List.max?_singleton] at h1 h2
  obtain ⟨h3, h4⟩ := List.min?_eq_some_iff.1 h1.symm
  obtain ⟨h5, h6⟩ := List.max?_eq_some_iff.1 h2.symm
  refine ⟨⟨?_, ?_⟩, ⟨?_, ?_⟩⟩
  · exact List.mem_map.1 h3
  · rintro k ⟨i, hi, rfl⟩; exact h4 _ (List.mem_map_of_mem hi)
  · exact List.mem_map.1 h5
  · rintro k ⟨i, hi, rfl⟩; exact h6 _ (List.mem_map_of_mem hi)

/-- Non-vacuity of C32. -/
example :
    let t : RecipeTree := ⟨0, .cons 1 .nil (.cons 2 (.cons 3 .nil .nil) .nil)⟩
    let size : ℕ → ℕ := fun i => [7, 2, 3, 5].getD i 0
    (treeNodes t).Nodup ∧ t.numOfDeals size = 5 ∧ t.numOfDealsExplained size = (5, 2, 5) := by
  decide

/-! ## C33: the categories whose prices are raised -/

/-- **C33**. In a tree whose nodes are different categories, `largest_categories` chooses different categories of the tree, such that
every path from the root to a leaf contains exactly one of them; the combined size it reports is the size of the root category. -/
theorem tree_cut {t : RecipeTree} (size : ℕ → ℕ) (hn : (treeNodes t).Nodup) :
    (t.largestCategories size).2.2.Nodup ∧ (∀ i ∈ (t.largestCategories size).2.2, i ∈ treeNodes t) ∧
      (∀ p, TreePath t p → ((t.largestCategories size).2.2.filter (· ∈ p)).length = 1) ∧
      (t.largestCategories size).2.1 = size t.index := by
  have hn' : (nodes t.forest).Nodup := by rw [treeNodes_eq]; exact hn
  obtain ⟨h1, h2⟩ := largest_cut size hn'
  refine ⟨h1, ?_, h2, ?_⟩
  · intro i hi; rw [← treeNodes_eq]; exact largest_subset size _ i hi
  · rw [RecipeTree.largestCategories, largest_size, RecipeTree.forest, Forest.rootSizes]; rfl

/-- **C33**, the restriction to distinct categories is needed: in `[0, [1, None, 1, None]]` with sizes 1 and 2 the code chooses category 1
twice. -/
theorem tree_cut_duplicate_category :
    let t : RecipeTree := ⟨0, .cons 1 .nil (.cons 1 .nil .nil)⟩
    (t.largestCategories (fun i => if i = 0 then 1 else 2)).2.2 = [1, 1] := by decide

/-- Non-vacuity of C33: three branches, the cut lies at different depths. -/
example :
    let t : RecipeTree := ⟨0, .cons 1 .nil (.cons 2 (.cons 3 .nil (.cons 4 .nil .nil)) .nil)⟩
    (treeNodes t).Nodup ∧ t.largestCategories (fun i => [4, 2, 3, 2, 2].getD i 0) = (2, 4, [1, 3, 4]) := by
  decide

end Auctions.Props
