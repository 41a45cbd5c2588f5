import Verif.Proofs.TreeShape
import Verif.Proofs.Simultaneous
import Verif.Proofs.Trade
import Verif.Model.TreeAuction

set_option autoImplicit false

/-! # Helper lemmas: one iteration of the tree auction -/

namespace Auctions

open Spec TreeAuction

/-! ## Categories -/

theorem valuesAt_get {cats : List AgentCategory} {i : ℕ} (h : i < cats.length) : valuesAt cats i = cats[i].values := by
  simp [valuesAt, h]

theorem valuesAt_ge {cats : List AgentCategory} {i : ℕ} (h : cats.length ≤ i) : valuesAt cats i = [] := by
  simp [valuesAt, List.getElem?_eq_none h]

theorem sizeAt_eq (cats : List AgentCategory) (i : ℕ) : sizeAt cats i = (valuesAt cats i).length := by
  unfold sizeAt valuesAt
  cases cats[i]? <;> rfl

theorem sizeAt_fun (cats : List AgentCategory) : sizeAt cats = fun i => (valuesAt cats i).length := by
  funext i; exact sizeAt_eq cats i

/-- The price towards which a category is raised. -/
def target (cats : List AgentCategory) (i : ℕ) : ℚ := (valuesAt cats i).getLast?.getD MAX_VALUE

theorem targetPrice_eq (c : AgentCategory) : targetPrice c = .ok (c.values.getLast?.getD MAX_VALUE) := by
  unfold targetPrice AgentCategory.size AgentCategory.lowestAgentValue
  cases h : c.values.getLast? with
  | none =>
    rw [List.getLast?_eq_none_iff] at h
    simp [h]
  | some x =>
    have : c.values ≠ [] := by rintro h'; simp [h'] at h
    have : 0 < c.values.length := List.length_pos_iff.2 this
    simp [this]

theorem increases_eq {cats : List AgentCategory} {is : List ℕ} (h : ∀ i ∈ is, i < cats.length) :
    increases cats is = .ok (is.map (fun i => (i, target cats i))) := by
  induction is with
  | nil => rfl
  | cons i is ih =>
    have hi := h i (by simp)
    rw [increases, pyGet, List.getElem?_eq_getElem hi]
    simp only [bind, Except.bind, targetPrice_eq, ih (fun j hj => h j (by simp [hj])), List.map_cons, target, valuesAt_get hi]

/-- What the removal loop does to one category. -/
def afterRemoval (l : List ℚ) (p : ℚ) : List ℚ := if (∃ x ∈ l.getLast?, x ≤ p) then l.dropLast else l

theorem removeLosers_eq {cats : List AgentCategory} {ps : List ℚ} (h : ps.length = cats.length) :
    removeLosers cats ps = .ok (List.zipWith (fun c p => ⟨c.name, afterRemoval c.values p⟩) cats ps) := by
  induction cats generalizing ps with
  | nil => simp [removeLosers]
  | cons c cats ih =>
    cases ps with
    | nil => simp at h
    | cons p ps =>
      have hr := ih (ps := ps) (by simpa using h)
      rw [removeLosers, hr]
      obtain ⟨name, vs⟩ := c
      cases hv : vs.getLast? with
      | none =>
        rw [List.getLast?_eq_none_iff] at hv
        subst hv
        simp [AgentCategory.size, afterRemoval, bind, Except.bind]
      | some x =>
        have hne : vs ≠ [] := by rintro h'; simp [h'] at hv
        have hpos : 0 < vs.length := List.length_pos_iff.2 hne
        simp only [AgentCategory.size, gt_iff_lt, hpos, if_true, AgentCategory.lowestAgentValue, hv, bind, Except.bind,
          afterRemoval, List.zipWith_cons_cons, Option.mem_some_iff, exists_eq_left']
        by_cases hx : x ≤ p
        · simp only [hx, if_true, AgentCategory.removeLowestAgent]
          cases vs with
          | nil => exact absurd rfl hne
          | cons a l => rfl
        · simp [hx]

/-- The price of a category. -/
def priceAt (v : SimultaneousAscendingPriceVectors) (i : ℕ) : ℚ := v.prices.getD i 0

theorem valuesAt_removal {cats : List AgentCategory} {ps : List ℚ} (h : ps.length = cats.length) (i : ℕ) :
    valuesAt (List.zipWith (fun c p => (⟨c.name, afterRemoval c.values p⟩ : AgentCategory)) cats ps) i
      = afterRemoval (valuesAt cats i) (ps.getD i 0) := by
  by_cases hi : i < cats.length
  · rw [valuesAt_get (by simp; omega), valuesAt_get hi]
    simp [show i < ps.length by omega]
  · rw [valuesAt_ge (by simp; omega), valuesAt_ge (by omega)]
    simp [afterRemoval]

theorem afterRemoval_take (l : List ℚ) (p : ℚ) : ∃ k, afterRemoval l p = l.take k := by
  unfold afterRemoval
  split
  · exact ⟨l.length - 1, List.dropLast_eq_take⟩
  · exact ⟨l.length, by simp⟩

theorem afterRemoval_subset {l : List ℚ} {p x : ℚ} (h : x ∈ afterRemoval l p) : x ∈ l := by
  obtain ⟨k, hk⟩ := afterRemoval_take l p
  rw [hk] at h; exact List.mem_of_mem_take h

/-! ## Path sums -/

theorem isPath_sublist {f : Forest} {p : List ℕ} (h : IsPath f p) : p.Sublist (nodes f) := by
  induction f generalizing p with
  | nil => exact absurd h isPath_nil
  | cons i ch s ih1 ih2 =>
    rw [isPath_cons] at h
    rw [nodes]
    rcases h with ⟨-, rfl⟩ | ⟨q, rfl, h⟩ | h
    · exact (List.nil_sublist _).cons_cons i
    · exact ((ih1 h).trans (List.sublist_append_left _ _)).cons_cons i
    · exact ((ih2 h).trans (List.sublist_append_right _ _)).cons i

/-- The sum of the prices along a path. -/
def pathSum (prices : List ℚ) (p : List ℕ) : ℚ := (p.map (fun i => prices.getD i 0)).sum

theorem recipeSum_indicator {n : ℕ} {p : List ℕ} {prices : List ℚ} (hl : prices.length = n) (hn : p.Nodup) (hp : ∀ i ∈ p, i < n) :
    recipeSum (indicator n p) prices = pathSum prices p := by
  rw [recipeSum_eq_sum (n := n) (by simp [indicator]) hl, pathSum]
  have h1 : ∀ i ∈ Finset.range n, (rAt (indicator n p) i : ℚ) * prices.getD i 0 = if i ∈ p then prices.getD i 0 else 0 := by
    intro i hi
    have hi' : i < n := Finset.mem_range.1 hi
    have : rAt (indicator n p) i = if i ∈ p then 1 else 0 := by
      unfold rAt indicator
      simp [hi']
    rw [this]
    split <;> simp
  rw [Finset.sum_congr rfl h1, ← Finset.sum_filter]
  have h2 : (Finset.range n).filter (· ∈ p) = p.toFinset := by
    ext i
    simp only [Finset.mem_filter, Finset.mem_range, List.mem_toFinset]
    exact ⟨fun h => h.2, fun h => ⟨hp i h, h⟩⟩
  rw [h2, List.sum_toFinset _ hn]

theorem hits_indicator {n : ℕ} {p : List ℕ} {is : List ℕ} (g : ℕ → ℚ) (hi : ∀ i ∈ is, i < n) :
    hits (indicator n p) (is.map (fun i => (i, g i))) = (is.filter (· ∈ p)).length := by
  unfold hits
  rw [List.filter_map, List.length_map]
  congr 1
  apply List.filter_congr
  intro i h
  simp [indicator, hi i h]

theorem listed_nodup {is : List ℕ} (g : ℕ → ℚ) (h : is.Nodup) (j : ℕ) :
    listed (is.map (fun i => (i, g i))) j = if j ∈ is then 1 else 0 := by
  unfold listed
  rw [List.filter_map, List.length_map]
  have : ((fun inc : ℕ × ℚ => decide (inc.1 = j)) ∘ fun i => (i, g i)) = fun i => decide (i = j) := rfl
  rw [this, ← List.countP_eq_length_filter]
  have hc : List.countP (fun i => decide (i = j)) is = is.count j := by
    rw [List.count]; congr 1
  rw [hc]
  split
  · rename_i hj; exact List.count_eq_one_of_mem h hj
  · rename_i hj; exact List.count_eq_zero_of_not_mem hj

/-! ## One iteration -/

/-- The setting of the auction on `n` categories. -/
structure TreeOn (t : RecipeTree) (n : ℕ) : Prop where
  nodup : (treeNodes t).Nodup
  lt : ∀ i ∈ treeNodes t, i < n

theorem TreeOn.path_lt {t : RecipeTree} {n : ℕ} (h : TreeOn t n) {p : List ℕ} (hp : TreePath t p) : ∀ i ∈ p, i < n := by
  intro i hi
  apply h.lt
  have := isPath_subset hp i hi
  simpa [nodes, treeNodes] using this

theorem TreeOn.path_nodup {t : RecipeTree} {n : ℕ} (h : TreeOn t n) {p : List ℕ} (hp : TreePath t p) : p.Nodup := by
  refine (isPath_sublist hp).nodup ?_
  simpa [nodes, treeNodes] using h.nodup

/-- The price vector fits the tree: its recipes are those of the tree, one price per category, and all path sums are `s`. -/
structure Fits (t : RecipeTree) (n : ℕ) (v : SimultaneousAscendingPriceVectors) (s : ℚ) : Prop where
  recipes : v.psRecipes = t.pathsToLeaf.map (indicator n)
  length : v.prices.length = n
  balanced : ∀ p, TreePath t p → pathSum v.prices p = s

theorem treePath_exists (t : RecipeTree) : ∃ p, TreePath t p := exists_path (by simp)

theorem mem_paths {t : RecipeTree} {p : List ℕ} : p ∈ t.pathsToLeaf ↔ TreePath t p := mem_pathsToLeaf

theorem Fits.priceSum {t : RecipeTree} {n : ℕ} {v : SimultaneousAscendingPriceVectors} {s : ℚ} (ht : TreeOn t n) (h : Fits t n v s) :
    v.priceSum = s := by
  unfold SimultaneousAscendingPriceVectors.priceSum
  rw [dot_eq, h.recipes]
  obtain ⟨p0, hp0⟩ := treePath_exists t
  have hne : t.pathsToLeaf ≠ [] := List.ne_nil_of_mem (mem_paths.2 hp0)
  cases hps : t.pathsToLeaf with
  | nil => exact absurd hps hne
  | cons p ps =>
    have hp : TreePath t p := mem_paths.1 (by simp [hps])
    simp only [List.map_cons, List.headD_cons]
    rw [recipeSum_indicator h.length (ht.path_nodup hp) (ht.path_lt hp), h.balanced p hp]

/-- The chosen categories. -/
def cutOf (t : RecipeTree) (cats : List AgentCategory) : List ℕ := (t.largestCategories (sizeAt cats)).2.2

theorem cut_nodup {t : RecipeTree} {n : ℕ} (ht : TreeOn t n) (cats : List AgentCategory) : (cutOf t cats).Nodup :=
  (largest_cut _ (f := t.forest) (by simpa [RecipeTree.forest, nodes, treeNodes] using ht.nodup)).1

theorem cut_mem {t : RecipeTree} {cats : List AgentCategory} : ∀ i ∈ cutOf t cats, i ∈ treeNodes t := by
  intro i hi
  have := largest_subset (sizeAt cats) t.forest i hi
  simpa [RecipeTree.forest, nodes, treeNodes] using this

theorem cut_path {t : RecipeTree} {n : ℕ} (ht : TreeOn t n) (cats : List AgentCategory) {p : List ℕ} (hp : TreePath t p) :
    ((cutOf t cats).filter (· ∈ p)).length = 1 :=
  (largest_cut _ (f := t.forest) (by simpa [RecipeTree.forest, nodes, treeNodes] using ht.nodup)).2 p hp

theorem pathSum_raise {prices prices' : List ℚ} {L p : List ℕ} {δ : ℚ} (hp : p.Nodup) (hL : L.Nodup)
    (h : ∀ j ∈ p, prices'.getD j 0 = prices.getD j 0 + if j ∈ L then δ else 0) :
    pathSum prices' p = pathSum prices p + δ * (L.filter (· ∈ p)).length := by
  have hperm : (L.filter (· ∈ p)).length = (p.filter (· ∈ L)).length := by
    apply List.Perm.length_eq
    rw [List.perm_ext_iff_of_nodup (hL.filter _) (hp.filter _)]
    intro a; simp [and_comm]
  rw [hperm]
  clear hperm hp
  unfold pathSum
  induction p with
  | nil => simp
  | cons i p ih =>
    have h1 := h i (by simp)
    have h2 := ih (fun j hj => h j (by simp [hj]))
    rw [List.map_cons, List.sum_cons, h2, List.map_cons, List.sum_cons, h1]
    by_cases hi : i ∈ L
    · simp [hi]; ring
    · simp [hi]; ring

/-- What a price increase in an iteration of the auction does. -/
theorem raise_step {t : RecipeTree} {n : ℕ} (ht : TreeOn t n) {cats : List AgentCategory} (hc : cats.length = n)
    {v : SimultaneousAscendingPriceVectors} {s : ℚ} (hv : Fits t n v s) :
    ∃ incs v' d, increases cats (cutOf t cats) = .ok incs ∧ v.increasePrices incs = .ok v' ∧
      (∃ i ∈ cutOf t cats, target cats i - priceAt v i = d) ∧ (∀ i ∈ cutOf t cats, d ≤ target cats i - priceAt v i) ∧
      (∀ j, priceAt v' j = priceAt v j + if j ∈ cutOf t cats then min d (-s) else 0) ∧
      Fits t n v' (s + min d (-s)) ∧
      v'.status = if 0 ≤ s + d then some .stoppedAtZeroSum else some .stoppedAtAgentValue := by
  have hlt : ∀ i ∈ cutOf t cats, i < n := fun i hi => ht.lt i (cut_mem i hi)
  have hinc := increases_eq (cats := cats) (is := cutOf t cats) (by rw [hc]; exact hlt)
  refine ⟨(cutOf t cats).map (fun i => (i, target cats i)), ?_⟩
  have hspec := increasePrices_spec v ((cutOf t cats).map (fun i => (i, target cats i))) 0
    (by
      rw [hv.recipes]
      obtain ⟨p0, hp0⟩ := treePath_exists t
      have := List.ne_nil_of_mem (mem_paths.2 hp0)
      simpa using this)
    (by
      rw [hv.recipes, hv.length]
      intro r hr
      obtain ⟨p, -, rfl⟩ := List.mem_map.1 hr
      simp [indicator])
    (by
      rw [hv.recipes]
      intro r hr x hx
      obtain ⟨p, -, rfl⟩ := List.mem_map.1 hr
      simp only [indicator, List.mem_map] at hx
      obtain ⟨i, -, rfl⟩ := hx
      split <;> simp)
    (by
      intro inc hinc
      obtain ⟨i, hi, rfl⟩ := List.mem_map.1 hinc
      rw [hv.length]; exact hlt i hi)
  rcases hspec with ⟨⟨r, hr, hr1⟩, -⟩ | ⟨-, d, δ, v', h2, h3, h4, h5, h6, h7, h8, h9, h10⟩
  · exfalso
    rw [hv.recipes] at hr
    obtain ⟨p, hp, rfl⟩ := List.mem_map.1 hr
    apply hr1
    rw [hits_indicator _ hlt]
    exact cut_path ht cats (mem_paths.1 hp)
  · rw [zero_sub, hv.priceSum ht] at h4
    rw [hv.priceSum ht] at h10
    have hprice : ∀ j, priceAt v' j = priceAt v j + if j ∈ cutOf t cats then min d (-s) else 0 := by
      intro j
      unfold priceAt
      by_cases hj : j < v.prices.length
      · rw [h8 j hj, listed_nodup _ (cut_nodup ht cats), h4]
        split <;> simp
      · have hjn : j ∉ cutOf t cats := by
          intro h; have := hlt j h; rw [hv.length] at hj; omega
        have e1 : v'.prices.getD j 0 = 0 := by
          rw [List.getD_eq_getElem?_getD, List.getElem?_eq_none (by omega)]; rfl
        have e2 : v.prices.getD j 0 = 0 := by
          rw [List.getD_eq_getElem?_getD, List.getElem?_eq_none (by omega)]; rfl
        rw [e1, e2, if_neg hjn, add_zero]
    refine ⟨v', d, hinc, h5, ?_, ?_, hprice, ⟨?_, ?_, ?_⟩, ?_⟩
    · obtain ⟨inc, hinc, rfl⟩ := h2
      obtain ⟨i, hi, rfl⟩ := List.mem_map.1 hinc
      exact ⟨i, hi, rfl⟩
    · intro i hi
      exact h3 _ (List.mem_map.2 ⟨i, hi, rfl⟩)
    · rw [h6, hv.recipes]
    · rw [h7, hv.length]
    · intro p hp
      rw [pathSum_raise (ht.path_nodup hp) (cut_nodup ht cats) (fun j _ => hprice j), cut_path ht cats hp, hv.balanced p hp]
      simp
    · rw [h10, h4]
      by_cases hd : 0 ≤ s + d
      · rw [if_pos hd, if_pos]
        rw [zero_sub]; exact min_eq_right (by linarith)
      · rw [if_neg hd, if_neg]
        rw [zero_sub, min_eq_right_iff]
        intro h; apply hd; linarith

/-- Invariant of the loop. `cats0` are the categories at the start. -/
structure TInv (t : RecipeTree) (n : ℕ) (cats0 cats : List AgentCategory) (v : SimultaneousAscendingPriceVectors) (s : ℚ) : Prop where
  len : cats.length = n
  names : cats.map AgentCategory.name = cats0.map AgentCategory.name
  pre : ∀ i, ∃ k, valuesAt cats i = (valuesAt cats0 i).take k
  sorted : ∀ i, SortedDesc (valuesAt cats i)
  fits : Fits t n v s

theorem target_le {cats : List AgentCategory} {i : ℕ} (h : SortedDesc (valuesAt cats i)) : ∀ x ∈ valuesAt cats i, target cats i ≤ x := by
  intro x hx
  unfold target
  cases hl : (valuesAt cats i).getLast? with
  | none => rw [List.getLast?_eq_none_iff] at hl; rw [hl] at hx; simp at hx
  | some y => exact h.getLast_le hl x hx

/-- The effect of an iteration that does not stop: a common raise `d` of the chosen categories, then the removals. -/
structure NextState (t : RecipeTree) (cats : List AgentCategory) (v : SimultaneousAscendingPriceVectors)
    (cats' : List AgentCategory) (v' : SimultaneousAscendingPriceVectors) (d : ℚ) : Prop where
  reached : ∃ i ∈ cutOf t cats, priceAt v i + d = target cats i
  le : ∀ i ∈ cutOf t cats, priceAt v i + d ≤ target cats i
  price : ∀ j, priceAt v' j = priceAt v j + if j ∈ cutOf t cats then d else 0
  values : ∀ i, valuesAt cats' i = afterRemoval (valuesAt cats i) (priceAt v' i)

theorem cut_size (t : RecipeTree) (cats : List AgentCategory) : (t.largestCategories (sizeAt cats)).2.1 = sizeAt cats t.index := by
  rw [RecipeTree.largestCategories, largest_size, RecipeTree.forest, Forest.rootSizes]; rfl

/-- One iteration. -/
theorem tree_loop_step {t : RecipeTree} {n : ℕ} (ht : TreeOn t n) {cats0 cats : List AgentCategory}
    {v : SimultaneousAscendingPriceVectors} {s : ℚ} (h : TInv t n cats0 cats v s) (fuel : ℕ) :
    (sizeAt cats t.index = 0 ∧ loop t (fuel + 1) cats v = .ok (some (cats, v))) ∨
    (sizeAt cats t.index ≠ 0 ∧ ∃ v' d, loop t (fuel + 1) cats v = .ok (some (cats, v')) ∧ TInv t n cats0 cats v' 0 ∧
      (∀ i ∈ cutOf t cats, d ≤ target cats i - priceAt v i) ∧ (∃ i ∈ cutOf t cats, target cats i - priceAt v i = d) ∧
      -s ≤ d ∧ ∀ j, priceAt v' j = priceAt v j + if j ∈ cutOf t cats then -s else 0) ∨
    (sizeAt cats t.index ≠ 0 ∧ ∃ cats' v' d, loop t (fuel + 1) cats v = loop t fuel cats' v' ∧ s + d < 0 ∧
      TInv t n cats0 cats' v' (s + d) ∧ NextState t cats v cats' v' d) := by
  by_cases hroot : sizeAt cats t.index = 0
  · left
    refine ⟨hroot, ?_⟩
    rw [loop]
    simp only [cut_size, hroot, if_true]
  · right
    obtain ⟨incs, v', d, h1, h2, ⟨i0, hi0, hd0⟩, h4, h5, h6, h7⟩ := raise_step ht h.len h.fits
    have hloop : ∀ r, (do
        let incs ← increases cats (cutOf t cats)
        let prices' ← v.increasePrices incs
        if prices'.status = some .stoppedAtZeroSum then .ok (some (cats, prices'))
        else do
          let cats' ← removeLosers cats prices'.prices
          loop t fuel cats' prices') = r → loop t (fuel + 1) cats v = r := by
      intro r hr
      rw [loop]
      simp only [cut_size]
      rw [if_neg hroot]
      exact hr
    by_cases hz : 0 ≤ s + d
    · left
      have hmin : min d (-s) = -s := min_eq_right (by linarith)
      rw [hmin] at h6 h5
      rw [add_neg_cancel] at h6
      refine ⟨hroot, v', d, hloop _ ?_, ⟨h.len, h.names, h.pre, h.sorted, h6⟩, h4, ⟨i0, hi0, hd0⟩, by linarith, h5⟩
      simp only [h1, h2, bind, Except.bind, h7, hz, if_true]
    · right
      have hmin : min d (-s) = d := min_eq_left (by linarith)
      rw [hmin] at h6 h5
      have hlen : v'.prices.length = cats.length := by rw [h6.length, h.len]
      have hvals := valuesAt_removal hlen
      refine ⟨hroot, List.zipWith (fun c p => ⟨c.name, afterRemoval c.values p⟩) cats v'.prices, v', d, hloop _ ?_,
        by linarith, ⟨?_, ?_, ?_, ?_, h6⟩, ⟨⟨i0, hi0, by linarith⟩, fun i hi => by have := h4 i hi; linarith, h5, hvals⟩⟩
      · simp only [h1, h2, bind, Except.bind, h7, hz, if_false, removeLosers_eq hlen]
        simp
      · simp [hlen, h.len]
      · rw [← h.names]
        apply List.ext_getElem
        · simp [hlen]
        · intro k h1 h2; simp
      · intro i
        obtain ⟨k, hk⟩ := h.pre i
        obtain ⟨k', hk'⟩ := afterRemoval_take (valuesAt cats i) (v'.prices.getD i 0)
        exact ⟨min k' k, by rw [hvals, hk', hk, List.take_take]⟩
      · intro i
        obtain ⟨k', hk'⟩ := afterRemoval_take (valuesAt cats i) (v'.prices.getD i 0)
        rw [hvals, hk']; exact (h.sorted i).take _

/-- How a run of the loop ends. -/
theorem tree_loop_end {t : RecipeTree} {n : ℕ} (ht : TreeOn t n) {cats0 : List AgentCategory}
    (P : List AgentCategory → SimultaneousAscendingPriceVectors → ℚ → Prop)
    (hP : ∀ cats v s cats' v' d, TInv t n cats0 cats v s → s < 0 → P cats v s → s + d < 0 → TInv t n cats0 cats' v' (s + d) →
      NextState t cats v cats' v' d → P cats' v' (s + d))
    (hPz : ∀ cats v s v' d, TInv t n cats0 cats v s → s < 0 → P cats v s → TInv t n cats0 cats v' 0 →
      (∀ i ∈ cutOf t cats, d ≤ target cats i - priceAt v i) → (∃ i ∈ cutOf t cats, target cats i - priceAt v i = d) →
      -s ≤ d → (∀ j, priceAt v' j = priceAt v j + if j ∈ cutOf t cats then -s else 0) → P cats v' 0)
    (fuel : ℕ) {cats : List AgentCategory} {v : SimultaneousAscendingPriceVectors} {s : ℚ} (h : TInv t n cats0 cats v s)
    (hs : s < 0) (hp : P cats v s) :
    loop t fuel cats v = .ok none ∨ ∃ cats' v' s', loop t fuel cats v = .ok (some (cats', v')) ∧ TInv t n cats0 cats' v' s' ∧
      P cats' v' s' ∧ (s' = 0 ∨ sizeAt cats' t.index = 0) := by
  induction fuel generalizing cats v s with
  | zero => left; rfl
  | succ fuel ih =>
    rcases tree_loop_step ht h fuel with ⟨h1, h2⟩ | ⟨h1, v', d, h2, h3, h4, h5, h6, h7⟩ | ⟨h1, cats', v', d, h2, h3, h4, h5⟩
    · right; exact ⟨cats, v, s, h2, h, hp, Or.inr h1⟩
    · right; exact ⟨cats, v', 0, h2, h3, hPz _ _ _ _ _ h hs hp h3 h4 h5 h6 h7, Or.inl rfl⟩
    · rw [h2]
      exact ih h4 h3 (hP _ _ _ _ _ _ h hs hp h3 h4 h5)

/-! ## Individual rationality, prices never fall -/

/-- Every remaining agent's value is at least the price of its category. -/
def Rational (cats : List AgentCategory) (v : SimultaneousAscendingPriceVectors) : Prop :=
  ∀ i, ∀ x ∈ valuesAt cats i, priceAt v i ≤ x

theorem rational_next {t : RecipeTree} {n : ℕ} {cats0 cats cats' : List AgentCategory} {v v' : SimultaneousAscendingPriceVectors}
    {s d : ℚ} (h : TInv t n cats0 cats v s) (hr : Rational cats v) (hn : NextState t cats v cats' v' d) : Rational cats' v' := by
  intro i x hx
  rw [hn.values] at hx
  have hx := afterRemoval_subset hx
  rw [hn.price]
  by_cases hi : i ∈ cutOf t cats
  · rw [if_pos hi]; exact (hn.le i hi).trans (target_le (h.sorted i) x hx)
  · rw [if_neg hi, add_zero]; exact hr i x hx

theorem rational_stop {t : RecipeTree} {n : ℕ} {cats0 cats : List AgentCategory} {v v' : SimultaneousAscendingPriceVectors}
    {s d : ℚ} (h : TInv t n cats0 cats v s) (hr : Rational cats v)
    (hd : ∀ i ∈ cutOf t cats, d ≤ target cats i - priceAt v i) (hsd : -s ≤ d)
    (hp : ∀ j, priceAt v' j = priceAt v j + if j ∈ cutOf t cats then -s else 0) : Rational cats v' := by
  intro i x hx
  rw [hp]
  by_cases hi : i ∈ cutOf t cats
  · rw [if_pos hi]
    have := hd i hi
    have := target_le (h.sorted i) x hx
    linarith
  · rw [if_neg hi, add_zero]; exact hr i x hx

/-- Agents that left have a value of at most the price, and prices are at most `MAX_VALUE`. -/
structure Fair (cats0 cats : List AgentCategory) (v : SimultaneousAscendingPriceVectors) : Prop where
  rational : Rational cats v
  le_max : ∀ i, priceAt v i ≤ MAX_VALUE
  left : ∀ i, ∃ k, valuesAt cats i = (valuesAt cats0 i).take k ∧ ∀ x ∈ (valuesAt cats0 i).drop k, x ≤ priceAt v i

theorem target_le_max {cats : List AgentCategory} {i : ℕ} (h : ∀ x ∈ valuesAt cats i, x ≤ MAX_VALUE) : target cats i ≤ MAX_VALUE := by
  unfold target
  cases hl : (valuesAt cats i).getLast? with
  | none => exact le_refl _
  | some y => exact h y (List.mem_of_getLast? hl)

theorem le_target {cats : List AgentCategory} {v : SimultaneousAscendingPriceVectors} {i : ℕ} (hr : Rational cats v)
    (hm : priceAt v i ≤ MAX_VALUE) : priceAt v i ≤ target cats i := by
  unfold target
  cases hl : (valuesAt cats i).getLast? with
  | none => exact hm
  | some y => exact hr i y (List.mem_of_getLast? hl)

theorem nextState_nonneg {t : RecipeTree} {cats cats' : List AgentCategory} {v v' : SimultaneousAscendingPriceVectors}
    {d : ℚ} (hr : Rational cats v) (hm : ∀ i, priceAt v i ≤ MAX_VALUE) (hn : NextState t cats v cats' v' d) : 0 ≤ d := by
  obtain ⟨i, -, hi⟩ := hn.reached
  have := le_target hr (hm i)
  linarith

theorem mem_valuesAt_of_pre {cats0 cats : List AgentCategory} {i : ℕ} (h : ∃ k, valuesAt cats i = (valuesAt cats0 i).take k) {x : ℚ}
    (hx : x ∈ valuesAt cats i) : x ∈ valuesAt cats0 i := by
  obtain ⟨k, hk⟩ := h
  rw [hk] at hx; exact List.mem_of_mem_take hx

theorem fair_next {t : RecipeTree} {n : ℕ} {cats0 cats cats' : List AgentCategory} {v v' : SimultaneousAscendingPriceVectors}
    {s d : ℚ} (h : TInv t n cats0 cats v s) (hmax : ∀ i, ∀ x ∈ valuesAt cats0 i, x ≤ MAX_VALUE) (hf : Fair cats0 cats v)
    (hn : NextState t cats v cats' v' d) : Fair cats0 cats' v' := by
  have hd := nextState_nonneg hf.rational hf.le_max hn
  have hmono : ∀ i, priceAt v i ≤ priceAt v' i := by
    intro i; rw [hn.price]; split <;> linarith
  refine ⟨rational_next h hf.rational hn, ?_, ?_⟩
  · intro i
    rw [hn.price]
    by_cases hi : i ∈ cutOf t cats
    · rw [if_pos hi]
      exact (hn.le i hi).trans (target_le_max (fun x hx => hmax i x (mem_valuesAt_of_pre (h.pre i) hx)))
    · rw [if_neg hi, add_zero]; exact hf.le_max i
  · intro i
    obtain ⟨k, hk, hl⟩ := hf.left i
    rw [hn.values]
    unfold afterRemoval
    split
    · rename_i hlast
      obtain ⟨y, hy, hyp⟩ := hlast
      -- the last agent leaves
      have hk' : (valuesAt cats i).length ≤ k ∧ (valuesAt cats i).length ≤ (valuesAt cats0 i).length := by
        rw [hk]; simp only [List.length_take]; omega
      have hne : valuesAt cats i ≠ [] := by rintro e; rw [e] at hy; simp at hy
      have hpos := List.length_pos_iff.2 hne
      refine ⟨(valuesAt cats i).length - 1, ?_, ?_⟩
      · rw [List.dropLast_eq_take]
        conv_lhs => rw [hk]
        rw [List.take_take]
        congr 1
        rw [← hk]
        omega
      · intro x hx
        have hsplit : (valuesAt cats0 i).drop ((valuesAt cats i).length - 1) = y :: (valuesAt cats0 i).drop (valuesAt cats i).length := by
          have hlt : (valuesAt cats i).length - 1 < (valuesAt cats0 i).length := by omega
          rw [List.drop_eq_getElem_cons hlt]
          congr 1
          · have h1 : (valuesAt cats i)[(valuesAt cats i).length - 1]? = some y := by
              rw [← List.getLast?_eq_getElem?]; exact hy
            have h2 : (valuesAt cats i)[(valuesAt cats i).length - 1]? = (valuesAt cats0 i)[(valuesAt cats i).length - 1]? := by
              have key : ∀ j < k, (valuesAt cats i)[j]? = (valuesAt cats0 i)[j]? := by
                intro j hj; rw [hk, List.getElem?_take_of_lt hj]
              exact key _ (by omega)
            rw [h2, List.getElem?_eq_getElem hlt] at h1
            simpa using h1
          · congr 1; omega
        rw [hsplit, List.mem_cons] at hx
        rcases hx with rfl | hx
        · exact hyp
        · have : x ∈ (valuesAt cats0 i).drop k := by
            by_cases hkl : k ≤ (valuesAt cats0 i).length
            · have : (valuesAt cats i).length = k := by rw [hk]; simp; omega
              rw [this] at hx; exact hx
            · have : (valuesAt cats i).length = (valuesAt cats0 i).length := by rw [hk]; simp; omega
              rw [this, List.drop_length] at hx; simp at hx
          exact (hl x this).trans (hmono i)
    · exact ⟨k, hk, fun x hx => (hl x hx).trans (hmono i)⟩

theorem fair_stop {t : RecipeTree} {n : ℕ} {cats0 cats : List AgentCategory} {v v' : SimultaneousAscendingPriceVectors}
    {s d : ℚ} (h : TInv t n cats0 cats v s) (hs : s < 0) (hmax : ∀ i, ∀ x ∈ valuesAt cats0 i, x ≤ MAX_VALUE) (hf : Fair cats0 cats v)
    (hd : ∀ i ∈ cutOf t cats, d ≤ target cats i - priceAt v i) (hsd : -s ≤ d)
    (hp : ∀ j, priceAt v' j = priceAt v j + if j ∈ cutOf t cats then -s else 0) : Fair cats0 cats v' := by
  refine ⟨rational_stop h hf.rational hd hsd hp, ?_, ?_⟩
  · intro i
    rw [hp]
    by_cases hi : i ∈ cutOf t cats
    · rw [if_pos hi]
      have := hd i hi
      have := target_le_max (fun x hx => hmax i x (mem_valuesAt_of_pre (h.pre i) hx))
      linarith
    · rw [if_neg hi, add_zero]; exact hf.le_max i
  · intro i
    obtain ⟨k, hk, hl⟩ := hf.left i
    refine ⟨k, hk, fun x hx => (hl x hx).trans ?_⟩
    rw [hp]; split <;> linarith

end Auctions
