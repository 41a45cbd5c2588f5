import Verif.Spec.Unneeded
import Verif.Spec.Tree
import Verif.Proofs.TreeAuction

set_option autoImplicit false

/-! # Helper lemmas: the recipe-tree auction depends only on the categories in the tree -/

namespace Auctions

open Auctions.Spec Auctions.TreeAuction

section
variable {size size' : ℕ → ℕ} {vals vals' : ℕ → List ℚ}

theorem rootSizes_agree {f : Forest} (h : ∀ i ∈ nodes f, size i = size' i) : f.rootSizes size = f.rootSizes size' := by
  induction f with
  | nil => rfl
  | cons i ch s _ ih2 =>
    rw [Forest.rootSizes, Forest.rootSizes, h i (by simp [nodes]), ih2 fun j hj => h j (by simp [nodes, hj])]

theorem largest_agree {f : Forest} (h : ∀ i ∈ nodes f, size i = size' i) : f.largestCategories size = f.largestCategories size' := by
  induction f with
  | nil => rfl
  | cons i ch s ih1 ih2 =>
    have h1 := fun j (hj : j ∈ nodes ch) => h j (show j ∈ nodes (.cons i ch s) by simp [nodes, hj])
    rw [Forest.largestCategories, Forest.largestCategories, h i (by simp [nodes]), ih1 h1, ih2 fun j hj => h j (by simp [nodes, hj]), rootSizes_agree h1]

theorem explained_agree {f : Forest} (h : ∀ i ∈ nodes f, size i = size' i) : f.numOfDealsExplained size = f.numOfDealsExplained size' := by
  induction f with
  | nil => rfl
  | cons i ch s ih1 ih2 =>
    have h1 := fun j (hj : j ∈ nodes ch) => h j (show j ∈ nodes (.cons i ch s) by simp [nodes, hj])
    have e1 := ih1 h1
    have e2 := ih2 fun j hj => h j (by simp [nodes, hj])
    have e0 := h i (by simp [nodes])
    cases ch with
    | nil => simp only [Forest.numOfDealsExplained, e0, e2]
    | cons j c d =>
      unfold Forest.numOfDealsExplained
      dsimp only
      rw [e1, e2, e0]

theorem combined_agree {f : Forest} (h : ∀ i ∈ nodes f, vals i = vals' i) :
    f.combinedValues vals = f.combinedValues vals' ∧ f.combinedValuesDetailed vals = f.combinedValuesDetailed vals' := by
  induction f with
  | nil => exact ⟨rfl, rfl⟩
  | cons i ch s ih1 ih2 =>
    have h1 := fun j (hj : j ∈ nodes ch) => h j (show j ∈ nodes (.cons i ch s) by simp [nodes, hj])
    obtain ⟨e1, e1'⟩ := ih1 h1
    obtain ⟨e2, e2'⟩ := ih2 fun j hj => h j (by simp [nodes, hj])
    have e0 := h i (by simp [nodes])
    cases ch with
    | nil => simp only [Forest.combinedValues, Forest.combinedValuesDetailed, e0, e2, e2', and_self]
    | cons j c d =>
      constructor
      · unfold Forest.combinedValues
        dsimp only
        rw [e1, e2, e0]
      · unfold Forest.combinedValuesDetailed
        dsimp only
        rw [e1', e2', e0]

end

theorem forest_nodes {t : RecipeTree} {i : ℕ} : i ∈ nodes t.forest ↔ i ∈ treeNodes t := by simp [RecipeTree.forest, nodes, treeNodes]

theorem Spec.AgreeAt.size {ns : List ℕ} {cs cs' : List AgentCategory} (h : AgreeAt ns cs cs') {i : ℕ} (hi : i ∈ ns) : sizeAt cs i = sizeAt cs' i := by
  unfold sizeAt; rw [h.2 i hi]

theorem Spec.AgreeAt.values {ns : List ℕ} {cs cs' : List AgentCategory} (h : AgreeAt ns cs cs') {i : ℕ} (hi : i ∈ ns) : valuesAt cs i = valuesAt cs' i := by
  unfold valuesAt; rw [h.2 i hi]

theorem increases_agree {ns : List ℕ} {cs cs' : List AgentCategory} (h : AgreeAt ns cs cs') {is : List ℕ} (hi : ∀ i ∈ is, i ∈ ns) : increases cs is = increases cs' is := by
  induction is with
  | nil => rfl
  | cons i is ih =>
    have : pyGet cs i = pyGet cs' i := by unfold pyGet; rw [h.2 i (hi i (by simp))]
    rw [increases, increases, this, ih fun j hj => hi j (by simp [hj])]

theorem removeLosers_cons (c : AgentCategory) (cats : List AgentCategory) (p : ℚ) (ps : List ℚ) :
    removeLosers (c :: cats) (p :: ps) = (removeLosers cats ps).map (⟨c.name, afterRemoval c.values p⟩ :: ·) := by
  rw [removeLosers]
  obtain ⟨name, vs⟩ := c
  cases hv : vs.getLast? with
  | none =>
    rw [List.getLast?_eq_none_iff] at hv
    subst hv
    cases removeLosers cats ps <;> simp [AgentCategory.size, afterRemoval, bind, Except.bind, Except.map]
  | some x =>
    have hne : vs ≠ [] := by rintro h'; simp [h'] at hv
    have hpos : 0 < vs.length := List.length_pos_iff.2 hne
    simp only [AgentCategory.size, gt_iff_lt, hpos, if_true, AgentCategory.lowestAgentValue, hv, bind, Except.bind, afterRemoval, Option.mem_some_iff, exists_eq_left']
    by_cases hx : x ≤ p
    · simp only [hx, if_true, AgentCategory.removeLowestAgent]
      cases vs with
      | nil => exact absurd rfl hne
      | cons a l => cases removeLosers cats ps <;> rfl
    · cases removeLosers cats ps <;> simp [hx, Except.map]

theorem removeLosers_any {cats : List AgentCategory} {ps : List ℚ} :
    removeLosers cats ps = if cats.length ≤ ps.length then .ok (List.zipWith (fun c p => ⟨c.name, afterRemoval c.values p⟩) cats ps) else .error .indexError := by
  induction cats generalizing ps with
  | nil => simp [removeLosers]
  | cons c cats ih =>
    cases ps with
    | nil => simp [removeLosers]
    | cons p ps =>
      rw [removeLosers_cons, ih]
      by_cases hle : cats.length ≤ ps.length
      · rw [if_pos hle, if_pos (by simpa using hle)]; rfl
      · rw [if_neg hle, if_neg (by simpa using hle)]; rfl

theorem removal_agree {ns : List ℕ} {cs cs' : List AgentCategory} (h : AgreeAt ns cs cs') (ps : List ℚ) :
    (removeLosers cs ps = .error .indexError ∧ removeLosers cs' ps = .error .indexError) ∨
      ∃ d d', removeLosers cs ps = .ok d ∧ removeLosers cs' ps = .ok d' ∧ AgreeAt ns d d' := by
  rw [removeLosers_any, removeLosers_any, ← h.1]
  by_cases hle : cs.length ≤ ps.length
  · right
    rw [if_pos hle, if_pos hle]
    refine ⟨_, _, rfl, rfl, by simp [h.1], ?_⟩
    intro i hi
    rw [List.getElem?_zipWith, List.getElem?_zipWith, h.2 i hi]
  · left
    rw [if_neg hle, if_neg hle]
    exact ⟨rfl, rfl⟩

theorem treeLoop_agree {t : RecipeTree} (fuel : ℕ) {cs cs' : List AgentCategory} (h : AgreeAt (treeNodes t) cs cs') (v : SimultaneousAscendingPriceVectors) :
    (∃ e, loop t fuel cs v = .error e ∧ loop t fuel cs' v = .error e) ∨ (loop t fuel cs v = .ok none ∧ loop t fuel cs' v = .ok none) ∨
      ∃ d d' w, loop t fuel cs v = .ok (some (d, w)) ∧ loop t fuel cs' v = .ok (some (d', w)) ∧ AgreeAt (treeNodes t) d d' := by
  induction fuel generalizing cs cs' v with
  | zero => right; left; exact ⟨rfl, rfl⟩
  | succ fuel ih =>
    have hl : t.largestCategories (sizeAt cs) = t.largestCategories (sizeAt cs') := largest_agree fun i hi => h.size (forest_nodes.1 hi)
    have hinc : increases cs (t.largestCategories (sizeAt cs')).2.2 = increases cs' (t.largestCategories (sizeAt cs')).2.2 :=
      increases_agree h fun i hi => cut_mem (cats := cs') i hi
    rw [loop, loop, hl]
    dsimp only
    by_cases h0 : (t.largestCategories (sizeAt cs')).2.1 = 0
    · rw [if_pos h0, if_pos h0]
      right; right; exact ⟨cs, cs', v, rfl, rfl, h⟩
    · rw [if_neg h0, if_neg h0, hinc]
      cases increases cs' (t.largestCategories (sizeAt cs')).2.2 with
      | error e => left; exact ⟨e, rfl, rfl⟩
      | ok incs =>
        simp only [bind, Except.bind]
        cases v.increasePrices incs with
        | error e => left; exact ⟨e, rfl, rfl⟩
        | ok w =>
          dsimp only
          by_cases hs : w.status = some .stoppedAtZeroSum
          · rw [if_pos hs, if_pos hs]
            right; right; exact ⟨cs, cs', w, rfl, rfl, h⟩
          · rw [if_neg hs, if_neg hs]
            rcases removal_agree h w.prices with ⟨e1, e2⟩ | ⟨d, d', e1, e2, h'⟩
            · rw [e1, e2]; left; exact ⟨_, rfl, rfl⟩
            · rw [e1, e2]; exact ih h' w

theorem tree_needed_eq {g : List (List ℕ) → ℚ → Py (List ℚ)} {m m' : Market} {struct : List PyObj}
    (h : ∀ t, RecipeTree.init m.numCategories struct = .ok t → AgreeAt (treeNodes t) m.categories m'.categories) (hn : m.numCategories = m'.numCategories) {t : RecipeTree}
    (ht : RecipeTree.init m.numCategories struct = .ok t) (fuel : ℕ) : SameTreeOutcome (treeNodes t) (auction g m struct fuel) (auction g m' struct fuel) := by
  have hm := h t ht
  unfold auction
  by_cases hc : m.categories = []
  · have hc' : m'.categories = [] := by
      unfold Market.numCategories at hn
      rw [hc] at hn
      exact List.length_eq_zero_iff.1 hn.symm
    have he : m.clone = .error .valueError := by unfold Market.clone; rw [hc]; rfl
    have he' : m'.clone = .error .valueError := by unfold Market.clone; rw [hc']; rfl
    rw [he, he']; rfl
  · have hc' : m'.categories ≠ [] := by
      intro hc'
      unfold Market.numCategories at hn
      rw [hc'] at hn
      exact hc (List.length_eq_zero_iff.1 hn)
    have e1 : (⟨m.sorted⟩ : Market).numCategories = m.numCategories := m.sorted_length
    have e2 : (⟨m'.sorted⟩ : Market).numCategories = m.numCategories := by rw [hn]; exact m'.sorted_length
    have hs : AgreeAt (treeNodes t) m.sorted m'.sorted := by
      refine ⟨by rw [m.sorted_length, m'.sorted_length, hn], ?_⟩
      intro i hi
      unfold Market.sorted
      rw [List.getElem?_map, List.getElem?_map, hm.2 i hi]
    rw [Market.clone_eq hc, Market.clone_eq hc']
    simp only [bind, Except.bind, e1, e2, ht]
    cases t.recipes m.numCategories with
    | error e => exact rfl
    | ok rs =>
      have ho : t.optimalTrade (valuesAt m.sorted) = t.optimalTrade (valuesAt m'.sorted) := by
        unfold RecipeTree.optimalTrade RecipeTree.combinedValuesDetailed
        rw [(combined_agree (f := t.forest) fun i hi => hs.values (forest_nodes.1 hi)).2]
      dsimp only
      rw [ho]
      cases t.optimalTrade (valuesAt m'.sorted) with
      | error e => exact rfl
      | ok o =>
        dsimp only
        cases g rs (-MAX_VALUE) with
        | error e => exact rfl
        | ok p0 =>
          dsimp only
          cases SimultaneousAscendingPriceVectors.init rs p0 with
          | error e => exact rfl
          | ok v =>
            dsimp only
            rcases treeLoop_agree fuel hs v with ⟨e, e1, e2⟩ | ⟨e1, e2⟩ | ⟨d, d', w, e1, e2, h'⟩
            · rw [e1, e2]; exact rfl
            · rw [e1, e2]; trivial
            · rw [e1, e2]
              refine ⟨h', ?_⟩
              unfold TradeWithMultipleRecipes.init
              have hx : t.numOfDealsExplained (sizeAt d) = t.numOfDealsExplained (sizeAt d') := by
                unfold RecipeTree.numOfDealsExplained
                rw [explained_agree fun i hi => h'.size (forest_nodes.1 hi)]
              have hg : t.optimalTradeGFT (valuesAt d) = t.optimalTradeGFT (valuesAt d') := by
                unfold RecipeTree.optimalTradeGFT RecipeTree.combinedValues
                rw [(combined_agree (f := t.forest) fun i hi => h'.values (forest_nodes.1 hi)).1]
              rw [hx, hg]

end Auctions
