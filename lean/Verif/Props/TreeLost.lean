import Verif.Proofs.TreeLost
import Verif.Props.TreeClearing

set_option autoImplicit false

/-!
# C109 — how many deals the recipe-tree auction loses
-/

namespace Auctions.Props

open Auctions Spec TreeAuction

section

variable {f : List (List ℕ) → ℚ → Py (List ℚ)} {m : Market} {struct : List PyObj} {fuel : ℕ}
  {trade : TradeWithMultipleRecipes} {t : RecipeTree}

theorem combined_root_nil {V : ℕ → List ℚ} {i : ℕ} {ch : Forest} (hch : ch ≠ .nil) (h : V i = []) : (Forest.cons i ch .nil).combinedValues V = [] := by
  rw [combinedValues_cons, nodeValues_nil_of hch (Or.inl h)]; rfl

/-- What is known about the deals at the end: the optimal deals are the first ones of the combined values, and the auction loses at most one for each group with a leaf. -/
theorem lost_key (hf : PriceContract f) (ht : RecipeTree.init m.numCategories struct = .ok t) (hn : (treeNodes t).Nodup) (hch : t.children ≠ .nil)
    {B : ℚ} (hB : 0 ≤ B) (hb : ∀ l ∈ m.valueLists, ∀ x ∈ l, -B ≤ x ∧ x ≤ B)
    {L : ℕ} (hL : IsGreatest {l | ∃ p, TreePath t p ∧ p.length = l} L) (hM : 3 * L * B < MAX_VALUE)
    (hties : TieFree (fun i => m.valueLists.getD i []) (.cons t.index t.children .nil)) 
    (h : auction f m struct fuel = .ok (some trade)) {k : ℕ} (hk : k = (t.forest.combinedValues (valuesAt m.sorted)).countP (fun x => 0 ≤ x)) :
    k ≤ trade.numOfDeals + leafParents t.forest ∧
    (leafParents t.forest = 1 → ∃ n, k ≤ n + 1 ∧ n ≤ k ∧ ((t.forest.combinedValues (valuesAt m.sorted)).take n).sum ≤ trade.gainFromTrade) := by
  by_cases hroot : m.valueLists.getD t.index [] = []
  · have h0 : t.forest.combinedValues (valuesAt m.sorted) = [] := by
      rw [RecipeTree.forest]
      exact combined_root_nil hch (by rw [valuesAt_sorted, hroot]; rfl)
    rw [h0] at hk ⊢
    have hk0 : k = 0 := by simpa using hk
    subst hk0
    refine ⟨Nat.zero_le _, fun _ => ⟨0, by omega, le_refl _, ?_⟩⟩
    obtain ⟨cats, v, s, rfl, h1, -, -⟩ := outcome hf ht hn (fun _ _ _ => True) (by intros; trivial) (by intros; trivial) (by intros; trivial) h
    exact (tree_gft_is_maximum (vals := valuesAt cats) hn (fun i _ => h1.sorted i)).2 ⟨[], ⟨by simp, fun i => by simp [agentsOf]⟩, by simp [treeTotalGain]⟩
  · obtain ⟨hM', cats, v, s, rfl, h1, h2, h3⟩ := auction_arun hf ht hn hB hb hL hM hties hroot h
    have hnn : (nodes t.forest).Nodup := by rw [treeNodes_eq]; exact hn
    have hpos := max_value_pos
    have hL1 : (1 : ℚ) ≤ height t.forest := by
      have : 1 ≤ height t.forest := by rw [RecipeTree.forest, height]; omega
      exact_mod_cast this
    have hLB : 0 ≤ (height t.forest : ℚ) * B := mul_nonneg (by linarith) hB
    have hd : Distinct (valuesAt m.sorted) t.forest := by
      apply distinct_of_tieFree
      refine tieFree_perm ?_ hties
      intro i
      rw [valuesAt_sorted]; exact (sortDesc_perm _).symm
    have hks : k = sizeAt cats t.index := by rw [hk, (arun_end hB hM' hch h2 h3).2]
    have hnum : (t.forest.combinedValues (valuesAt cats)).length = (TradeWithMultipleRecipes.init cats t v.prices).numOfDeals := by
      change _ = (t.numOfDealsExplained (sizeAt cats)).1
      rw [tree_num_of_deals_explained, sizeAt_fun, RecipeTree.numOfDeals, numOfDeals_eq]
    have hgain : (t.forest.combinedValues (valuesAt cats)).sum ≤ (TradeWithMultipleRecipes.init cats t v.prices).gainFromTrade := by
      rw [combinedValues_eq]
      exact (tree_gft_is_maximum (vals := valuesAt cats) hn (fun i _ => h1.sorted i)).2 ⟨_, treeDeals_feasible (valuesAt cats) t.forest hnn, rfl⟩
    by_cases hr : sizeAt cats t.index = 0
    · have hWnil : valuesAt cats t.index = [] := by rw [sizeAt_eq] at hr; exact List.length_eq_zero_iff.1 hr
      refine ⟨by omega, fun _ => ⟨0, by omega, by omega, ?_⟩⟩
      rw [RecipeTree.forest, combined_root_nil hch hWnil] at hgain
      simpa using hgain
    · have hs : s = 0 := h3.resolve_right hr
      obtain ⟨s0, hs0, hnear⟩ := h2.near hs
      obtain ⟨R, p, ⟨g1, g2, g3, g4⟩, g5⟩ := hnear (max s0 ((-MAX_VALUE + 2 * height t.forest * B) / 2)) (le_max_left _ _) (max_lt hs0 (by linarith))
      have hq : -MAX_VALUE + 2 * height t.forest * B < max s0 ((-MAX_VALUE + 2 * height t.forest * B) / 2) :=
        lt_of_lt_of_le (by linarith) (le_max_right _ _)
      have hqn : max s0 ((-MAX_VALUE + 2 * height t.forest * B) / 2) < 0 := max_lt hs0 (by linarith)
      generalize max s0 ((-MAX_VALUE + 2 * height t.forest * B) / 2) = q at *
      have hW : ∀ i ∈ nodes t.forest, valuesAt cats i = (valuesAt m.sorted i).take (R i) := by
        intro i hi
        obtain ⟨n, hn⟩ := h1.pre i
        rw [g5 i hi, sizeAt_eq, hn, List.length_take, List.take_eq_take_iff]
        omega
      have hlost := lost_le (W := valuesAt cats) hB hd g1 g2 g3 g4 (a := -MAX_VALUE + 2 * height t.forest * B) (le_refl _) (by linarith) (by linarith) hq
        (fun i hi => by rw [g5 i hi, sizeAt_eq])
      have hnl : ¬ LeafAt (valuesAt m.sorted) q t.forest := by
        rw [RecipeTree.forest]
        rintro (⟨hx, -⟩ | hx)
        · exact hch hx
        · exact hx
      rw [if_neg hnl, Nat.add_zero, hnum] at hlost
      have hkq : k ≤ (t.forest.combinedValues (valuesAt m.sorted)).countP (fun x => q ≤ x) := by
        rw [hk]
        exact countP_le_of (fun x hx => by linarith)
      refine ⟨by omega, fun hone => ?_⟩
      have hnh : ¬ HasLeaf t.forest := by
        rw [RecipeTree.forest]
        rintro (hx | hx)
        · exact hch hx
        · exact hx
      obtain ⟨n, hn'⟩ := top_offers (W := valuesAt cats) (by rw [leafGroups, if_neg hnh, hone]) g1 g2 hW
      have hsorted : ∀ U : ℕ → List ℚ, SortedDesc (U t.index) → sortDesc (t.forest.combinedValues U) = t.forest.combinedValues U := by
        intro U hU
        apply sortDesc_of_sorted
        rw [RecipeTree.forest, combinedValues_cons, nodeValues_of_ne _ _ hch]
        show SortedDesc (_ ++ [])
        rw [List.append_nil]
        exact sorted_zip hU (sortDesc_sorted _)
      rw [hsorted _ (h1.sorted _), hsorted _ (by rw [valuesAt_sorted]; exact sortDesc_sorted _)] at hn'
      have hlen : (t.forest.combinedValues (valuesAt cats)).length ≤ k := by
        rw [hks, sizeAt_eq, RecipeTree.forest, combinedValues_cons, nodeValues_of_ne _ _ hch]
        show (_ ++ []).length ≤ _
        rw [List.append_nil, List.length_zipWith]
        exact min_le_left _ _
      refine ⟨(t.forest.combinedValues (valuesAt cats)).length, by omega, hlen, ?_⟩
      have : (t.forest.combinedValues (valuesAt m.sorted)).take (t.forest.combinedValues (valuesAt cats)).length = t.forest.combinedValues (valuesAt cats) := by
        rw [hn', List.length_take, List.take_eq_take_iff]
        omega
      rw [this]
      exact hgain

/-- **C109**. In a market without ties, the auction makes as many deals as the optimal trade, less at most one for every category with a child that is a leaf. -/
theorem tree_deals_lost (hf : PriceContract f) (ht : RecipeTree.init m.numCategories struct = .ok t) (hn : (treeNodes t).Nodup) (hch : t.children ≠ .nil)
    {B : ℚ} (hB : 0 ≤ B) (hb : ∀ l ∈ m.valueLists, ∀ x ∈ l, -B ≤ x ∧ x ≤ B)
    {L : ℕ} (hL : IsGreatest {l | ∃ p, TreePath t p ∧ p.length = l} L) (hM : 3 * L * B < MAX_VALUE)
    (hties : TieFree (fun i => m.valueLists.getD i []) (.cons t.index t.children .nil))
    (h : auction f m struct fuel = .ok (some trade)) {rows : List (List ℚ)} {k : ℕ} {g : ℚ}
    (ho : t.optimalTrade (fun i => sortDesc (m.valueLists.getD i [])) = .ok (rows, k, g)) :
    k ≤ trade.numOfDeals + leafParents (.cons t.index t.children .nil) := by
  have hvals : valuesAt m.sorted = fun i => sortDesc (m.valueLists.getD i []) := by
    funext i; exact valuesAt_sorted m i
  obtain ⟨-, -, -, c4, -⟩ := counted_deals (t := t) (vals := valuesAt m.sorted) hn (fun i _ => by rw [valuesAt_sorted]; exact sortDesc_sorted _) _ rfl
  rw [← hvals, c4 hch, Except.ok.injEq, Prod.mk.injEq, Prod.mk.injEq] at ho
  refine (lost_key hf ht hn hch hB hb hL hM hties h ?_).1
  rw [← ho.2.1, combinedValues_eq, List.countP_map, ← List.countP_eq_length_filter]
  rfl

/-- **C109**. If there is only one such category (as in a tree in which the root is the only category with children, or with a single path), the gain from trade is at least `1 - 1/k` times the
optimal one, where `k` is the number of optimal deals. -/
theorem tree_gain_one_group (hf : PriceContract f) (ht : RecipeTree.init m.numCategories struct = .ok t) (hn : (treeNodes t).Nodup) (hch : t.children ≠ .nil)
    {B : ℚ} (hB : 0 ≤ B) (hb : ∀ l ∈ m.valueLists, ∀ x ∈ l, -B ≤ x ∧ x ≤ B)
    {L : ℕ} (hL : IsGreatest {l | ∃ p, TreePath t p ∧ p.length = l} L) (hM : 3 * L * B < MAX_VALUE)
    (hties : TieFree (fun i => m.valueLists.getD i []) (.cons t.index t.children .nil))
    (hone : leafParents (.cons t.index t.children .nil) = 1)
    (h : auction f m struct fuel = .ok (some trade)) {rows : List (List ℚ)} {k : ℕ} {g : ℚ}
    (ho : t.optimalTrade (fun i => sortDesc (m.valueLists.getD i [])) = .ok (rows, k, g)) :
    k ≤ trade.numOfDeals + 1 ∧ (0 < k → (1 - 1 / (k : ℚ)) * g ≤ trade.gainFromTrade) := by
  have hvals : valuesAt m.sorted = fun i => sortDesc (m.valueLists.getD i []) := by
    funext i; exact valuesAt_sorted m i
  obtain ⟨-, -, -, c4, -⟩ := counted_deals (t := t) (vals := valuesAt m.sorted) hn (fun i _ => by rw [valuesAt_sorted]; exact sortDesc_sorted _) _ rfl
  rw [← hvals, c4 hch, Except.ok.injEq, Prod.mk.injEq, Prod.mk.injEq] at ho
  have hkc : k = (t.forest.combinedValues (valuesAt m.sorted)).countP (fun x => 0 ≤ x) := by
    rw [← ho.2.1, combinedValues_eq, List.countP_map, ← List.countP_eq_length_filter]
    rfl
  obtain ⟨h1, h2⟩ := lost_key hf ht hn hch hB hb hL hM hties h hkc
  refine ⟨by rw [RecipeTree.forest, hone] at h1; exact h1, fun hk0 => ?_⟩
  obtain ⟨n, n1, n2, n3⟩ := h2 hone
  have hsort : SortedDesc (t.forest.combinedValues (valuesAt m.sorted)) := by
    rw [RecipeTree.forest, combinedValues_cons, nodeValues_of_ne _ _ hch]
    show SortedDesc (_ ++ [])
    rw [List.append_nil]
    exact sorted_zip (by rw [valuesAt_sorted]; exact sortDesc_sorted _) (sortDesc_sorted _)
  have hg : g = ((t.forest.combinedValues (valuesAt m.sorted)).take k).sum := by
    have hft := filter_eq_take (g := id) hsort 0
    simp only [id] at hft
    rw [hkc, ← hft, ← ho.2.2, treeTotalGain, combinedValues_eq, List.filter_map]
    rfl
  have hlen : k ≤ (t.forest.combinedValues (valuesAt m.sorted)).length := by rw [hkc]; exact List.countP_le_length
  have hnn : 0 ≤ g := by
    rw [← ho.2.2]
    apply List.sum_nonneg
    intro x hx
    obtain ⟨d, hd, rfl⟩ := List.mem_map.1 hx
    simpa using (List.mem_filter.1 hd).2
  have hkpos : (0 : ℚ) < k := by exact_mod_cast hk0
  generalize t.forest.combinedValues (valuesAt m.sorted) = Z at *
  rcases (show n = k ∨ n + 1 = k by omega) with rfl | rfl
  · rw [← hg] at n3
    have : (1 - 1 / (n : ℚ)) * g ≤ 1 * g := mul_le_mul_of_nonneg_right (by have := one_div_pos.2 hkpos; linarith) hnn
    linarith
  · have h3 := sum_take_pred hsort (k := n) (by omega)
    rw [← hg] at h3
    have h4 : (1 - 1 / ((n + 1 : ℕ) : ℚ)) * g = (n : ℚ) * g / ((n + 1 : ℕ) : ℚ) := by
      field_simp
      push_cast
      ring
    rw [h4, div_le_iff₀ hkpos]
    push_cast
    push_cast at hkpos
    nlinarith

end

/-! ### Concrete markets -/

/-- In `lossTree` the root has a leaf as a child, and so has the category 2. -/
example : leafParents (.cons lossTree.index lossTree.children .nil) = 2 := by
  simp [leafParents, HasLeaf, lossTree]

/-- A market for this tree in which both deals are lost: the optimal trade has three deals, the auction makes one. -/
def twoLost : Market := ⟨[⟨"buyer", [31, 20, 28, 1]⟩, ⟨"seller", [-18, -5]⟩, ⟨"A", [-7, -13, -15]⟩, ⟨"B", [-6, -7, -20]⟩]⟩

/-- Non-vacuity of C109, and the bound is attained. -/
example :
    PriceContract lossSolver ∧ RecipeTree.init twoLost.numCategories lossStruct = .ok lossTree ∧ (treeNodes lossTree).Nodup ∧
    (∀ l ∈ twoLost.valueLists, ∀ x ∈ l, -40 ≤ x ∧ x ≤ (40 : ℚ)) ∧ (3 * (3 : ℕ) * 40 : ℚ) < MAX_VALUE ∧
    noTies (fun i => twoLost.valueLists.getD i []) lossTree.forest = true ∧
    (lossTree.optimalTrade (fun i => sortDesc (twoLost.valueLists.getD i []))).map (fun r => (r.2.1, r.2.2)) = .ok (3, 43) ∧
    (auction lossSolver twoLost lossStruct 100).map (fun o => o.map (fun t => (t.numOfDeals, t.gainFromTrade))) = .ok (some (1, 26)) :=
  ⟨fixedSolver_contract _, by decide +kernel, by decide +kernel, by decide +kernel, by norm_num [MAX_VALUE], by decide +kernel, by decide +kernel, by decide +kernel⟩

/-- A buyer trades with a seller of the category 1 or of the category 2. -/
def flatTree : RecipeTree := ⟨0, .cons 1 .nil (.cons 2 .nil .nil)⟩

example : leafParents (.cons flatTree.index flatTree.children .nil) = 1 := by
  simp [leafParents, HasLeaf, flatTree]

def flatStruct : List PyObj := [.int 0, .list [.int 1, .none, .int 2, .none]]

def flatMarket : Market := ⟨[⟨"buyer", [28, 49, 23, 30]⟩, ⟨"seller", [-15, -2, -29]⟩, ⟨"A", [-11, -18, -1]⟩]⟩

def flatSolver := fixedSolver [-100000000, -100000000, -100000000]

/-- Non-vacuity for one group: of four deals with gain 101 the auction makes three with gain 93. -/
example :
    PriceContract flatSolver ∧ RecipeTree.init flatMarket.numCategories flatStruct = .ok flatTree ∧ (treeNodes flatTree).Nodup ∧
    (∀ l ∈ flatMarket.valueLists, ∀ x ∈ l, -50 ≤ x ∧ x ≤ (50 : ℚ)) ∧ (3 * (2 : ℕ) * 50 : ℚ) < MAX_VALUE ∧
    noTies (fun i => flatMarket.valueLists.getD i []) flatTree.forest = true ∧
    (flatTree.optimalTrade (fun i => sortDesc (flatMarket.valueLists.getD i []))).map (fun r => (r.2.1, r.2.2)) = .ok (4, 101) ∧
    (auction flatSolver flatMarket flatStruct 100).map (fun o => o.map (fun t => (t.numOfDeals, t.gainFromTrade))) = .ok (some (3, 93)) :=
  ⟨fixedSolver_contract _, by decide +kernel, by decide +kernel, by decide +kernel, by norm_num [MAX_VALUE], by decide +kernel, by decide +kernel, by decide +kernel⟩

end Auctions.Props
