import Verif.Proofs.TreePrices
import Verif.Props.Tree

set_option autoImplicit false

/-!
# C33 – C36, C38 — properties of the tree auction

`f` stands for the code that computes the initial prices (`prices.calculate_initial_prices`, an external solver); it is only
assumed to meet its documented contract. `t` is the tree that the structure denotes (C30).
-/

namespace Auctions.Props

open Auctions Spec TreeAuction

/-- The agents of category `i` in the outcome. -/
def remaining (trade : TradeWithMultipleRecipes) (i : ℕ) : List ℚ := (trade.categories.map AgentCategory.values).getD i []

/-- The price of category `i` in the outcome. -/
def finalPrice (trade : TradeWithMultipleRecipes) (i : ℕ) : ℚ := trade.prices.getD i 0

theorem remaining_eq (trade : TradeWithMultipleRecipes) (i : ℕ) : remaining trade i = valuesAt trade.categories i := by
  unfold remaining valuesAt
  rw [List.getD_eq_getElem?_getD, List.getElem?_map]
  cases trade.categories[i]? <;> rfl

section

variable {f : List (List ℕ) → ℚ → Py (List ℚ)} {m : Market} {struct : List PyObj} {fuel : ℕ}
  {trade : TradeWithMultipleRecipes} {t : RecipeTree}

/-- What an invariant of the loop says about the outcome. -/
theorem outcome (hf : PriceContract f) (ht : RecipeTree.init m.numCategories struct = .ok t) (hn : (treeNodes t).Nodup)
    (P : List AgentCategory → SimultaneousAscendingPriceVectors → ℚ → Prop)
    (hP : ∀ cats v s cats' v' d, TInv t m.numCategories m.sorted cats v s → s < 0 → P cats v s → s + d < 0 →
      TInv t m.numCategories m.sorted cats' v' (s + d) → NextState t cats v cats' v' d → P cats' v' (s + d))
    (hPz : ∀ cats v s v' d, TInv t m.numCategories m.sorted cats v s → s < 0 → P cats v s → TInv t m.numCategories m.sorted cats v' 0 →
      (∀ i ∈ cutOf t cats, d ≤ target cats i - priceAt v i) → (∃ i ∈ cutOf t cats, target cats i - priceAt v i = d) →
      -s ≤ d → (∀ j, priceAt v' j = priceAt v j + if j ∈ cutOf t cats then -s else 0) → P cats v' 0)
    (h0 : ∀ v s, TInv t m.numCategories m.sorted m.sorted v s → s ≤ -MAX_VALUE →
      (∀ i < m.numCategories, priceAt v i ≤ -MAX_VALUE) → P m.sorted v s)
    (h : auction f m struct fuel = .ok (some trade)) :
    ∃ cats v s, trade = TradeWithMultipleRecipes.init cats t v.prices ∧ TInv t m.numCategories m.sorted cats v s ∧ P cats v s ∧
      (s = 0 ∨ sizeAt cats t.index = 0) := by
  obtain ⟨p0, cats, v, h1, h2, rfl⟩ := auction_inv ht hn h
  have hto := treeOn_of_init ht hn
  obtain ⟨s, hi, hs, hp⟩ := start_inv hto (hf _ _ _ h1)
  rcases tree_loop_end hto P hP hPz fuel hi (by linarith [max_value_pos]) (h0 _ _ hi hs hp) with e | ⟨cats', v', s', e, e1, e2, e3⟩
  · rw [h2] at e; simp at e
  · rw [h2] at e
    simp only [Except.ok.injEq, Option.some.injEq, Prod.mk.injEq] at e
    obtain ⟨rfl, rfl⟩ := e
    exact ⟨cats, v, s', rfl, e1, e2, e3⟩

theorem empty_root {cats : List AgentCategory} {ps : List ℚ} (h : sizeAt cats t.index = 0) :
    (TradeWithMultipleRecipes.init cats t ps).numOfDeals = 0 ∧ (TradeWithMultipleRecipes.init cats t ps).gainFromTrade = 0 := by
  constructor
  · change (t.numOfDealsExplained (sizeAt cats)).1 = 0
    rw [tree_num_of_deals_explained, RecipeTree.numOfDeals, RecipeTree.forest, numOfDeals_cons, nodeNum, h]
    split <;> simp [Forest.numOfDeals]
  · change t.optimalTradeGFT (valuesAt cats) = 0
    have hv : valuesAt cats t.index = [] := by
      rw [sizeAt_eq] at h; exact List.length_eq_zero_iff.1 h
    rw [RecipeTree.optimalTradeGFT, RecipeTree.combinedValues, RecipeTree.forest, combinedValues_cons]
    have : nodeValues (valuesAt cats) t.index t.children = [] := by
      cases hc : t.children with
      | nil => simp [nodeValues, hv]
      | cons a b c => simp [nodeValues, hv]
    rw [this]; rfl

/-- **C34**. A trade returned by the auction either has no deals and no gain, or the prices of the categories on every path from the root
to a leaf sum to exactly 0. -/
theorem tree_auction_budget_balanced (hf : PriceContract f) (ht : RecipeTree.init m.numCategories struct = .ok t)
    (hn : (treeNodes t).Nodup) (h : auction f m struct fuel = .ok (some trade)) :
    trade.recipeTree = t ∧ ((trade.numOfDeals = 0 ∧ trade.gainFromTrade = 0) ∨
      ∀ p, TreePath t p → (p.map (finalPrice trade)).sum = 0) := by
  obtain ⟨cats, v, s, rfl, h1, -, h3⟩ := outcome hf ht hn (fun _ _ _ => True) (by intros; trivial) (by intros; trivial)
    (by intros; trivial) h
  refine ⟨rfl, ?_⟩
  rcases h3 with rfl | h3
  · right
    intro p hp
    exact h1.fits.balanced p hp
  · left; exact empty_root h3

/-- **C35**. If all values lie between `-MAX_VALUE` and `MAX_VALUE`: every remaining agent has a value of at least the final price of its category,
every other agent of the category has a value of at most that price, and no agent is added or lost. -/
theorem tree_auction_individually_rational (hf : PriceContract f) (ht : RecipeTree.init m.numCategories struct = .ok t)
    (hn : (treeNodes t).Nodup) (hlow : ∀ l ∈ m.valueLists, ∀ x ∈ l, -MAX_VALUE ≤ x ∧ x ≤ MAX_VALUE)
    (h : auction f m struct fuel = .ok (some trade)) (i : ℕ) :
    (∀ x ∈ remaining trade i, finalPrice trade i ≤ x) ∧
      ∃ out : List ℚ, ((remaining trade i ++ out).Perm (m.valueLists.getD i [])) ∧ ∀ x ∈ out, x ≤ finalPrice trade i := by
  have hb : ∀ i, ∀ x ∈ valuesAt m.sorted i, -MAX_VALUE ≤ x ∧ x ≤ MAX_VALUE := by
    intro i x hx
    rw [valuesAt_sorted, mem_sortDesc] at hx
    refine hlow (m.valueLists.getD i []) ?_ x hx
    by_cases hil : i < m.valueLists.length
    · rw [List.getD_eq_getElem?_getD, List.getElem?_eq_getElem hil]; exact List.getElem_mem hil
    · rw [List.getD_eq_getElem?_getD, List.getElem?_eq_none (by omega)] at hx; simp at hx
  obtain ⟨cats, v, s, rfl, h1, h2, -⟩ := outcome hf ht hn (fun cats v _ => Fair m.sorted cats v)
    (fun cats v s cats' v' d e1 _ e3 _ _ e6 => fair_next e1 (fun i x hx => (hb i x hx).2) e3 e6)
    (fun cats v s v' d e1 e2 e3 _ e5 _ e7 e8 => fair_stop e1 e2 (fun i x hx => (hb i x hx).2) e3 e5 e7 e8)
    (by
      intro v s e1 _ e3
      have hout : ∀ i, m.numCategories ≤ i → priceAt v i = 0 := by
        intro i hi
        unfold priceAt
        rw [List.getD_eq_getElem?_getD, List.getElem?_eq_none (by rw [e1.fits.length]; exact hi)]; rfl
      refine ⟨?_, ?_, ?_⟩
      · intro i x hx
        by_cases hi : i < m.numCategories
        · exact (e3 i hi).trans (hb i x hx).1
        · rw [valuesAt_ge (by rw [m.sorted_length]; omega)] at hx; simp at hx
      · intro i
        have := max_value_pos
        by_cases hi : i < m.numCategories
        · have := e3 i hi; linarith
        · rw [hout i (by omega)]; linarith
      · intro i
        exact ⟨(valuesAt m.sorted i).length, by simp, by simp⟩) h
  rw [remaining_eq]
  refine ⟨fun x hx => h2.rational i x hx, ?_⟩
  obtain ⟨k, hk, hl⟩ := h2.left i
  refine ⟨(valuesAt m.sorted i).drop k, ?_, hl⟩
  change (valuesAt cats i ++ _).Perm _
  rw [hk, List.take_append_drop, valuesAt_sorted]
  exact sortDesc_perm _

/-- **C35**, without the upper bound on values: the remaining agents are the top agents of their category, and have values of at
least the price. -/
theorem tree_auction_keeps_best (hf : PriceContract f) (ht : RecipeTree.init m.numCategories struct = .ok t)
    (hn : (treeNodes t).Nodup) (h : auction f m struct fuel = .ok (some trade)) (i : ℕ) :
    (∃ out : List ℚ, ((remaining trade i ++ out).Perm (m.valueLists.getD i [])) ∧
      ∀ x ∈ remaining trade i, ∀ y ∈ out, y ≤ x) ∧
    ((∀ l ∈ m.valueLists, ∀ x ∈ l, -MAX_VALUE ≤ x) → ∀ x ∈ remaining trade i, finalPrice trade i ≤ x) := by
  obtain ⟨cats, v, s, rfl, h1, h2, -⟩ := outcome hf ht hn
    (fun cats v _ => (∀ l ∈ m.valueLists, ∀ x ∈ l, -MAX_VALUE ≤ x) → Rational cats v)
    (fun cats v s cats' v' d e1 _ e3 _ _ e6 hl => rational_next e1 (e3 hl) e6)
    (fun cats v s v' d e1 e2 e3 _ e5 _ e7 e8 hl => rational_stop e1 (e3 hl) e5 e7 e8)
    (by
      intro v s e1 _ e3 hl i x hx
      by_cases hi : i < m.numCategories
      · refine (e3 i hi).trans ?_
        rw [valuesAt_sorted, mem_sortDesc] at hx
        refine hl (m.valueLists.getD i []) ?_ x hx
        have hil : i < m.valueLists.length := by simpa [Market.valueLists, Market.numCategories] using hi
        rw [List.getD_eq_getElem?_getD, List.getElem?_eq_getElem hil]; exact List.getElem_mem hil
      · rw [valuesAt_ge (by rw [m.sorted_length]; omega)] at hx; simp at hx) h
  rw [remaining_eq]
  refine ⟨?_, fun hl x hx => h2 hl i x hx⟩
  obtain ⟨k, hk⟩ := h1.pre i
  have hs : SortedDesc (valuesAt m.sorted i) := by rw [valuesAt_sorted]; exact sortDesc_sorted _
  refine ⟨(valuesAt m.sorted i).drop k, ?_, ?_⟩
  · change (valuesAt cats i ++ _).Perm _
    rw [hk, List.take_append_drop, valuesAt_sorted]
    exact sortDesc_perm _
  · intro x hx y hy
    change x ∈ valuesAt cats i at hx
    rw [hk] at hx
    exact hs.take_ge_drop k x hx y hy

/-- **C36**. The gain and the number of deals that the auction reports are at most those of the best trades of the market. -/
theorem tree_auction_at_most_optimum (hf : PriceContract f) (ht : RecipeTree.init m.numCategories struct = .ok t)
    (hn : (treeNodes t).Nodup) (h : auction f m struct fuel = .ok (some trade)) :
    (∀ g, IsGreatest {g | ∃ deals, FeasibleDeals t (fun i => m.valueLists.getD i []) deals ∧ treeTotalGain deals = g} g →
      trade.gainFromTrade ≤ g) ∧
    (∀ k, IsGreatest {k | ∃ deals, FeasibleDeals t (fun i => m.valueLists.getD i []) deals ∧ deals.length = k} k →
      trade.numOfDeals ≤ k) := by
  obtain ⟨cats, v, s, rfl, h1, -, -⟩ := outcome hf ht hn (fun _ _ _ => True) (by intros; trivial) (by intros; trivial)
    (by intros; trivial) h
  have hsub : ∀ i, (valuesAt cats i).Subperm (m.valueLists.getD i []) := by
    intro i
    obtain ⟨k, hk⟩ := h1.pre i
    rw [hk, valuesAt_sorted]
    exact (List.take_sublist _ _).subperm.trans (sortDesc_perm _).subperm
  constructor
  · intro g hg
    obtain ⟨deals, hd, he⟩ := (tree_gft_is_maximum (vals := valuesAt cats) hn (fun i _ => h1.sorted i)).1
    exact hg.2 ⟨deals, ⟨hd.1, fun i => (hd.2 i).trans (hsub i)⟩, he⟩
  · intro k hk
    obtain ⟨deals, hd, he⟩ := (tree_num_of_deals_is_maximum (t := t) (valuesAt cats) hn).1
    refine hk.2 ⟨deals, ⟨hd.1, fun i => (hd.2 i).trans (hsub i)⟩, he.trans ?_⟩
    change _ = (t.numOfDealsExplained (sizeAt cats)).1
    rw [tree_num_of_deals_explained, sizeAt_fun]

/-- **C36**. The reported trade can be carried out: there are deals among the remaining agents, as many as reported, with exactly the reported
gain, in which every agent's value is at least the price it pays; and no remaining agents can make more deals or a larger gain. -/
theorem tree_auction_outcome_feasible (hf : PriceContract f) (ht : RecipeTree.init m.numCategories struct = .ok t)
    (hn : (treeNodes t).Nodup) (hlow : ∀ l ∈ m.valueLists, ∀ x ∈ l, -MAX_VALUE ≤ x)
    (h : auction f m struct fuel = .ok (some trade)) :
    ∃ deals, FeasibleDeals t (remaining trade) deals ∧ deals.length = trade.numOfDeals ∧
      treeTotalGain deals = trade.gainFromTrade ∧ (∀ d ∈ deals, ∀ a ∈ d, finalPrice trade a.1 ≤ a.2) ∧
      (∀ d ∈ deals, 0 ≤ treeGain d) ∧
      ∀ deals', FeasibleDeals t (remaining trade) deals' →
        deals'.length ≤ deals.length ∧ treeTotalGain deals' ≤ treeTotalGain deals := by
  have hb := fun i => (tree_auction_keeps_best hf ht hn h i).2 hlow
  have hbb := (tree_auction_budget_balanced hf ht hn h).2
  obtain ⟨cats, v, s, rfl, h1, -, h3⟩ := outcome hf ht hn (fun _ _ _ => True) (by intros; trivial) (by intros; trivial)
    (by intros; trivial) h
  have hrem : remaining (TradeWithMultipleRecipes.init cats t v.prices) = valuesAt cats := by
    funext i; exact remaining_eq _ i
  rw [hrem]
  simp only [hrem] at hb
  have hnn : (nodes t.forest).Nodup := by rw [treeNodes_eq]; exact hn
  have hfeas := treeDeals_feasible (valuesAt cats) t.forest hnn
  have hnum : (treeDeals (valuesAt cats) t.forest).length = (TradeWithMultipleRecipes.init cats t v.prices).numOfDeals := by
    change _ = (t.numOfDealsExplained (sizeAt cats)).1
    rw [tree_num_of_deals_explained, sizeAt_fun, RecipeTree.numOfDeals, numOfDeals_eq, combinedValues_eq, List.length_map]
  have hpr : ∀ d ∈ treeDeals (valuesAt cats) t.forest, ∀ a ∈ d,
      finalPrice (TradeWithMultipleRecipes.init cats t v.prices) a.1 ≤ a.2 := by
    intro d hd a ha
    apply hb a.1
    apply (hfeas.2 a.1).subset
    rw [agentsOf, List.mem_map]
    exact ⟨a, List.mem_filter.2 ⟨List.mem_flatten.2 ⟨d, hd, ha⟩, by simp⟩, rfl⟩
  have hgain : ∀ d ∈ treeDeals (valuesAt cats) t.forest, 0 ≤ treeGain d := by
    intro d hd
    rcases h3 with rfl | h3
    · have hp := hfeas.1 d hd
      have h0 := h1.fits.balanced _ hp
      have hle : (d.map (fun a => finalPrice (TradeWithMultipleRecipes.init cats t v.prices) a.1)).sum ≤ treeGain d := by
        unfold treeGain
        apply List.sum_le_sum
        exact hpr d hd
      have he : pathSum v.prices (d.map Prod.fst)
          = (d.map (fun a => finalPrice (TradeWithMultipleRecipes.init cats t v.prices) a.1)).sum := by
        unfold pathSum; rw [List.map_map]; rfl
      rw [← he, h0] at hle
      exact hle
    · exfalso
      have := (empty_root (t := t) (ps := v.prices) h3).1
      rw [← hnum, List.length_eq_zero_iff] at this
      rw [this] at hd; simp at hd
  have hg : treeTotalGain (treeDeals (valuesAt cats) t.forest)
      = (TradeWithMultipleRecipes.init cats t v.prices).gainFromTrade := by
    have := (filtered_deals (t := t) (vals := valuesAt cats) hn).2
    rw [List.filter_eq_self.2 (by intro d hd; simpa using hgain d hd)] at this
    exact this
  refine ⟨treeDeals (valuesAt cats) t.forest, hfeas, hnum, hg, hpr, hgain, ?_⟩
  intro deals' hd'
  constructor
  · have := (tree_num_of_deals_is_maximum (t := t) (valuesAt cats) hn).2 ⟨deals', hd', rfl⟩
    rw [hnum]
    change _ ≤ (t.numOfDealsExplained (sizeAt cats)).1
    rw [tree_num_of_deals_explained, sizeAt_fun]; exact this
  · rw [hg]
    exact (tree_gft_is_maximum (vals := valuesAt cats) hn (fun i _ => h1.sorted i)).2 ⟨deals', hd', rfl⟩

/-- **C33**. With a market that has a category, a tree with at least two categories, all different, and a solver that finds initial
prices whenever there are any, the auction never raises an exception, however long it runs: in particular every call of `increase_prices` finds
exactly one raised category per recipe, and initial prices exist for every tree. -/
theorem tree_auction_never_raises (hf : PriceContract f) (hfc : PriceComplete f) (hc : m.categories ≠ [])
    (ht : RecipeTree.init m.numCategories struct = .ok t) (hn : (treeNodes t).Nodup) (hch : t.children ≠ .nil) (fuel : ℕ) :
    ∃ r, auction f m struct fuel = .ok r := by
  have hto := treeOn_of_init ht hn
  obtain ⟨deals, -, -, -, ho⟩ := tree_optimal_trade (vals := valuesAt m.sorted) hn hch
  obtain ⟨p0, hp0⟩ := hfc _ _ (initialPrices_exist hto max_value_pos.le)
  obtain ⟨s, hi, hs, hp⟩ := start_inv hto (hf _ _ _ hp0)
  rw [auction_eq fuel hc ht hn ho hp0]
  rcases tree_loop_end hto (fun _ _ _ => True) (by intros; trivial) (by intros; trivial) fuel hi
    (by linarith [max_value_pos]) trivial with e | ⟨cats', v', s', e, -⟩
  · rw [e]; exact ⟨_, rfl⟩
  · rw [e]; exact ⟨_, rfl⟩

/-- **C33**. For every tree of different categories there are initial prices as documented. The largest sum that such prices can give every
recipe is `-MAX_VALUE` times the number of categories on a longest path. -/
theorem tree_initial_prices_exist (ht : RecipeTree.init m.numCategories struct = .ok t) (hn : (treeNodes t).Nodup) :
    ∃ recipes, t.recipes m.numCategories = .ok recipes ∧ (∃ p, InitialPrices recipes (-MAX_VALUE) p) ∧
      ∀ L : ℕ, IsGreatest {l | ∃ p, TreePath t p ∧ p.length = l} L →
        IsGreatest {s | ∃ p, InitialPrices recipes (-MAX_VALUE) p ∧ ∀ r ∈ recipes, recipeSum r p = s} (-MAX_VALUE * L) := by
  have hto := treeOn_of_init ht hn
  refine ⟨_, recipes_of_treeOn hto, initialPrices_exist hto max_value_pos.le, ?_⟩
  intro L hL
  have hLh : L = height t.forest := by
    apply le_antisymm
    · obtain ⟨p, hp, hl⟩ := hL.1
      rw [← hl]; exact isPath_length_le hp
    · obtain ⟨q, hq, hl⟩ := exists_longest (f := t.forest) (by simp [RecipeTree.forest])
      exact hL.2 ⟨q, hq, hl⟩
  subst hLh
  obtain ⟨p, hp, hs⟩ := initialPrices_exist' hto max_value_pos.le
  refine ⟨⟨p, hp, hs⟩, ?_⟩
  rintro s ⟨p, ⟨h1, h2, -⟩, h3⟩
  exact initialPrices_sum_le hto h1 h2 h3

/-- **C38**. `optimal_trade()` of a tree with a single category raises `TypeError` whenever the category has an agent. -/
theorem tree_single_category_error {i : ℕ} {vals : ℕ → List ℚ} (h : vals i ≠ []) :
    (⟨i, .nil⟩ : RecipeTree).optimalTrade vals = .error .typeError := by
  unfold RecipeTree.optimalTrade RecipeTree.combinedValuesDetailed RecipeTree.forest
  cases hv : vals i with
  | nil => exact absurd hv h
  | cons x l =>
    simp only [Forest.combinedValuesDetailed, hv, List.append_nil, List.map_cons, List.mapM_cons, RecipeTree.itemSum, bind, Except.bind]

/-- **C38**. The auction on a structure with a single category raises `TypeError` on every market in which that category has an agent. -/
theorem tree_auction_single_category {f : List (List ℕ) → ℚ → Py (List ℚ)} {m : Market} {i : ℕ} (hi : m.valueLists.getD i [] ≠ [])
    (fuel : ℕ) : auction f m [.int i, .none] fuel = .error .typeError ∧ auction f m [.int i, .list []] fuel = .error .typeError := by
  have hlt : i < m.numCategories := by
    by_contra hge
    apply hi
    rw [List.getD_eq_getElem?_getD, List.getElem?_eq_none (by simpa [Market.valueLists, Market.numCategories] using hge)]; rfl
  have hc : m.categories ≠ [] := by
    intro h; simp [Market.numCategories, h] at hlt
  have hnum : (⟨m.sorted⟩ : Market).numCategories = m.numCategories := m.sorted_length
  have ht1 : RecipeTree.init m.numCategories [.int i, .none] = .ok ⟨i, .nil⟩ := by
    simp [RecipeTree.init, parseNode, categoryIndex, hlt, bind, Except.bind]
  have ht2 : RecipeTree.init m.numCategories [.int i, .list []] = .ok ⟨i, .nil⟩ := by
    simp [RecipeTree.init, parseNode, parseChildren, categoryIndex, hlt, bind, Except.bind]
  have hto := treeOn_of_init ht1 (by simp [treeNodes, nodes])
  have hv : valuesAt m.sorted i ≠ [] := by
    rw [valuesAt_sorted]
    intro h
    apply hi
    have := congrArg List.length h
    rw [sortDesc_length] at this
    exact List.length_eq_zero_iff.1 this
  constructor
  · unfold auction
    rw [Market.clone_eq hc]
    simp only [bind, Except.bind, hnum, ht1, recipes_of_treeOn hto, tree_single_category_error hv]
  · unfold auction
    rw [Market.clone_eq hc]
    simp only [bind, Except.bind, hnum, ht2, recipes_of_treeOn hto, tree_single_category_error hv]

end

/-- A solver as assumed: it returns the prices on the list whenever they meet the contract. -/
noncomputable def someSolver (recipes : List (List ℕ)) (bound : ℚ) : Py (List ℚ) := by
  classical exact if h : ∃ p, InitialPrices recipes bound p then .ok h.choose else .error .valueError

/-- The assumptions on the solver can be met. -/
theorem someSolver_spec : PriceContract someSolver ∧ PriceComplete someSolver := by
  classical
  constructor
  · intro rs b p h
    unfold someSolver at h
    split at h
    · rename_i he; simp only [Except.ok.injEq] at h; rw [← h]; exact he.choose_spec
    · simp at h
  · intro rs b h
    exact ⟨_, by unfold someSolver; rw [dif_pos h]⟩

/-- A computable solver: it returns the prices `p` if they meet the contract. -/
def fixedSolver (p : List ℚ) (recipes : List (List ℕ)) (bound : ℚ) : Py (List ℚ) :=
  if (∀ r ∈ recipes, r.length = p.length) ∧ (∀ x ∈ p, x ≤ bound) ∧
    (∀ r ∈ recipes, ∀ r' ∈ recipes, recipeSum r p = recipeSum r' p) then .ok p else .error .valueError

theorem fixedSolver_contract (p : List ℚ) : PriceContract (fixedSolver p) := by
  intro rs b q h
  unfold fixedSolver at h
  split at h
  · rename_i hc
    simp only [Except.ok.injEq] at h
    subst h
    refine ⟨hc.1, hc.2.1, ?_⟩
    cases rs with
    | nil => exact ⟨0, by simp⟩
    | cons r rs => exact ⟨recipeSum r p, fun r' hr' => hc.2.2 r' hr' r (by simp)⟩
  · simp at h

/-- Non-vacuity of C33–C36: the doctest of `ascending_auction_recipetree_protocol.py:96-107`, tree `[0, [1, None, 2, [3, None]]]`. -/
example :
    let m : Market := ⟨[⟨"buyer", [27, 21, 17, 11, 3]⟩, ⟨"seller", [-4, -5, -11]⟩, ⟨"A", [-2, -3, -11]⟩, ⟨"B", [-1, -2, -8]⟩]⟩
    let s : List PyObj := [.int 0, .list [.int 1, .none, .int 2, .list [.int 3, .none]]]
    let f := fixedSolver [-100000000, -200000000, -100000000, -100000000]
    RecipeTree.init 4 s = .ok ⟨0, .cons 1 .nil (.cons 2 (.cons 3 .nil .nil) .nil)⟩ ∧
    (auction f m s 100).map (fun o => o.map (fun t => (t.numOfDeals, t.prices, t.gainFromTrade)))
      = .ok (some (2, [5, -5, -3, -2], 41)) := by
  decide +kernel

end Auctions.Props
