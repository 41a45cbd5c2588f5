import Verif.Proofs.SameTreeRun
import Verif.Props.StartPrices
import Verif.Props.Units
import Verif.Props.MultirecipeDisjoint
import Verif.Spec.SameMarket

set_option autoImplicit false

/-!
# C99, C100 — the recipe-tree auction on the same market, written differently

Without ties and without empty categories, the outcome of the auction depends neither on the numbers of the categories, nor on the order in which the alternatives of the recipe tree are listed,
nor on the order of reports, nor on the currency, nor on amounts that cancel out in every recipe — although the initial prices, which a linear-programming solver computes, may then be quite
different ones.
-/

namespace Auctions.Props

open Auctions Spec TreeAuction
open Auctions.SameTree (Same Prices)

/-- A solver that returns prices far below the bound. -/
noncomputable def lowSolver (K : ℚ) (recipes : List (List ℕ)) (bound : ℚ) : Py (List ℚ) := by
  classical exact
    if h : ∃ p, InitialPrices recipes (bound - K) p then .ok h.choose
    else if h : ∃ p, InitialPrices recipes bound p then .ok h.choose
    else .error .valueError

theorem lowSolver_contract {K : ℚ} (hK : 0 ≤ K) : PriceContract (lowSolver K) := by
  intro recipes bound p h
  unfold lowSolver at h
  split at h
  · rename_i hex
    obtain rfl := Except.ok.inj h
    obtain ⟨h1, h2, h3⟩ := hex.choose_spec
    exact ⟨h1, fun x hx => by have := h2 x hx; linarith, h3⟩
  · split at h
    · rename_i hex
      obtain rfl := Except.ok.inj h
      exact hex.choose_spec
    · cases h

theorem lowSolver_complete {K : ℚ} : PriceComplete (lowSolver K) := by
  intro recipes bound hp
  unfold lowSolver
  split
  · exact ⟨_, rfl⟩
  · exact ⟨_, rfl⟩

theorem lowSolver_low {K : ℚ} {recipes : List (List ℕ)} {bound : ℚ} (h : ∃ p, InitialPrices recipes (bound - K) p) {p : List ℚ} (hp : lowSolver K recipes bound = .ok p) :
    ∀ x ∈ p, x ≤ bound - K := by
  unfold lowSolver at hp
  rw [dif_pos h] at hp
  obtain rfl := Except.ok.inj hp
  exact h.choose_spec.2.1

section

variable {f g : List (List ℕ) → ℚ → Py (List ℚ)} {m m' : Market} {struct struct' : List PyObj} {t t' : RecipeTree}

/-- The auction cannot end with a trade if the tree has a single category, with agents. -/
theorem children_of_ok (ht : RecipeTree.init m.numCategories struct = .ok t) (hn : (treeNodes t).Nodup) (hne : m.valueLists.getD t.index [] ≠ [])
    {fuel : ℕ} {trade : TradeWithMultipleRecipes} (hr : auction f m struct fuel = .ok (some trade)) : t.children ≠ .nil := by
  intro h0
  have hto := treeOn_of_init ht hn
  have hlt : t.index < m.numCategories := hto.lt t.index (by simp [treeNodes])
  have hc : m.categories ≠ [] := by
    intro h; simp [Market.numCategories, h] at hlt
  have hnum : (⟨m.sorted⟩ : Market).numCategories = m.numCategories := m.sorted_length
  have hv : valuesAt m.sorted t.index ≠ [] := by
    rw [valuesAt_sorted]
    intro h
    apply hne
    have := congrArg List.length h
    rw [sortDesc_length] at this
    exact List.length_eq_zero_iff.1 this
  have he := tree_single_category_error (i := t.index) hv
  rw [show (⟨t.index, .nil⟩ : RecipeTree) = t by rw [← h0]] at he
  unfold auction at hr
  rw [Market.clone_eq hc] at hr
  simp only [bind, Except.bind, hnum, ht, recipes_of_treeOn hto, he] at hr
  cases hr

theorem sameMarket_same {σ : ℕ → ℕ} {c : ℚ} {b : ℕ → ℚ} (h : SameMarket σ c b m t m' t') (hn : (treeNodes t).Nodup) (hn' : (treeNodes t').Nodup) :
    Same σ c b (valuesAt m.sorted) (valuesAt m'.sorted) t t' := by
  refine ⟨h.pos, fun i hi j hj => h.different i (forest_nodes.1 hi) j (forest_nodes.1 hj), ?_, ?_⟩
  · apply SameTree.shuffled_of_paths
    · rw [SameTree.nodes_rename, treeNodes_eq]
      exact hn.map_on fun i hi j hj => h.different i hi j hj
    · rw [treeNodes_eq]; exact hn'
    · intro q
      rw [SameTree.isPath_rename]
      exact (h.recipes q).symm
  · intro i hi
    rw [valuesAt_sorted, valuesAt_sorted]
    have hp := h.values i (forest_nodes.1 hi)
    rw [eq_of_perm_of_sorted ((sortDesc_perm _).trans (hp.trans (sortDesc_perm _).symm)) (sortDesc_sorted _) (sortDesc_sorted _), sortDesc_map]
    intro x y hxy
    have := h.pos
    nlinarith

/-- **C99**. Two ways to write the same market and recipe tree. If every category of the tree has agents, all of different values, then the auction — with whatever initial prices — ends in the same way
on both: category by category the same agents remain, the prices are converted as the values are, the numbers of deals (`num_of_deals`, `kmin`, `kmax`) are the same, and the gain is multiplied by the
exchange rate `c`. -/
theorem same_market_same_outcome (hf : PriceContract f) (hg : PriceContract g)
    (ht : RecipeTree.init m.numCategories struct = .ok t) (hn : (treeNodes t).Nodup)
    (ht' : RecipeTree.init m'.numCategories struct' = .ok t') (hn' : (treeNodes t').Nodup)
    {σ : ℕ → ℕ} {c : ℚ} {b : ℕ → ℚ} (hsame : SameMarket σ c b m t m' t')
    {V V' : ℚ} (hV : 0 ≤ V) (hb : ∀ l ∈ m.valueLists, ∀ x ∈ l, -V ≤ x ∧ x ≤ V) (hV' : 0 ≤ V') (hb' : ∀ l ∈ m'.valueLists, ∀ x ∈ l, -V' ≤ x ∧ x ≤ V')
    {L : ℕ} (hL : IsGreatest {l | ∃ p, TreePath t p ∧ p.length = l} L) (hM : V * (2 * L - 1) < MAX_VALUE) (hM' : V' * (2 * L - 1) < MAX_VALUE)
    (hdis : ∀ i ∈ treeNodes t, m.valueLists.getD i [] ≠ [] ∧ (m.valueLists.getD i []).Nodup)
    {fuel fuel' : ℕ} {trade trade' : TradeWithMultipleRecipes} (hr : auction f m struct fuel = .ok (some trade)) (hr' : auction g m' struct' fuel' = .ok (some trade')) :
    (∀ i ∈ treeNodes t, (trade'.categories.map AgentCategory.values).getD (σ i) [] = ((trade.categories.map AgentCategory.values).getD i []).map (fun x => c * x + b i)) ∧
      (∀ i ∈ treeNodes t, trade'.prices[σ i]? = trade.prices[i]?.map (fun x => c * x + b i)) ∧
      trade'.numOfDeals = trade.numOfDeals ∧ trade'.kmin = trade.kmin ∧ trade'.kmax = trade.kmax ∧ trade'.gainFromTrade = c * trade.gainFromTrade := by
  have hto := treeOn_of_init ht hn
  have hto' := treeOn_of_init ht' hn'
  have hS := sameMarket_same hsame hn hn'
  have hL' : IsGreatest {l | ∃ p, TreePath t' p ∧ p.length = l} L := by
    obtain ⟨⟨p, hp, hl⟩, hmax⟩ := hL
    refine ⟨⟨p.map σ, (hsame.recipes _).2 ⟨p, hp, rfl⟩, by rw [List.length_map, hl]⟩, ?_⟩
    rintro l ⟨q, hq, rfl⟩
    obtain ⟨p', hp', rfl⟩ := (hsame.recipes q).1 hq
    rw [List.length_map]
    exact hmax ⟨p', hp', rfl⟩
  have hmono : Function.Injective fun x : ℚ => c * x := fun x y e => mul_left_cancel₀ hsame.pos.ne' e
  have hdis' : ∀ j ∈ treeNodes t', m'.valueLists.getD j [] ≠ [] ∧ (m'.valueLists.getD j []).Nodup := by
    intro j hj
    obtain ⟨i, hi, rfl⟩ := hS.node.1 (forest_nodes.2 hj)
    have hi := forest_nodes.1 hi
    have hp := hsame.values i hi
    refine ⟨fun h0 => ?_, ?_⟩
    · rw [h0] at hp
      exact (hdis i hi).1 (List.map_eq_nil_iff.1 hp.nil_eq.symm)
    · rw [hp.nodup_iff]
      exact (hdis i hi).2.map fun x y e => hmono (add_right_cancel e)
  obtain ⟨hset, hvb⟩ := setting_of hto hV hb hL hM hdis
  obtain ⟨hset', hvb'⟩ := setting_of hto' hV' hb' hL' hM' hdis'
  have bound : ∀ {W : ℚ} {n : Market}, W < MAX_VALUE → (∀ i, ∀ x ∈ valuesAt n.sorted i, -W ≤ x ∧ x ≤ W) →
      ∀ i, ∀ x ∈ valuesAt n.sorted i, -MAX_VALUE < x ∧ x ≤ MAX_VALUE := by
    intro W n hW h i x hx
    have := h i x hx
    exact ⟨by linarith, by linarith⟩
  have hvM := bound hset.lt.1 hvb
  have hvM' := bound hset'.lt.1 hvb'
  have hnd : ∀ i ∈ treeNodes t, (valuesAt m.sorted i).Nodup := fun i hi => hset.small.nodup i (forest_nodes.2 hi)
  have hnd' : ∀ i ∈ treeNodes t', (valuesAt m'.sorted i).Nodup := fun i hi => hset'.small.nodup i (forest_nodes.2 hi)
  -- a third run, on the first market, that starts low enough
  obtain ⟨K, hK, hKlow⟩ : ∃ K : ℚ, 0 ≤ K ∧ ∀ i ∈ treeNodes t, ∀ x : ℚ, x ≤ -MAX_VALUE - K → c * x + b i ≤ -MAX_VALUE := by
    have hc := hsame.pos
    refine ⟨c⁻¹ * (MAX_VALUE + ((treeNodes t).map fun i => |b i|).sum), mul_nonneg (inv_nonneg.2 hc.le) (add_nonneg max_value_pos.le ?_), ?_⟩
    · apply List.sum_nonneg
      intro x hx
      obtain ⟨i, -, rfl⟩ := List.mem_map.1 hx
      exact abs_nonneg _
    · intro i hi x hx
      have h1 : |b i| ≤ ((treeNodes t).map fun i => |b i|).sum := by
        apply List.single_le_sum
        · intro x hx
          obtain ⟨i, -, rfl⟩ := List.mem_map.1 hx
          exact abs_nonneg _
        · exact List.mem_map_of_mem hi
      have h2 := mul_le_mul_of_nonneg_left hx hc.le
      have h3 : c * (-MAX_VALUE - c⁻¹ * (MAX_VALUE + ((treeNodes t).map fun i => |b i|).sum)) = -(c * MAX_VALUE) - (MAX_VALUE + ((treeNodes t).map fun i => |b i|).sum) := by
        rw [mul_sub, mul_inv_cancel_left₀ hc.ne']; ring
      have h4 := mul_pos hc max_value_pos
      have h5 := le_abs_self (b i)
      linarith
  obtain ⟨low, hlow⟩ := tree_auction_terminates_distinct (lowSolver_contract hK) (lowSolver_complete (K := K)) ht hn
    (children_of_ok ht hn (hdis t.index (by simp [treeNodes])).1 hr) hV hb hL hM hdis (Nat.lt_succ_self _)
  obtain ⟨p, s, r, p0, hc, hbal, -, -, -, -, hp0, hplen, rfl⟩ := StartPrices.auction_chain' (lowSolver_contract hK) ht hn hnd hvM hlow
  obtain ⟨hcats, hprices, hd1, hd2, hd3, hd4⟩ := initial_prices_do_not_matter (lowSolver_contract hK) hf ht hn hV hb hL hM hdis hlow hr
  have hpl : ∀ i ∈ treeNodes t, p0.getD i 0 ≤ -MAX_VALUE - K := by
    intro i hi
    have hlt := hto.lt i hi
    refine lowSolver_low ?_ hp0 _ ?_
    · have := initialPrices_exist hto (b := MAX_VALUE + K) (by have := max_value_pos; linarith)
      rwa [neg_add'] at this
    · rw [List.getD_eq_getElem?_getD, List.getElem?_eq_getElem (by omega)]
      exact List.getElem_mem (by omega)
  -- converted, it is a run on the second market
  obtain ⟨τ, hτ, -⟩ := hS.symm
  have hP : Prices σ c b t (fun i => p0.getD i 0) (fun j => c * p0.getD (τ j) 0 + b (τ j)) := by
    intro i hi
    simp only [hτ i hi]
  obtain ⟨fv', fp', hc2, hfp, hfv⟩ := hS.chain hc hP
  obtain ⟨q, u, w, hc', hbal', hle', hnm', hlen', he'⟩ := StartPrices.auction_chain hg ht' hn' hnd' hvM' hr'
  obtain ⟨-, -, -, -, -, -, -, hlen, he⟩ := StartPrices.auction_chain hf ht hn hnd hvM hr
  have key := StartPrices.chain_unique hset' hc2 hc' (hS.bal hsame.cancel hP hbal) hbal' ?_ (fun j hj => hle' j (hto'.lt j (forest_nodes.1 hj)))
  swap
  · intro j hj
    obtain ⟨i, hi, rfl⟩ := hS.node.1 hj
    simp only [hτ i hi]
    exact hKlow i (forest_nodes.1 hi) _ (hpl i (forest_nodes.1 hi))
  have hmem : ∀ i ∈ nodes t.forest, σ i ∈ nodes t'.forest := fun i hi => hS.node.2 ⟨i, hi, rfl⟩
  have hvals : ∀ i ∈ nodes t.forest, valuesAt trade'.categories (σ i) = (valuesAt trade.categories i).map (fun x => c * x + b i) := by
    intro i hi
    rw [← (key _ (hmem i hi)).1, hfv i hi, hcats]
  have hsame2 : Same σ c b (valuesAt trade.categories) (valuesAt trade'.categories) t t' := ⟨hS.pos, hS.inj, hS.tree, hvals⟩
  have hexp : t'.numOfDealsExplained (sizeAt trade'.categories) = t.numOfDealsExplained (sizeAt trade.categories) := by
    apply hsame2.explained
    intro i hi
    rw [sizeAt_eq, sizeAt_eq, hvals i hi, List.length_map]
  have sorted : ∀ {n : Market} {vals fv : ℕ → List ℚ} {t : RecipeTree} {p fp : ℕ → ℚ} {s r : ℚ}, (∀ i, SortedDesc (vals i)) → StartPrices.Chain vals t p s fv fp r → ∀ i, SortedDesc (fv i) := by
    intro n vals fv t p fp s r h hch
    induction hch with
    | empty _ _ => exact fun i => (h i).filter _
    | zero _ _ _ _ => exact fun i => (h i).filter _
    | step _ _ _ _ _ ih => exact ih
  have hsd : ∀ (n : Market) i, SortedDesc (valuesAt n.sorted i) := by
    intro n i
    rw [valuesAt_sorted]; exact sortDesc_sorted _
  obtain ⟨_, _, _, hcr, -⟩ := StartPrices.auction_chain hf ht hn hnd hvM hr
  have hgain := hsame2.gain hn hn' hsame.cancel (fun i _ => sorted (n := m) (hsd m) hcr i) (fun i _ => sorted (n := m') (hsd m') hc' i)
  refine ⟨?_, ?_, ?_, ?_, ?_, ?_⟩
  · intro i hi
    have := hvals i (forest_nodes.2 hi)
    rwa [← vAt_valuesAt, ← vAt_valuesAt] at this
  · intro i hi
    have h1 := hfp i (forest_nodes.2 hi)
    have h2 := (key _ (hmem i (forest_nodes.2 hi))).2
    have h3 := hto.lt i hi
    have h4 := hto'.lt (σ i) (forest_nodes.1 (hmem i (forest_nodes.2 hi)))
    have h5 := hprices i hi
    rw [h1] at h2
    simp only [List.getD_eq_getElem?_getD] at h2
    rw [← h5] at h2
    rw [List.getElem?_eq_getElem (show i < trade.prices.length by omega), List.getElem?_eq_getElem (show σ i < trade'.prices.length by omega)] at h2 ⊢
    simpa using h2.symm
  · rw [he, he']; simp only [TradeWithMultipleRecipes.init, hexp]
  · rw [he, he']; simp only [TradeWithMultipleRecipes.init, hexp]
  · rw [he, he']; simp only [TradeWithMultipleRecipes.init, hexp]
  · rw [he, he']; simp only [TradeWithMultipleRecipes.init, hgain]

/-- **C99**, another currency and fees that cancel out in every recipe (compare C89 for the protocols with a single recipe). -/
theorem units_tree_auction (hf : PriceContract f) (hg : PriceContract g) (ht : RecipeTree.init m.numCategories struct = .ok t) (hn : (treeNodes t).Nodup)
    {c : ℚ} {b : ℕ → ℚ} (hc : 0 < c) (hcancel : ∀ p, TreePath t p → (p.map b).sum = 0)
    {V V' : ℚ} (hV : 0 ≤ V) (hb : ∀ l ∈ m.valueLists, ∀ x ∈ l, -V ≤ x ∧ x ≤ V) (hV' : 0 ≤ V') (hb' : ∀ l ∈ (inUnits c b m).valueLists, ∀ x ∈ l, -V' ≤ x ∧ x ≤ V')
    {L : ℕ} (hL : IsGreatest {l | ∃ p, TreePath t p ∧ p.length = l} L) (hM : V * (2 * L - 1) < MAX_VALUE) (hM' : V' * (2 * L - 1) < MAX_VALUE)
    (hdis : ∀ i ∈ treeNodes t, m.valueLists.getD i [] ≠ [] ∧ (m.valueLists.getD i []).Nodup)
    {fuel fuel' : ℕ} {trade trade' : TradeWithMultipleRecipes} (hr : auction f m struct fuel = .ok (some trade)) (hr' : auction g (inUnits c b m) struct fuel' = .ok (some trade')) :
    (∀ i ∈ treeNodes t, (trade'.categories.map AgentCategory.values).getD i [] = ((trade.categories.map AgentCategory.values).getD i []).map (fun x => c * x + b i)) ∧
      (∀ i ∈ treeNodes t, trade'.prices[i]? = trade.prices[i]?.map (fun x => c * x + b i)) ∧
      trade'.numOfDeals = trade.numOfDeals ∧ trade'.kmin = trade.kmin ∧ trade'.kmax = trade.kmax ∧ trade'.gainFromTrade = c * trade.gainFromTrade := by
  have hs : SameMarket id c b m t (inUnits c b m) t := by
    refine ⟨hc, fun i _ j _ e => e, fun q => ⟨fun h => ⟨q, h, by simp⟩, ?_⟩, hcancel, fun i _ => ?_⟩
    · rintro ⟨p, hp, rfl⟩; simpa using hp
    · have : (inUnits c b m).valueLists.getD (id i) [] = (m.valueLists.getD i []).map (fun x => c * x + b i) := by
        simp only [id, Market.valueLists, inUnits, changed, List.getD_eq_getElem?_getD, List.getElem?_map, List.getElem?_mapIdx]
        cases m.categories[i]? <;> simp
      rw [this]
  exact same_market_same_outcome hf hg ht hn (by rw [inUnits_num]; exact ht) hn hs hV hb hV' hb' hL hM hM' hdis hr hr'

/-- **C99**, the numbers of the categories and the order in which the recipe tree lists the alternatives (compare C85 for the protocols with a single recipe). Both auctions use the same
solver, which sees the recipes in another order. -/
theorem tree_auction_reordered (hf : PriceContract f) (ht : RecipeTree.init m.numCategories struct = .ok t) (hn : (treeNodes t).Nodup)
    (ht' : RecipeTree.init m'.numCategories struct' = .ok t') (hn' : (treeNodes t').Nodup)
    {σ : ℕ → ℕ} (hσ : ∀ i ∈ treeNodes t, ∀ j ∈ treeNodes t, σ i = σ j → i = j) (hpaths : ∀ q, TreePath t' q ↔ ∃ p, TreePath t p ∧ q = p.map σ)
    (hvalues : ∀ i ∈ treeNodes t, (m'.valueLists.getD (σ i) []).Perm (m.valueLists.getD i []))
    {V : ℚ} (hV : 0 ≤ V) (hb : ∀ l ∈ m.valueLists, ∀ x ∈ l, -V ≤ x ∧ x ≤ V) (hb' : ∀ l ∈ m'.valueLists, ∀ x ∈ l, -V ≤ x ∧ x ≤ V)
    {L : ℕ} (hL : IsGreatest {l | ∃ p, TreePath t p ∧ p.length = l} L) (hM : V * (2 * L - 1) < MAX_VALUE)
    (hdis : ∀ i ∈ treeNodes t, m.valueLists.getD i [] ≠ [] ∧ (m.valueLists.getD i []).Nodup)
    {fuel fuel' : ℕ} {trade trade' : TradeWithMultipleRecipes} (hr : auction f m struct fuel = .ok (some trade)) (hr' : auction f m' struct' fuel' = .ok (some trade')) :
    (∀ i ∈ treeNodes t, (trade'.categories.map AgentCategory.values).getD (σ i) [] = (trade.categories.map AgentCategory.values).getD i []) ∧
      (∀ i ∈ treeNodes t, trade'.prices[σ i]? = trade.prices[i]?) ∧
      trade'.numOfDeals = trade.numOfDeals ∧ trade'.kmin = trade.kmin ∧ trade'.kmax = trade.kmax ∧ trade'.gainFromTrade = trade.gainFromTrade := by
  have hs : SameMarket σ 1 (fun _ => 0) m t m' t' := by
    refine ⟨one_pos, hσ, hpaths, fun p _ => by simp, fun i hi => ?_⟩
    simpa using hvalues i hi
  have := same_market_same_outcome hf hf ht hn ht' hn' hs hV hb hV hb' hL hM hM hdis hr hr'
  simpa using this

end

/-- Non-vacuity of C99: the tree `[0, [1, [2, None], 3, [4, [5, None]]]]` of C98; and, written differently, `[5, [2, [1, [0, None]], 4, [3, None]]]`, in dollars (a value is 3 times as large), and with
an amount of 7 from each agent of category 0 to each agent of the categories 1 and 4. -/
example :
    let m : Market := ⟨[⟨"0", [97, 70, 42]⟩, ⟨"1", [-41, -1]⟩, ⟨"2", [-50, -15]⟩, ⟨"3", [-13, -4]⟩, ⟨"4", [-7, -8]⟩, ⟨"5", [-13, -2]⟩]⟩
    let m' : Market := ⟨[⟨"e", [-6, -39]⟩, ⟨"d", [-17, -14]⟩, ⟨"c", [-39, -12]⟩, ⟨"b", [-150, -45]⟩, ⟨"a", [4, -116]⟩, ⟨"f", [284, 119, 203]⟩]⟩
    let t : RecipeTree := ⟨0, .cons 1 (.cons 2 .nil .nil) (.cons 3 (.cons 4 (.cons 5 .nil .nil) .nil) .nil)⟩
    let t' : RecipeTree := ⟨5, .cons 2 (.cons 1 (.cons 0 .nil .nil) .nil) (.cons 4 (.cons 3 .nil .nil) .nil)⟩
    let struct' : List PyObj := [.int 5, .list [.int 2, .list [.int 1, .list [.int 0, .none]], .int 4, .list [.int 3, .none]]]
    RecipeTree.init m.numCategories twoBranches = .ok t ∧ RecipeTree.init m'.numCategories struct' = .ok t' ∧ (treeNodes t).Nodup ∧ (treeNodes t').Nodup ∧
    (∀ l ∈ m.valueLists, ∀ x ∈ l, -97 ≤ x ∧ x ≤ 97) ∧ (∀ l ∈ m'.valueLists, ∀ x ∈ l, -300 ≤ x ∧ x ≤ 300) ∧ (97 : ℚ) * (2 * (4 : ℕ) - 1) < MAX_VALUE ∧ (300 : ℚ) * (2 * (4 : ℕ) - 1) < MAX_VALUE ∧
    (∀ i ∈ treeNodes t, m.valueLists.getD i [] ≠ [] ∧ (m.valueLists.getD i []).Nodup) ∧
    SameMarket (fun i => [5, 4, 3, 2, 1, 0].getD i 0) 3 (fun i => [-7, 7, 0, 0, 7, 0].getD i 0) m t m' t' ∧
    (auction (fixedSolver bestPrices1) m twoBranches 30).map (fun o => o.map fun t => (t.numOfDeals, t.gainFromTrade, t.prices)) = .ok (some (1, 84, [34, -19, -15, -13, -8, -13])) ∧
    (auction (fixedSolver [-100000000, -100000000, -100000000, -150000000, -150000000, -100000000]) m' struct' 30).map (fun o => o.map fun t => (t.numOfDeals, t.gainFromTrade, t.prices)) =
      .ok (some (1, 252, [-39, -17, -39, -45, -50, 95])) := by
  refine ⟨by decide +kernel, by decide +kernel, by decide, by decide, by decide +kernel, by decide +kernel, by decide +kernel, by decide +kernel, by decide +kernel, ?_, by decide +kernel, by decide +kernel⟩
  refine ⟨by norm_num, by decide, ?_, ?_, by decide +kernel⟩
  · intro q
    rw [← mem_paths]
    have e1 : (⟨5, .cons 2 (.cons 1 (.cons 0 .nil .nil) .nil) (.cons 4 (.cons 3 .nil .nil) .nil)⟩ : RecipeTree).pathsToLeaf = [[5, 2, 1, 0], [5, 4, 3]] := by decide
    have e2 : (⟨0, .cons 1 (.cons 2 .nil .nil) (.cons 3 (.cons 4 (.cons 5 .nil .nil) .nil) .nil)⟩ : RecipeTree).pathsToLeaf = [[0, 1, 2], [0, 3, 4, 5]] := by decide
    rw [e1]
    simp only [← mem_paths, e2, List.mem_cons, List.not_mem_nil, or_false, exists_eq_or_imp, exists_eq_left]
    exact or_comm
  · intro p hp
    have e2 : (⟨0, .cons 1 (.cons 2 .nil .nil) (.cons 3 (.cons 4 (.cons 5 .nil .nil) .nil) .nil)⟩ : RecipeTree).pathsToLeaf = [[0, 1, 2], [0, 3, 4, 5]] := by decide
    rw [← mem_paths, e2, List.mem_cons, List.mem_singleton] at hp
    rcases hp with rfl | rfl <;> decide +kernel

end Auctions.Props
