import Verif.Proofs.StartPricesRun
import Verif.Props.TreeTermination

set_option autoImplicit false

/-!
# C98 — the initial prices of the recipe-tree auction

The auction starts at prices computed by the linear-programming solver of `scipy`, and the linear program often has many solutions. Without ties and without empty categories
it makes no difference which solution is returned, nor whether it is the best one. With a tie, or with an empty category, it can make a difference.
-/

namespace Auctions.Props

open Auctions Spec TreeAuction

theorem valuesAt_getD (m : Market) (i : ℕ) (h : i < m.numCategories) : m.valueLists.getD i [] ∈ m.valueLists := by
  have : i < m.valueLists.length := by simpa [Market.valueLists, Market.numCategories] using h
  rw [List.getD_eq_getElem?_getD, List.getElem?_eq_getElem this]; exact List.getElem_mem this

theorem setting_of {m : Market} {t : RecipeTree} (hto : TreeOn t m.numCategories) {V : ℚ} (hV : 0 ≤ V)
    (hb : ∀ l ∈ m.valueLists, ∀ x ∈ l, -V ≤ x ∧ x ≤ V) {L : ℕ} (hL : IsGreatest {l | ∃ p, TreePath t p ∧ p.length = l} L) (hM : V * (2 * L - 1) < MAX_VALUE)
    (hdis : ∀ i ∈ treeNodes t, m.valueLists.getD i [] ≠ [] ∧ (m.valueLists.getD i []).Nodup) :
    StartPrices.Setting (valuesAt m.sorted) t MAX_VALUE V ∧ ∀ i, ∀ x ∈ valuesAt m.sorted i, -V ≤ x ∧ x ≤ V := by
  have hLh : L = height t.forest := by
    apply le_antisymm
    · obtain ⟨p, hp, hl⟩ := hL.1
      rw [← hl]; exact isPath_length_le hp
    · obtain ⟨q, hq, hl⟩ := exists_longest (f := t.forest) (by simp [RecipeTree.forest])
      exact hL.2 ⟨q, hq, hl⟩
  subst hLh
  have hb' : ∀ i, ∀ x ∈ valuesAt m.sorted i, -V ≤ x ∧ x ≤ V := by
    intro i x hx
    by_cases hi : i < m.numCategories
    · rw [valuesAt_sorted, mem_sortDesc] at hx
      exact hb _ (valuesAt_getD m i hi) x hx
    · rw [valuesAt_ge (by rw [m.sorted_length]; omega)] at hx; simp at hx
  refine ⟨⟨?_, ⟨hV, ?_, ?_, fun i _ => hb' i⟩, hM⟩, hb'⟩
  · have := hto.nodup
    rwa [treeNodes, show t.index :: nodes t.children = nodes t.forest by simp [RecipeTree.forest, nodes]] at this
  · intro i hi h0
    apply (hdis i (forest_nodes.1 hi)).1
    rw [valuesAt_sorted] at h0
    exact List.length_eq_zero_iff.1 (by rw [← sortDesc_length, h0]; rfl)
  · intro i hi
    rw [valuesAt_sorted]
    exact (sortDesc_perm _).nodup_iff.2 (hdis i (forest_nodes.1 hi)).2

section

variable {f g : List (List ℕ) → ℚ → Py (List ℚ)} {m : Market} {struct : List PyObj} {t : RecipeTree}

/-- **C98**. If every category of the tree has agents, all of different values, then the outcome of the auction does not depend on the initial prices: with any two solvers that meet the
documented conditions (balanced prices, below the bound) the same agents remain, the same numbers of deals and the same gain are reported, and the prices of all categories of the
tree are the same. -/
theorem initial_prices_do_not_matter (hf : PriceContract f) (hg : PriceContract g)
    (ht : RecipeTree.init m.numCategories struct = .ok t) (hn : (treeNodes t).Nodup)
    {V : ℚ} (hV : 0 ≤ V) (hb : ∀ l ∈ m.valueLists, ∀ x ∈ l, -V ≤ x ∧ x ≤ V)
    {L : ℕ} (hL : IsGreatest {l | ∃ p, TreePath t p ∧ p.length = l} L) (hM : V * (2 * L - 1) < MAX_VALUE)
    (hdis : ∀ i ∈ treeNodes t, m.valueLists.getD i [] ≠ [] ∧ (m.valueLists.getD i []).Nodup)
    {fuel fuel' : ℕ} {trade trade' : TradeWithMultipleRecipes} (hr : auction f m struct fuel = .ok (some trade)) (hr' : auction g m struct fuel' = .ok (some trade')) :
    trade'.categories = trade.categories ∧ (∀ i ∈ treeNodes t, trade'.prices[i]? = trade.prices[i]?) ∧ trade'.numOfDeals = trade.numOfDeals ∧
      trade'.kmin = trade.kmin ∧ trade'.kmax = trade.kmax ∧ trade'.gainFromTrade = trade.gainFromTrade := by
  have hto := treeOn_of_init ht hn
  obtain ⟨hset, hb'⟩ := setting_of hto hV hb hL hM hdis
  have hVM := hset.lt.1
  have hb'' : ∀ i, ∀ x ∈ valuesAt m.sorted i, -MAX_VALUE < x ∧ x ≤ MAX_VALUE := by
    intro i x hx
    have := hb' i x hx
    exact ⟨by linarith, by linarith⟩
  have hnd : ∀ i ∈ treeNodes t, (valuesAt m.sorted i).Nodup := fun i hi => hset.small.nodup i (forest_nodes.2 hi)
  obtain ⟨p, s, r, hc, hbal, hle, hnm, hlen, he⟩ := StartPrices.auction_chain hf ht hn hnd hb'' hr
  obtain ⟨p', s', r', hc', hbal', hle', hnm', hlen', he'⟩ := StartPrices.auction_chain hg ht hn hnd hb'' hr'
  have hlt : ∀ i ∈ nodes t.forest, i < m.numCategories := fun i hi => hto.lt i (forest_nodes.1 hi)
  have key := StartPrices.chain_unique hset hc hc' hbal hbal' (fun i hi => hle i (hlt i hi)) (fun i hi => hle' i (hlt i hi))
  have hcats : trade'.categories = trade.categories := by
    refine StartPrices.cats_ext (by rw [hnm, hnm']) fun i => ?_
    by_cases hi : i ∈ nodes t.forest
    · exact (key i hi).1.symm
    · rw [(StartPrices.chain_out hc' hi).2, (StartPrices.chain_out hc hi).2]
      by_cases hin : i < m.numCategories
      · have hall : ∀ q : ℚ, q ≤ -MAX_VALUE → (valuesAt m.sorted i).filter (q < ·) = valuesAt m.sorted i := by
          intro q hq
          rw [List.filter_eq_self]
          intro x hx
          rw [decide_eq_true_eq]
          have := (hb'' i x hx).1
          linarith
        rw [hall _ (hle i hin), hall _ (hle' i hin)]
      · rw [valuesAt_ge (by rw [m.sorted_length]; omega)]; rfl
  refine ⟨hcats, fun i hi => ?_, ?_, ?_, ?_, ?_⟩
  · have h1 := (key i (forest_nodes.2 hi)).2
    have h2 := hto.lt i hi
    simpa [List.getD_eq_getElem?_getD, List.getElem?_eq_getElem (show i < trade.prices.length by omega),
      List.getElem?_eq_getElem (show i < trade'.prices.length by omega), eq_comm] using h1
  all_goals
    rw [he, he']
    simp only [TradeWithMultipleRecipes.init, hcats]

/-- **C98**, together with termination (C37): with any two such solvers that find prices when there are any, both auctions end, with the same outcome. -/
theorem initial_prices_do_not_matter_total (hf : PriceContract f) (hfc : PriceComplete f) (hg : PriceContract g) (hgc : PriceComplete g)
    (ht : RecipeTree.init m.numCategories struct = .ok t) (hn : (treeNodes t).Nodup) (hch : t.children ≠ .nil)
    {V : ℚ} (hV : 0 ≤ V) (hb : ∀ l ∈ m.valueLists, ∀ x ∈ l, -V ≤ x ∧ x ≤ V)
    {L : ℕ} (hL : IsGreatest {l | ∃ p, TreePath t p ∧ p.length = l} L) (hM : V * (2 * L - 1) < MAX_VALUE)
    (hdis : ∀ i ∈ treeNodes t, m.valueLists.getD i [] ≠ [] ∧ (m.valueLists.getD i []).Nodup)
    {fuel : ℕ} (hfuel : (m.valueLists.map List.length).sum < fuel) :
    ∃ trade trade', auction f m struct fuel = .ok (some trade) ∧ auction g m struct fuel = .ok (some trade') ∧
      trade'.categories = trade.categories ∧ (∀ i ∈ treeNodes t, trade'.prices[i]? = trade.prices[i]?) ∧ trade'.numOfDeals = trade.numOfDeals ∧
      trade'.kmin = trade.kmin ∧ trade'.kmax = trade.kmax ∧ trade'.gainFromTrade = trade.gainFromTrade := by
  obtain ⟨trade, h1⟩ := tree_auction_terminates_distinct hf hfc ht hn hch hV hb hL hM hdis hfuel
  obtain ⟨trade', h2⟩ := tree_auction_terminates_distinct hg hgc ht hn hch hV hb hL hM hdis hfuel
  exact ⟨trade, trade', h1, h2, initial_prices_do_not_matter hf hg ht hn hV hb hL hM hdis h1 h2⟩

end

/-- The tree `[0, [1, [2, None], 3, [4, [5, None]]]]`. -/
def twoBranches : List PyObj := [.int 0, .list [.int 1, .list [.int 2, .none], .int 3, .list [.int 4, .list [.int 5, .none]]]]

/-- Two of the best solutions of the linear program for this tree. -/
def bestPrices1 : List ℚ := [-100000000, -100000000, -200000000, -100000000, -100000000, -100000000]

/-- The other one. -/
def bestPrices2 : List ℚ := [-100000000, -200000000, -100000000, -100000000, -100000000, -100000000]

theorem bestPrices_solve {p : List ℚ} (hp : p = bestPrices1 ∨ p = bestPrices2) : SolvesAt (fixedSolver p) [[1, 1, 1, 0, 0, 0], [1, 0, 0, 1, 1, 1]] (-MAX_VALUE) := by
  have hok : fixedSolver p [[1, 1, 1, 0, 0, 0], [1, 0, 0, 1, 1, 1]] (-MAX_VALUE) = .ok p := by
    rcases hp with rfl | rfl <;> decide +kernel
  refine ⟨p, hok, fixedSolver_contract p _ _ _ hok, ?_⟩
  rintro q ⟨h1, h2, s, h3⟩ r hr
  have hl := h1 [1, 1, 1, 0, 0, 0] (by simp)
  match q, hl with
  | [a, b, c, d, e, k], _ =>
    have e1 := h3 [1, 1, 1, 0, 0, 0] (by simp)
    have e2 := h3 [1, 0, 0, 1, 1, 1] (by simp)
    have ha := h2 a (by simp)
    have hd := h2 d (by simp)
    have he := h2 e (by simp)
    have hk := h2 k (by simp)
    simp only [List.mem_cons, List.not_mem_nil, or_false] at hr
    simp [recipeSum] at e1 e2
    norm_num [MAX_VALUE] at ha hd he hk
    rcases hp with rfl | rfl <;> rcases hr with rfl | rfl <;> simp [recipeSum, bestPrices1, bestPrices2] <;> linarith

/-- **C98**, a tie: the market has two agents of the same value in category 4. Both solvers return a best solution of the linear program; with the first the auction makes a deal with
the gain 73, with the second it makes none. -/
theorem initial_prices_matter_ties :
    let m : Market := ⟨[⟨"0", [89, 70, 42]⟩, ⟨"1", [-41, -1]⟩, ⟨"2", [-50, -15]⟩, ⟨"3", [-13]⟩, ⟨"4", [-7, -7]⟩, ⟨"5", [-13]⟩]⟩
    SolvesAt (fixedSolver bestPrices1) [[1, 1, 1, 0, 0, 0], [1, 0, 0, 1, 1, 1]] (-MAX_VALUE) ∧
    SolvesAt (fixedSolver bestPrices2) [[1, 1, 1, 0, 0, 0], [1, 0, 0, 1, 1, 1]] (-MAX_VALUE) ∧
    (auction (fixedSolver bestPrices1) m twoBranches 30).map (fun o => o.map fun t => (t.numOfDeals, t.gainFromTrade)) = .ok (some (1, 73)) ∧
    (auction (fixedSolver bestPrices2) m twoBranches 30).map (fun o => o.map fun t => (t.numOfDeals, t.gainFromTrade)) = .ok (some (0, 0)) :=
  ⟨bestPrices_solve (Or.inl rfl), bestPrices_solve (Or.inr rfl), by decide +kernel, by decide +kernel⟩

/-- **C98**, an empty category: with the first of these solvers the auction never ends, with the second it ends (without a deal). -/
theorem initial_prices_matter_empty :
    let m : Market := ⟨[⟨"0", [40, 30, 20]⟩, ⟨"1", [-8]⟩, ⟨"2", []⟩, ⟨"3", [-2]⟩, ⟨"4", [-3]⟩, ⟨"5", [-4]⟩]⟩
    (∀ fuel, auction (fixedSolver bestPrices1) m twoBranches fuel = .ok none) ∧
    (auction (fixedSolver bestPrices2) m twoBranches 30).map (fun o => o.map fun t => (t.numOfDeals, t.gainFromTrade)) = .ok (some (0, 0)) := by
  intro m
  refine ⟨fun fuel => ?_, by decide +kernel⟩
  have e : RecipeTree.init m.numCategories twoBranches = .ok ⟨0, .cons 1 (.cons 2 .nil .nil) (.cons 3 (.cons 4 (.cons 5 .nil .nil) .nil) .nil)⟩ := by decide +kernel
  have ho : (⟨0, .cons 1 (.cons 2 .nil .nil) (.cons 3 (.cons 4 (.cons 5 .nil .nil) .nil) .nil)⟩ : RecipeTree).optimalTrade (valuesAt m.sorted)
      = .ok ([[40, -2, -3, -4]], 1, 31) := by decide +kernel
  have hp : fixedSolver bestPrices1 ((⟨0, .cons 1 (.cons 2 .nil .nil) (.cons 3 (.cons 4 (.cons 5 .nil .nil) .nil) .nil)⟩ : RecipeTree).pathsToLeaf.map
      (indicator m.numCategories)) (-MAX_VALUE) = .ok bestPrices1 := by decide +kernel
  rw [auction_eq fuel (by simp [m]) e (by decide) ho hp]
  rw [diverges (w := (_, _)) (w' := ([⟨"0", [40]⟩, ⟨"1", []⟩, ⟨"2", []⟩, ⟨"3", [-2]⟩, ⟨"4", []⟩, ⟨"5", []⟩],
    ⟨[[1, 1, 1, 0, 0, 0], [1, 0, 0, 1, 1, 1]], [30, 100000000, -200000000, -99999993, -3, -4], some .stoppedAtAgentValue⟩)) 6
    (by decide +kernel) (by decide +kernel) fuel]

/-- Non-vacuity of C98: a market without ties on this tree, and its outcome with both solvers. -/
example :
    let m : Market := ⟨[⟨"0", [97, 70, 42]⟩, ⟨"1", [-41, -1]⟩, ⟨"2", [-50, -15]⟩, ⟨"3", [-13, -4]⟩, ⟨"4", [-7, -8]⟩, ⟨"5", [-13, -2]⟩]⟩
    let t : RecipeTree := ⟨0, .cons 1 (.cons 2 .nil .nil) (.cons 3 (.cons 4 (.cons 5 .nil .nil) .nil) .nil)⟩
    RecipeTree.init m.numCategories twoBranches = .ok t ∧ (treeNodes t).Nodup ∧
    (∀ l ∈ m.valueLists, ∀ x ∈ l, -97 ≤ x ∧ x ≤ 97) ∧ (97 : ℚ) * (2 * (4 : ℕ) - 1) < MAX_VALUE ∧
    (∀ i ∈ treeNodes t, m.valueLists.getD i [] ≠ [] ∧ (m.valueLists.getD i []).Nodup) ∧
    bestPrices1 ≠ bestPrices2 ∧
    (auction (fixedSolver bestPrices1) m twoBranches 30).map (fun o => o.map fun t => (t.numOfDeals, t.gainFromTrade, t.prices)) = .ok (some (1, 84, [34, -19, -15, -13, -8, -13])) ∧
    (auction (fixedSolver bestPrices2) m twoBranches 30).map (fun o => o.map fun t => (t.numOfDeals, t.gainFromTrade, t.prices)) = .ok (some (1, 84, [34, -19, -15, -13, -8, -13])) := by
  refine ⟨by decide +kernel, by decide, by decide +kernel, by decide +kernel, by decide +kernel, by decide +kernel, by decide +kernel, by decide +kernel⟩

example : IsGreatest {l | ∃ p, TreePath ⟨0, .cons 1 (.cons 2 .nil .nil) (.cons 3 (.cons 4 (.cons 5 .nil .nil) .nil) .nil)⟩ p ∧ p.length = l} 4 := by
  refine ⟨⟨[0, 3, 4, 5], ⟨[0, 1, 0, 0], .down (.next (.down (.down (.leaf 5 .nil))))⟩, rfl⟩, ?_⟩
  rintro l ⟨p, hp, rfl⟩
  exact isPath_length_le hp

end Auctions.Props
