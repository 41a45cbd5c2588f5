import Verif.Proofs.Reports
import Verif.Props.TreeAuction

set_option autoImplicit false

/-! # C62 — the text that describes the outcome of an auction can be followed -/

namespace Auctions.Props

open Auctions Spec TreeAuction

/-- **C62**. `num_of_deals_explained` of a tree whose categories all have a price succeeds, with the number of deals, `kmin` and `kmax` of the same
method (see C32); its last line announces the number of deals, and the others show the price of every category exactly once. Someone who follows the other lines, in any way that they allow, always can go on, and
ends with that many deals, each with one agent of every category on a path from the root to a leaf, and no agent is used twice. -/
theorem tree_explanation_can_be_followed {t : RecipeTree} {vals : ℕ → List ℚ} {prices : List ℚ} (hn : (treeNodes t).Nodup)
    (hp : ∀ i ∈ treeNodes t, i < prices.length) :
    ∃ lines : List Line,
      t.explained (fun i => (vals i).length) prices
        = .ok (t.numOfDeals (fun i => (vals i).length), lines ++ [.overall (t.numOfDeals (fun i => (vals i).length))],
          (t.numOfDealsExplained (fun i => (vals i).length)).2) ∧
      (lines.filterMap shownPrice).Perm ((treeNodes t).map (fun i => (i, prices.getD i 0))) ∧
      ∀ s, Always vals (fun s' => FeasibleDeals t vals (s'.pool t.index) ∧
        (s'.pool t.index).length = t.numOfDeals (fun i => (vals i).length)) lines s := by
  have hn' : (nodes t.forest).Nodup := by rw [treeNodes_eq]; exact hn
  obtain ⟨es, h1, h2, h3⟩ := explained_ok (size := fun i => (vals i).length) (f := t.forest) (prices := prices)
    (by rw [treeNodes_eq]; exact hp)
  have hlen : t.forest.numOfDealsExplained (fun i => (vals i).length) = [t.numOfDealsExplained (fun i => (vals i).length)] := by
    rw [RecipeTree.numOfDealsExplained, RecipeTree.forest, numOfDealsExplained_cons]; rfl
  rw [hlen] at h2
  obtain ⟨e, rfl⟩ : ∃ e, es = [e] := List.length_eq_one_iff.1 (by have := congrArg List.length h2; simpa using this)
  · simp only [List.map_cons, List.map_nil, List.cons.injEq, and_true] at h2
    have hk : e.1 = t.numOfDeals (fun i => (vals i).length) := by
      rw [← tree_num_of_deals_explained, ← h2]
    refine ⟨e.2.1, ?_, ?_, fun s => ?_⟩
    · unfold RecipeTree.explained
      rw [h1]
      simp only [bind, Except.bind, ← hk, ← h2]
    · simp only [List.map_cons, List.map_nil, List.flatten_cons, List.flatten_nil, List.append_nil] at h3
      rw [h3, ← treeNodes_eq]
      exact shown_perm _ _ _
    · simp only [List.map_cons, List.map_nil, List.flatten_cons, List.flatten_nil, List.append_nil] at h3
      rw [h3]
      refine always_mono ?_ (follow_forest (vals := vals) hn' s)
      rintro s' ⟨-, g2, g3⟩
      simp only [RecipeTree.forest, Forest.roots, List.flatMap_cons, List.flatMap_nil, List.append_nil] at g2 g3
      exact ⟨g2, g3⟩

section

variable {f : List (List ℕ) → ℚ → Py (List ℚ)} {m : Market} {struct : List PyObj} {fuel : ℕ}
  {trade : TradeWithMultipleRecipes} {t : RecipeTree}

/-- **C62**. The text that describes the outcome of the auction with a recipe tree is "No trade" if and only if no deals are reported. Otherwise
it shows the price of every category of the tree exactly once, and someone who follows its lines in any way that they allow always can go on, and ends with as many deals as reported, each of them feasible; no agent
pays more than its value and in each deal the payments add up to 0. The total gain of the deals is at least 0, and at most `gain_from_trade`. -/
theorem tree_auction_text_can_be_followed (hf : PriceContract f) (ht : RecipeTree.init m.numCategories struct = .ok t)
    (hn : (treeNodes t).Nodup) (hlow : ∀ l ∈ m.valueLists, ∀ x ∈ l, -MAX_VALUE ≤ x)
    (h : auction f m struct fuel = .ok (some trade)) :
    (trade.numOfDeals = 0 ∧ trade.repr = .ok none) ∨
    ∃ lines : List Line, 0 < trade.numOfDeals ∧ trade.repr = .ok (some (lines ++ [.overall trade.numOfDeals])) ∧
      (lines.filterMap shownPrice).Perm ((treeNodes t).map (fun i => (i, finalPrice trade i))) ∧
      ∀ s, Always (remaining trade) (fun s' =>
        FeasibleDeals t (remaining trade) (s'.pool t.index) ∧ (s'.pool t.index).length = trade.numOfDeals ∧
        0 ≤ treeTotalGain (s'.pool t.index) ∧ treeTotalGain (s'.pool t.index) ≤ trade.gainFromTrade ∧
        ∀ d ∈ s'.pool t.index, (∀ a ∈ d, finalPrice trade a.1 ≤ a.2) ∧ (d.map (fun a => finalPrice trade a.1)).sum = 0) lines s := by
  have hto := treeOn_of_init ht hn
  have hr := fun i => (tree_auction_keeps_best hf ht hn h i).2 hlow
  obtain ⟨htree, hbal⟩ := tree_auction_budget_balanced hf ht hn h
  obtain ⟨best, -, b2, b3, -, -, b6⟩ := tree_auction_outcome_feasible hf ht hn hlow h
  obtain ⟨cats, v, s, htr, h1, -, h3⟩ := outcome hf ht hn (fun _ _ _ => True) (by intros; trivial) (by intros; trivial)
    (by intros; trivial) h
  have hrem : remaining trade = valuesAt trade.categories := by funext i; exact remaining_eq _ i
  have hlenp : trade.prices.length = m.numCategories := by rw [htr]; exact h1.fits.length
  have hsize : sizeAt trade.categories = fun i => (remaining trade i).length := by rw [hrem, sizeAt_fun]
  have hnum : t.numOfDeals (fun i => (remaining trade i).length) = trade.numOfDeals := by
    rw [← hsize, ← tree_num_of_deals_explained, htr]; rfl
  obtain ⟨lines, e1, e3, e2⟩ := tree_explanation_can_be_followed (t := t) (vals := remaining trade) (prices := trade.prices) hn
    (by rw [hlenp]; exact fun i hi => hto.lt i hi)
  rw [hnum] at e1 e2
  have hrepr : trade.repr = if trade.numOfDeals = 0 then .ok none else .ok (some (lines ++ [.overall trade.numOfDeals])) := by
    unfold TradeWithMultipleRecipes.repr
    rw [htree, hsize, e1]
    rfl
  by_cases h0 : trade.numOfDeals = 0
  · left; exact ⟨h0, by rw [hrepr, if_pos h0]⟩
  · right
    have hbal' := hbal.resolve_left (fun e => h0 e.1)
    refine ⟨lines, by omega, by rw [hrepr, if_neg h0], e3, fun s0 => always_mono ?_ (e2 s0)⟩
    rintro s' ⟨g1, g2⟩
    have hd : ∀ d ∈ s'.pool t.index, (∀ a ∈ d, finalPrice trade a.1 ≤ a.2) ∧ (d.map (fun a => finalPrice trade a.1)).sum = 0 := by
      intro d hd
      constructor
      · intro a ha
        apply hr a.1
        apply (g1.2 a.1).subset
        rw [agentsOf, List.mem_map]
        exact ⟨a, List.mem_filter.2 ⟨List.mem_flatten.2 ⟨d, hd, ha⟩, by simp⟩, rfl⟩
      · have := hbal' _ (g1.1 d hd)
        rw [List.map_map] at this
        exact this
    refine ⟨g1, g2, ?_, ?_, hd⟩
    · apply List.sum_nonneg
      intro x hx
      obtain ⟨d, hdm, rfl⟩ := List.mem_map.1 hx
      have hle : (d.map (fun a => finalPrice trade a.1)).sum ≤ treeGain d := List.sum_le_sum (hd d hdm).1
      rw [(hd d hdm).2] at hle
      exact hle
    · rw [← b3]; exact (b6 _ g1).2

end

/-! ### The reported gain is that of the best draw, not of the draw that the text describes -/

/-- Five buyers (category 0) and five sellers (category 1). -/
def drawMarket : Market := ⟨[⟨"buyer", [17, 14, 13, 9, 6]⟩, ⟨"seller", [-1, -4, -5, -8, -11]⟩]⟩

def drawStruct : List PyObj := [.int 0, .list [.int 1, .none]]

def drawTree : RecipeTree := ⟨0, .cons 1 .nil .nil⟩

def drawSolver := fixedSolver [-100000000, -100000000]

/-- The lines of the text of this outcome, but the last one. -/
def drawLines : List Line := [.potential 1 3 (-8), .someTraders 0 3 4 8, .allOf [1] 3]

theorem drawOutcome : ∃ trade, auction drawSolver drawMarket drawStruct 100 = .ok (some trade) ∧ trade.numOfDeals = 3 ∧ trade.gainFromTrade = 34 ∧
    trade.repr = .ok (some (drawLines ++ [.overall 3])) ∧ trade.categories.map AgentCategory.values = [[17, 14, 13, 9], [-1, -4, -5]] := by
  have h : (auction drawSolver drawMarket drawStruct 100).map (fun o => o.map (fun t => (t.numOfDeals, t.gainFromTrade,
      decide (t.repr = .ok (some (drawLines ++ [.overall 3]))), t.categories.map AgentCategory.values)))
      = .ok (some (3, 34, true, [[17, 14, 13, 9], [-1, -4, -5]])) := by decide +kernel
  match ha : auction drawSolver drawMarket drawStruct 100, h with
  | .ok (some trade), h =>
    simp only [Except.map, Option.map_some, Except.ok.injEq, Option.some.injEq, Prod.mk.injEq, decide_eq_true_eq] at h
    exact ⟨trade, rfl, h.1, h.2.1, h.2.2.1, h.2.2.2⟩
  | .ok none, h => simp [Except.map] at h
  | .error e, h => simp [Except.map] at h

example : PriceContract drawSolver ∧ RecipeTree.init drawMarket.numCategories drawStruct = .ok drawTree ∧ (treeNodes drawTree).Nodup ∧
    (∀ l ∈ drawMarket.valueLists, ∀ x ∈ l, -MAX_VALUE ≤ x) :=
  ⟨fixedSolver_contract _, by decide +kernel, by decide +kernel, by decide +kernel⟩

/-- **C62**. `gain_from_trade` of the auction with a recipe tree is the gain of the best deals between the remaining agents, not of the deals that the
text prescribes: here four buyers remain for three sellers, the text says that three out of the four buyers are selected, and there are both a
selection with the reported gain, 34, and one with gain 26. (For the auctions with a single recipe the reported gain is the expected one, C13.) -/
theorem tree_reported_gain_may_not_be_attained : ∃ trade, auction drawSolver drawMarket drawStruct 100 = .ok (some trade) ∧
    trade.repr = .ok (some (drawLines ++ [.overall 3])) ∧ trade.gainFromTrade = 34 ∧
    ∀ s, (∃ s', MayLead (remaining trade) drawLines s s' ∧ treeTotalGain (s'.pool 0) = 34) ∧
      (∃ s', MayLead (remaining trade) drawLines s s' ∧ treeTotalGain (s'.pool 0) = 26) := by
  obtain ⟨trade, h1, -, h3, h4, h5⟩ := drawOutcome
  have r0 : remaining trade 0 = [17, 14, 13, 9] := by simp [remaining, h5]
  have r1 : remaining trade 1 = [-1, -4, -5] := by simp [remaining, h5]
  refine ⟨trade, h1, h4, h3, fun s => ?_⟩
  have key : ∀ sel : List ℚ, sel.Subperm [17, 14, 13, 9] → sel.length = 3 → ∃ s', MayLead (remaining trade) drawLines s s' ∧
      treeTotalGain (s'.pool 0) = treeTotalGain (List.zipWith (fun a d => (0, a) :: d) sel [[(1, -1)], [(1, -4)], [(1, -5)]]) := by
    intro sel hs hl
    have o1 : Obeys (remaining trade) s (.potential 1 3 (-8)) ⟨Function.update s.pool 1 [[(1, -1)], [(1, -4)], [(1, -5)]], s.chosen⟩ := by
      have := Obeys.potential (vals := remaining trade) (s := s) (i := 1) (p := -8)
      rw [r1] at this; exact this
    have o2 : Obeys (remaining trade) ⟨Function.update s.pool 1 [[(1, -1)], [(1, -4)], [(1, -5)]], s.chosen⟩ (.someTraders 0 3 4 8)
        ⟨Function.update s.pool 1 [[(1, -1)], [(1, -4)], [(1, -5)]], (0, sel)⟩ := by
      have := Obeys.someTraders (vals := remaining trade) (s := ⟨Function.update s.pool 1 [[(1, -1)], [(1, -4)], [(1, -5)]], s.chosen⟩)
        (i := 0) (p := 8) (sel := sel) (by rw [r0]; exact hs)
      rw [r0, hl] at this; exact this
    have o3 := Obeys.allOf (vals := remaining trade) (s := ⟨Function.update s.pool 1 [[(1, -1)], [(1, -4)], [(1, -5)]], (0, sel)⟩) (is := [1])
      (List.Perm.refl _) (by simp [hl])
    refine ⟨_, ⟨_, o1, _, o2, _, by simpa using o3, rfl⟩, ?_⟩
    simp [Lottery.combine]
  constructor
  · obtain ⟨s', h6, h7⟩ := key [17, 14, 13] (by decide) rfl
    exact ⟨s', h6, by rw [h7]; decide +kernel⟩
  · obtain ⟨s', h6, h7⟩ := key [14, 13, 9] (by decide) rfl
    exact ⟨s', h6, by rw [h7]; decide +kernel⟩

end Auctions.Props
