import Verif.Model.Reports
import Verif.Props.IntegerAuction
import Verif.Props.Reports

set_option autoImplicit false

/-! # C64 — the text that describes the outcome of the auction with counts -/

namespace Auctions.Props

open Auctions Spec

/-- The same numbers of deals and the same lines. -/
theorem int_explained_ones {cnt : ℕ → ℕ} (size : ℕ → ℕ) (prices : List ℚ) {f : Forest} (hc : ∀ i ∈ nodes f, cnt i = 1) :
    (IntegerTree.explained cnt size prices f).map (List.map (fun e => (e.1, e.2.1)))
      = (f.explained size prices).map (List.map (fun e => (e.1, e.2.1))) := by
  induction f with
  | nil => rfl
  | cons i ch s ih1 ih2 =>
    have ih1 := ih1 (fun j hj => hc j (by simp [nodes, hj]))
    have ih2 := ih2 (fun j hj => hc j (by simp [nodes, hj]))
    have hi : cnt i = 1 := hc i (by simp [nodes])
    have hfst : ∀ {es es' : List (ℕ × List Line × ℕ × ℕ)}, es.map (fun e => (e.1, e.2.1)) = es'.map (fun e => (e.1, e.2.1)) →
        es.map (·.1) = es'.map (·.1) ∧ es.map (·.2.1) = es'.map (·.2.1) := by
      intro es es' h
      constructor
      · have := congrArg (List.map Prod.fst) h; simpa [Function.comp_def] using this
      · have := congrArg (List.map Prod.snd) h; simpa [Function.comp_def] using this
    cases ch with
    | nil =>
      rw [IntegerTree.explained, Forest.explained]
      cases pyGet prices i with
      | error e => rfl
      | ok price =>
        simp only [bind, Except.bind, hi, Nat.div_one]
        revert ih2
        cases IntegerTree.explained cnt size prices s <;> cases s.explained size prices <;> simp_all [Except.map]
    | cons j c r =>
      rw [IntegerTree.explained, Forest.explained]
      cases pyGet prices i with
      | error e => rfl
      | ok price =>
        simp only [bind, Except.bind, hi, Nat.div_one, Nat.mul_one]
        revert ih1
        cases IntegerTree.explained cnt size prices (.cons j c r) <;> cases (Forest.cons j c r).explained size prices
        · simp [Except.map]
        · simp [Except.map]
        · simp [Except.map]
        · intro ih1
          simp only [Except.map, Except.ok.injEq] at ih1
          obtain ⟨e1, e2⟩ := hfst ih1
          simp only [e1, e2]
          revert ih2
          cases IntegerTree.explained cnt size prices s <;> cases s.explained size prices <;> simp_all [Except.map]

/-- **C64**. When all counts are 1 (also when no counts are given), the auction with counts describes a trade in the same words as the auction without
counts. -/
theorem integer_text_ones {cnt : ℕ → ℕ} (t : TreeAuction.TradeWithMultipleRecipes) (hc : ∀ i ∈ treeNodes t.recipeTree, cnt i = 1) :
    IntegerAuction.repr cnt t = t.repr := by
  have h := int_explained_ones (TreeAuction.sizeAt t.categories) t.prices (f := t.recipeTree.forest) (by rw [treeNodes_eq]; exact hc)
  unfold IntegerAuction.repr TreeAuction.TradeWithMultipleRecipes.repr RecipeTree.explained
  revert h
  cases IntegerTree.explained cnt (TreeAuction.sizeAt t.categories) t.prices t.recipeTree.forest with
  | error e =>
    cases t.recipeTree.forest.explained (TreeAuction.sizeAt t.categories) t.prices <;> simp [Except.map, bind, Except.bind]
  | ok es =>
    cases t.recipeTree.forest.explained (TreeAuction.sizeAt t.categories) t.prices with
    | error e => simp [Except.map]
    | ok es' =>
      intro h
      simp only [Except.map, Except.ok.injEq] at h
      cases es with
      | nil =>
        cases es' with
        | nil => rfl
        | cons => simp at h
      | cons e es =>
        cases es' with
        | nil => simp at h
        | cons e' es' =>
          simp only [List.map_cons, List.cons.injEq, Prod.mk.injEq] at h
          simp only [bind, Except.bind]
          rw [h.1.1, h.1.2]

/-- **C64**. So on the same market the two auctions print the same text, when the auction with counts gets no counts or counts 1, and the other
auction starts from the same initial prices. -/
theorem integer_auction_text_agrees {m : Market} {struct : List PyObj} {counts : List ℕ} {t : RecipeTree}
    (ht : RecipeTree.init m.numCategories struct = .ok t) (hn : (treeNodes t).Nodup) (hch : t.children ≠ .nil)
    (hcounts : OnesFor counts m.numCategories) (fuel : ℕ) :
    (IntegerAuction.auction m struct counts fuel).map (Option.map (IntegerAuction.repr (IntegerTree.countOf counts)))
      = (TreeAuction.auction IntegerPrices.calculateInitialPrices m struct fuel).map (Option.map TreeAuction.TradeWithMultipleRecipes.repr) := by
  have hto := treeOn_of_init ht hn
  have hcnt : ∀ i ∈ treeNodes t, IntegerTree.countOf counts i = 1 := fun i hi => countOf_ones hcounts (hto.lt i hi)
  have h := integer_auction_agrees ht hn hch hcounts fuel
  have hinv := fun trade => Auctions.auction_inv (f := IntegerPrices.calculateInitialPrices) (fuel := fuel) (trade := trade) ht hn
  revert h hinv
  cases IntegerAuction.auction m struct counts fuel with
  | error e =>
    cases TreeAuction.auction IntegerPrices.calculateInitialPrices m struct fuel <;> simp [Except.map]
  | ok o =>
    cases TreeAuction.auction IntegerPrices.calculateInitialPrices m struct fuel with
    | error e => simp [Except.map]
    | ok o' =>
      intro h hinv
      simp only [Except.map, Except.ok.injEq] at h ⊢
      cases o with
      | none =>
        cases o' with
        | none => rfl
        | some => simp at h
      | some a =>
        cases o' with
        | none => simp at h
        | some b =>
          obtain ⟨p0, cats, v, -, -, hb⟩ := hinv b rfl
          simp only [Option.map_some, Option.some.injEq] at h ⊢
          have h1 : a.categories = b.categories := by have := congrArg TreeAuction.TradeWithMultipleRecipes.categories h; exact this
          have h2 : a.recipeTree = b.recipeTree := by have := congrArg TreeAuction.TradeWithMultipleRecipes.recipeTree h; exact this
          have h3 : a.prices = b.prices := by have := congrArg TreeAuction.TradeWithMultipleRecipes.prices h; exact this
          have h4 : a.numOfDeals = b.numOfDeals := by have := congrArg TreeAuction.TradeWithMultipleRecipes.numOfDeals h; exact this
          rw [← integer_text_ones b (cnt := IntegerTree.countOf counts) (by rw [hb]; exact hcnt)]
          unfold IntegerAuction.repr
          rw [h1, h2, h3, h4]

/-! ### With counts, the text may select an agent that no deal has room for -/

/-- Buyers (category 0) trade in pairs with one seller (category 1). -/
def pairMarket : Market := ⟨[⟨"buyer", [10, 9, 8, 7, 7, 2]⟩, ⟨"seller", [-2, -3, -4]⟩]⟩

def pairTree : RecipeTree := ⟨0, .cons 1 .nil .nil⟩

theorem agents_le {t : RecipeTree} {cnt : ℕ → ℕ} {vals : ℕ → List ℚ} {deals : List TreeDeal} (h : WeightedFeasible t cnt vals deals) (i : ℕ) :
    (agentsOf i deals.flatten).length ≤ deals.length * cnt i := by
  obtain ⟨h, -⟩ := h
  induction deals with
  | nil => simp [agentsOf]
  | cons d ds ih =>
    have h1 := ih (fun e he => h e (by simp [he]))
    obtain ⟨p, -, hp⟩ := h d (by simp)
    rw [List.flatten_cons, agentsOf_append, List.length_append, hp i, List.length_cons, Nat.add_mul, Nat.one_mul]
    split <;> omega

/-- **C64**. With counts, the line "all n traders selected" shows the number of remaining agents of the category, although the deals may need
fewer: here each deal takes two buyers; the text reports 2 deals and that all 5 remaining buyers are selected, but no set of deals between
the remaining agents uses more than 4 of them. -/
theorem integer_text_selects_too_many : ∃ trade,
    IntegerAuction.auction pairMarket [.int 0, .list [.int 1, .none]] [2, 1] 100 = .ok (some trade) ∧ trade.recipeTree = pairTree ∧
    IntegerAuction.repr (IntegerTree.countOf [2, 1]) trade
      = .ok (some [.potential 1 2 (-4), .allTraders 0 5 2, .allOf [1] 2, .overall 2]) ∧
    ∀ deals, WeightedFeasible pairTree (fun i => [2, 1].getD i 0) (remaining trade) deals → (agentsOf 0 deals.flatten).length ≤ 4 := by
  have h : (IntegerAuction.auction pairMarket [.int 0, .list [.int 1, .none]] [2, 1] 100).map (fun o => o.map (fun t =>
      (decide (t.recipeTree = pairTree), decide (IntegerAuction.repr (IntegerTree.countOf [2, 1]) t
        = .ok (some [.potential 1 2 (-4), .allTraders 0 5 2, .allOf [1] 2, .overall 2])), t.categories.map AgentCategory.values)))
      = .ok (some (true, true, [[10, 9, 8, 7, 7], [-2, -3]])) := by decide +kernel
  match ha : IntegerAuction.auction pairMarket [.int 0, .list [.int 1, .none]] [2, 1] 100, h with
  | .ok (some trade), h =>
    simp only [Except.map, Option.map_some, Except.ok.injEq, Option.some.injEq, Prod.mk.injEq, decide_eq_true_eq] at h
    refine ⟨trade, rfl, h.1, h.2.1, ?_⟩
    intro deals hd
    have h1 := agents_le hd 0
    have h2 := (integer_tree_num_of_deals_is_maximum (t := pairTree) (cnt := fun i => [2, 1].getD i 0) (remaining trade)
      (by decide) (by decide)).2 ⟨deals, hd, rfl⟩
    have hr0 : (remaining trade 0).length = 5 := by simp [remaining, h.2.2]
    have hr1 : (remaining trade 1).length = 2 := by simp [remaining, h.2.2]
    have h3 : IntegerTree.numOfDeals (fun i => [2, 1].getD i 0) (fun i => (remaining trade i).length) pairTree.forest = 2 := by
      simp [pairTree, RecipeTree.forest, IntegerTree.numOfDeals, hr0, hr1]
    rw [h3] at h2
    simp only [List.getD_cons_zero] at h1
    omega
  | .ok none, h => simp [Except.map] at h
  | .error e, h => simp [Except.map] at h

end Auctions.Props
