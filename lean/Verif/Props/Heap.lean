import Verif.Proofs.HeapTree

set_option autoImplicit false

/-!
# C39 — the protocols do not modify the caller's market; C54 — recipe-tree queries and shared categories

`refs` are the category objects of the caller's market, in any heap `h`: the same object may occur several times in `refs`, and several
categories may share one list object. `m` is the market as the user sees it.
-/

namespace Auctions.Props

open Auctions Heap

theorem own_private {base h : Heap} {refs : List ℕ} {cs : List AgentCategory} (own : Own base h refs cs) : Private base h refs := by
  refine ⟨own.nodup, ?_⟩
  intro r hr o ho vs
  have hw := own.fresh r hr o ho
  refine ⟨?_, ?_⟩
  · have e : Ext base { h with lists := h.lists.set o.values vs } := ⟨prefix_set own.ext.lists hw vs, own.ext.cats⟩
    exact e.unchanged
  · intro r' hr' hne
    unfold category
    cases hc : h.cats[r']? with
    | none => simp [hc]
    | some o' =>
      have : o.values ≠ o'.values := fun heq => hne (own.inj r hr r' hr' o o' ho hc heq).symm
      simp only [hc]
      rw [List.getElem?_set_ne this]

theorem ends_mono {α β : Type} {x : Py α × Heap} {p : Py β} {Q Q' : α → β → Heap → Prop} (hx : Ends x p Q)
    (hq : ∀ a b h, Q a b h → Q' a b h) : Ends x p Q' := by
  obtain ⟨r, h'⟩ := x
  cases r <;> cases p
  · exact hx
  · exact hx.elim
  · exact hx.elim
  · exact hq _ _ _ hx

/-- `optimal_trade` leaves every category of the caller as it was, also when it raises; it returns the trade of the program without objects,
and a remaining market made of new objects. -/
theorem optimal_trade_keeps_market (h : Heap) (refs : List ℕ) (m : Market) (hs : Shows h refs m.categories) (psRecipe : List ℕ) (n : ℕ)
    (z : Bool) :
    Unchanged h (Heap.optimalTrade refs psRecipe n z h).2 ∧
    Ends (Heap.optimalTrade refs psRecipe n z h) (m.optimalTrade psRecipe n z) (fun t p h' =>
      t.1 = p.1.procurementSets ∧ Shows h' t.2 p.2.categories ∧ Private h h' t.2) := by
  obtain ⟨h1, h2⟩ := run_optimalTrade (Ext.refl h) hs psRecipe n z
  exact ⟨h1.unchanged, ends_mono h2 (fun t p h' hq => ⟨hq.1, hq.2.shows, own_private hq.2⟩)⟩

/-- A trade object shows the trade of the program without objects, and consists of new objects. -/
def SameTrade (old h' : Heap) (t : Heap.Trade) (t' : TradeWithSinglePrice) : Prop :=
  Shows h' t.categories t'.categories ∧ Private old h' t.categories ∧ t.psRecipe = t'.psRecipe ∧ t.prices = t'.prices ∧
    t.numOfDealsCache = t'.numOfDealsCache

/-- The same for the trade object of a tree auction. -/
def SameTreeTrade (old h' : Heap) (t : Heap.TreeTrade) (t' : TreeAuction.TradeWithMultipleRecipes) : Prop :=
  Shows h' t.categories t'.categories ∧ Private old h' t.categories ∧ t.recipeTree = t'.recipeTree ∧ t.prices = t'.prices ∧
    t.numOfDeals = t'.numOfDeals ∧ t.kmin = t'.kmin ∧ t.kmax = t'.kmax ∧ t.gainFromTrade = t'.gainFromTrade

/-- Both runs are still going on (the fuel is used up), or both have ended, with related results. -/
def Both {α β : Type} (Q : α → β → Prop) : Option α → Option β → Prop
  | none, none => True
  | some a, some b => Q a b
  | _, _ => False

theorem tradeShows_same {base h' : Heap} {t : Heap.Trade} {t' : TradeWithSinglePrice} (hq : TradeShows base h' t t') : SameTrade base h' t t' :=
  ⟨hq.1.shows, own_private hq.1, hq.2⟩

theorem treeTradeShows_same {base h' : Heap} {t : Heap.TreeTrade} {t' : TreeAuction.TradeWithMultipleRecipes}
    (hq : TreeTradeShows base h' t t') : SameTreeTrade base h' t t' :=
  ⟨hq.1.shows, own_private hq.1, hq.2⟩

/-- The ascending auction: at every moment of the run (`fuel` rounds), and after it. -/
theorem ascending_auction_keeps_market (h : Heap) (refs : List ℕ) (m : Market) (hs : Shows h refs m.categories) (psRecipe : List ℕ)
    (fuel n : ℕ) :
    Unchanged h (Heap.ascendingAuction refs psRecipe fuel n h).2 ∧
    Ends (Heap.ascendingAuction refs psRecipe fuel n h) (Ascending.auction m psRecipe fuel n) (fun a b h' => Both (SameTrade h h') a b) := by
  obtain ⟨h1, h2⟩ := run_ascendingAuction (Ext.refl h) hs psRecipe fuel n
  refine ⟨h1.unchanged, ends_mono h2 ?_⟩
  intro a b h' hq
  cases a <;> cases b
  · trivial
  · exact hq.elim
  · exact hq.elim
  · exact tradeShows_same hq

theorem mcafee_keeps_market (h : Heap) (refs : List ℕ) (m : Market) (hs : Shows h refs m.categories) (psRecipe : List ℕ) (heur : Bool) :
    Unchanged h (Heap.mcafee refs psRecipe heur h).2 ∧
    Ends (Heap.mcafee refs psRecipe heur h) (McAfee.mcafeeTradeReduction m psRecipe heur) (fun t t' h' => SameTrade h h' t t') := by
  obtain ⟨h1, h2⟩ := run_mcafee (Ext.refl h) hs psRecipe heur
  exact ⟨h1.unchanged, ends_mono h2 (fun _ _ _ hq => tradeShows_same hq)⟩

theorem trade_reduction_keeps_market (h : Heap) (refs : List ℕ) (m : Market) (hs : Shows h refs m.categories) (psRecipe : List ℕ)
    (g0 : Bool) :
    Unchanged h (Heap.tradeReduction refs psRecipe g0 h).2 ∧
    Ends (Heap.tradeReduction refs psRecipe g0 h) (TradeReduction.tradeReduction m psRecipe g0) (fun t t' h' => SameTrade h h' t t') := by
  obtain ⟨h1, h2⟩ := run_tradeReduction (Ext.refl h) hs psRecipe g0
  exact ⟨h1.unchanged, ends_mono h2 (fun _ _ _ hq => tradeShows_same hq)⟩

theorem tree_auction_keeps_market (h : Heap) (refs : List ℕ) (m : Market) (hs : Shows h refs m.categories)
    (initial : List (List ℕ) → ℚ → Py (List ℚ)) (struct : List PyObj) (fuel : ℕ) :
    Unchanged h (Heap.treeAuction initial refs struct fuel h).2 ∧
    Ends (Heap.treeAuction initial refs struct fuel h) (TreeAuction.auction initial m struct fuel)
      (fun a b h' => Both (SameTreeTrade h h') a b) := by
  obtain ⟨h1, h2⟩ := run_treeAuction (Ext.refl h) hs initial struct fuel
  refine ⟨h1.unchanged, ends_mono h2 ?_⟩
  intro a b h' hq
  cases a <;> cases b
  · trivial
  · exact hq.elim
  · exact hq.elim
  · exact treeTradeShows_same hq

theorem integer_auction_keeps_market (h : Heap) (refs : List ℕ) (m : Market) (hs : Shows h refs m.categories)
    (struct : List PyObj) (agentCounts : List ℕ) (fuel : ℕ) :
    Unchanged h (Heap.integerAuction refs struct agentCounts fuel h).2 ∧
    Ends (Heap.integerAuction refs struct agentCounts fuel h) (IntegerAuction.auction m struct agentCounts fuel)
      (fun a b h' => Both (SameTreeTrade h h') a b) := by
  obtain ⟨h1, h2⟩ := run_integerAuction (Ext.refl h) hs struct agentCounts fuel
  refine ⟨h1.unchanged, ends_mono h2 ?_⟩
  intro a b h' hq
  cases a <;> cases b
  · trivial
  · exact hq.elim
  · exact hq.elim
  · exact treeTradeShows_same hq

/-- A clone consists of new objects with the same (sorted) contents: nothing that is later done to the clone is seen in any category that
existed before, and nothing that is done to an old category is seen in the clone. -/
theorem clone_is_independent (h : Heap) (refs : List ℕ) (m : Market) (hs : Shows h refs m.categories) :
    Unchanged h (Heap.clone refs h).2 ∧
    Ends (Heap.clone refs h) m.clone (fun rs m' h' => Shows h' rs m'.categories ∧ Private h h' rs ∧
      ∀ (r : ℕ) (o : CatObj), h.cats[r]? = some o → o.values < h.lists.length → ∀ vs, Shows { h' with lists := h'.lists.set o.values vs } rs m'.categories) := by
  obtain ⟨h1, h2⟩ := run_clone (Own.nil (Ext.refl h)) hs
  refine ⟨h1.unchanged, ends_mono h2 ?_⟩
  rintro rs m' h' ⟨e, own⟩
  simp only [List.nil_append] at own
  refine ⟨own.shows, own_private own, ?_⟩
  intro r o ho hlt vs
  have hs' := own.shows
  have key : ∀ r' c, r' ∈ rs → category h' r' = some c → category { h' with lists := h'.lists.set o.values vs } r' = some c := by
    intro r' c hr' hc
    obtain ⟨o', g1, g2, g3⟩ := category_some.1 hc
    rw [category_some]
    refine ⟨o', g1, g2, ?_⟩
    have := own.fresh r' hr' o' g1
    simp only
    rw [List.getElem?_set_ne (by omega)]
    exact g3
  clear own e
  revert key
  generalize m'.categories = cs at hs' ⊢
  induction hs' with
  | nil => intro _; exact List.Forall₂.nil
  | cons hc _ ih =>
    intro key
    exact List.Forall₂.cons (key _ _ List.mem_cons_self hc) (ih (fun r' c hr' => key r' c (List.mem_cons_of_mem _ hr')))

theorem call_ext (h : Heap) (refs : List ℕ) (m : Market) (hs : Shows h refs m.categories) (c : Call) : Ext h (c.after refs h) := by
  cases c with
  | optimalTrade r n z => exact (run_optimalTrade (Ext.refl h) hs r n z).1
  | ascendingAuction r fuel n => exact (run_ascendingAuction (Ext.refl h) hs r fuel n).1
  | mcafee r b => exact (run_mcafee (Ext.refl h) hs r b).1
  | tradeReduction r b => exact (run_tradeReduction (Ext.refl h) hs r b).1
  | treeAuction ip s fuel => exact (run_treeAuction (Ext.refl h) hs ip s fuel).1
  | integerAuction s cnt fuel => exact (run_integerAuction (Ext.refl h) hs s cnt fuel).1
  | clone => exact (run_clone (Own.nil (Ext.refl h)) hs).1

/-- Any history of calls on the same market: the market still looks as at the beginning, so that the next call (each of the theorems above
applies to the heap after the history) has the same outcome as if it were the first one. -/
theorem history_keeps_market (calls : List Call) (h : Heap) (refs : List ℕ) (m : Market) (hs : Shows h refs m.categories) :
    Unchanged h (calls.foldl (fun h c => c.after refs h) h) ∧ Shows (calls.foldl (fun h c => c.after refs h) h) refs m.categories := by
  have key : ∀ (calls : List Call) (h : Heap), Shows h refs m.categories → Ext h (calls.foldl (fun h c => c.after refs h) h) := by
    intro calls
    induction calls with
    | nil => intro h _; exact Ext.refl h
    | cons c cs ih =>
      intro h hs
      have e := call_ext h refs m hs c
      exact e.trans (ih _ (e.shows hs))
  have e := key calls h hs
  exact ⟨e.unchanged, e.shows hs⟩

/-! ### C54 -/

/-- `optimal_trade_GFT` of a recipe tree does not change the categories it is built on (although `combined_values` of a leaf returns the
list object of the category itself, and lists are sorted in place on the way). -/
theorem tree_gft_keeps_categories (h : Heap) (cats : List ℕ) (cs : List AgentCategory) (hs : Shows h cats cs) (struct : List PyObj)
    (t : RecipeTree) (ht : RecipeTree.init cats.length struct = .ok t) :
    Unchanged h (treeGFT cats t h).2 ∧ (treeGFT cats t h).1 = .ok (t.optimalTradeGFT (TreeAuction.valuesAt cs)) := by
  obtain ⟨h', e1, e2⟩ := treeGFT_run hs (init_nodes_lt ht)
  rw [e1]
  exact ⟨e2.unchanged, rfl⟩

/-- The integer tree sorts the categories in place. Categories that are sorted, as the class `AgentCategory` keeps them, do not change
(no object at all does), and the result is that of the program without objects. -/
theorem integer_tree_keeps_sorted_categories (h : Heap) (cats : List ℕ) (cs : List AgentCategory) (hs : Shows h cats cs)
    (hsort : ∀ c ∈ cs, Spec.SortedDesc c.values) (struct : List PyObj) (agentCounts : List ℕ)
    (t : RecipeTree) (ht : IntegerTree.init cats.length struct agentCounts = .ok t) (cnt : ℕ → ℕ) :
    integerOptimalTrade cats cnt t h = (.ok (IntegerTree.optimalTrade t cnt (TreeAuction.valuesAt cs)), h) ∧
    integerGFT cats cnt t h = (.ok (IntegerTree.optimalTradeGFT t cnt (TreeAuction.valuesAt cs)), h) := by
  have hn : ∀ i ∈ Spec.nodes t.forest, i < cats.length := by
    intro i hi
    have := init_nodes_lt (n := if agentCounts = [] then cats.length else min cats.length agentCounts.length) (l := struct) ht i hi
    split at this <;> omega
  exact ⟨integerOptimalTrade_ok hs hsort cnt t hn, integerGFT_ok hs hsort cnt t hn⟩

/-- A category whose `values` the user has set to an unsorted list IS modified by the integer tree. -/
theorem integer_tree_sorts_categories : ∃ (h : Heap) (t : RecipeTree),
    IntegerTree.init 1 [.int 0, .none] [] = .ok t ∧ category h 0 = some ⟨"buyer", [1, 2]⟩ ∧
      category (integerOptimalTrade [0] (fun _ => 1) t h).2 0 = some ⟨"buyer", [2, 1]⟩ :=
  ⟨⟨[[1, 2]], [⟨"buyer", 0⟩]⟩, ⟨0, .nil⟩, by decide +kernel, by decide +kernel, by decide +kernel⟩

/-- `Market` does not copy the categories: what `append_trader` does through one market is seen by every holder of the category object. -/
theorem append_trader_is_seen (h : Heap) (refs : List ℕ) (i r : ℕ) (v : ℚ) (c : AgentCategory) (hr : refs[i]? = some r)
    (hc : category h r = some c) :
    (Heap.appendTrader refs i v h).1 = .ok () ∧ category (Heap.appendTrader refs i v h).2 r = some (c.append v) := by
  obtain ⟨o, g1, g2, g3⟩ := category_some.1 hc
  have : Heap.appendTrader refs i v h = (.ok (), { h with lists := h.lists.set o.values (sortDesc (c.values ++ [v])) }) := by
    rw [Heap.appendTrader, pyGet_some hr, bind_ok lift_run, Heap.append, bind_ok (readCat_ok g1), bind_ok (readList_ok g3),
      bind_ok writeList_run, writeList_run]
    simp
  rw [this]
  refine ⟨rfl, ?_⟩
  rw [category_some]
  refine ⟨o, g1, g2, ?_⟩
  simp only
  rw [List.getElem?_set_self (List.getElem?_eq_some_iff.1 g3).1]
  rfl

/-! ### The hypotheses are met: a market in which one category object occurs twice, and a second heap with two categories that share a list -/

/-- Sellers and buyers; the list of the buyers is also the list of a third category, which is not in the market. -/
def sampleHeap : Heap := ⟨[[-3, -4], [9, 8]], [⟨"seller", 0⟩, ⟨"buyer", 1⟩, ⟨"friend", 1⟩]⟩

example : Shows sampleHeap [0, 1] [⟨"seller", [-3, -4]⟩, ⟨"buyer", [9, 8]⟩] :=
  List.Forall₂.cons (by decide +kernel) (List.Forall₂.cons (by decide +kernel) List.Forall₂.nil)

example : Shows sampleHeap [1, 1, 2] [⟨"buyer", [9, 8]⟩, ⟨"buyer", [9, 8]⟩, ⟨"friend", [9, 8]⟩] :=
  List.Forall₂.cons (by decide +kernel) (List.Forall₂.cons (by decide +kernel) (List.Forall₂.cons (by decide +kernel) List.Forall₂.nil))

/-- The run really works with objects: it creates two clones and two lists, and removes an agent from each. -/
example : (Heap.optimalTrade [0, 1] [1, 1] 1 true sampleHeap) =
    (.ok ([[-3, 9]], [3, 4]),
     ⟨[[-3, -4], [9, 8], [-4], [8]], [⟨"seller", 0⟩, ⟨"buyer", 1⟩, ⟨"friend", 1⟩, ⟨"seller", 2⟩, ⟨"buyer", 3⟩]⟩) := by decide +kernel

/-- Without cloning the removal would be seen by the caller, and by the third category. -/
example : category (Heap.removeHighestAgentsOfAll [0, 1] [1, 1] sampleHeap).2 2 = some ⟨"friend", [8]⟩ := by decide +kernel

/-- A run that raises half-way: the clone of the first category has lost its agent, the caller's has not. -/
example : Heap.removeHighestAgentsOfAll [0, 1] [1, 3] sampleHeap =
    (.error .indexError, ⟨[[-4], []], [⟨"seller", 0⟩, ⟨"buyer", 1⟩, ⟨"friend", 1⟩]⟩) := by decide +kernel

end Auctions.Props
