import Verif.Proofs.IntegerLoop
import Verif.Props.IntegerAuction
import Verif.Props.TreeAuction

set_option autoImplicit false

/-!
# C41 — the tree auction with agent counts: rational for all counts, balanced only without them
-/

namespace Auctions.Props

open Auctions Spec IntegerPrices TreeAuction IntegerAuction

/-- The value of what one deal of the path `p` pays in total: each of the `cnt i` agents of category `i` pays the price of `i`. -/
def weightedPathPrice (cnt : ℕ → ℕ) (trade : TradeWithMultipleRecipes) (p : List ℕ) : ℚ :=
  (p.map (fun i => (cnt i : ℚ) * finalPrice trade i)).sum

theorem recipeFromPathLoop_length {counts : List ℕ} {p r r' : List ℕ} (h : IntegerTree.recipeFromPathLoop counts r p = .ok r') :
    r'.length = r.length := by
  induction p generalizing r with
  | nil => simp only [IntegerTree.recipeFromPathLoop, Except.ok.injEq] at h; rw [h]
  | cons i p ih =>
    rw [IntegerTree.recipeFromPathLoop] at h
    split at h <;>
    · rw [bind_ok_iff] at h
      obtain ⟨c, -, h⟩ := h
      split at h
      · rw [ih h, List.length_set]
      · simp at h

theorem mapM_forall {α β : Type} {f : α → Py β} {P : β → Prop} (hP : ∀ a b, f a = .ok b → P b) {l : List α} {l' : List β}
    (h : l.mapM f = .ok l') : ∀ b ∈ l', P b := by
  induction l generalizing l' with
  | nil => simp only [List.mapM_nil, pure, Except.pure, Except.ok.injEq] at h; subst h; simp
  | cons a l ih =>
    rw [List.mapM_cons, bind_ok_iff] at h
    obtain ⟨b, hb, h⟩ := h
    rw [bind_ok_iff] at h
    obtain ⟨bs, hbs, h⟩ := h
    simp only [pure, Except.pure, Except.ok.injEq] at h
    subst h
    intro c hc
    rcases List.mem_cons.1 hc with rfl | hc
    · exact hP a _ hb
    · exact ih hbs c hc

/-- What a run of the auction consists of. -/
theorem integer_auction_inv {m : Market} {struct : List PyObj} {counts : List ℕ} {fuel : ℕ} {o : Option TradeWithMultipleRecipes}
    (h : IntegerAuction.auction m struct counts fuel = .ok o) :
    m.categories ≠ [] ∧ ∃ t v, IntegerTree.init m.numCategories struct counts = .ok t ∧ v.status = none ∧
      IntegerTree.recipes t m.numCategories counts = .ok v.psRecipes ∧
      calculateInitialPrices v.psRecipes (-MAX_VALUE) = .ok v.prices ∧
      ((treeNodes t).Nodup → TreeOn t m.numCategories) ∧ IInv m.numCategories m.sorted m.sorted v ∧
      (∀ i < m.numCategories, v.prices.getD i 0 ≤ -MAX_VALUE) ∧
      ((o = none ∧ loop (IntegerTree.countOf counts) t fuel m.sorted v = .ok none) ∨
        ∃ cats v', loop (IntegerTree.countOf counts) t fuel m.sorted v = .ok (some (cats, v')) ∧
          o = some (mkTrade (IntegerTree.countOf counts) cats t v'.prices)) := by
  have hc : m.categories ≠ [] := by
    intro hc
    unfold IntegerAuction.auction at h
    simp [Market.clone, hc, Market.init, bind, Except.bind] at h
  refine ⟨hc, ?_⟩
  have hnum : (⟨m.sorted⟩ : Market).numCategories = m.numCategories := m.sorted_length
  unfold IntegerAuction.auction at h
  rw [Market.clone_eq hc, bind_ok_iff] at h
  obtain ⟨mm, hmm, h⟩ := h
  simp only [Except.ok.injEq] at hmm
  subst hmm
  rw [hnum, bind_ok_iff] at h
  obtain ⟨t, ht, h⟩ := h
  rw [bind_ok_iff] at h
  obtain ⟨rs, hrs, h⟩ := h
  rw [bind_ok_iff] at h
  obtain ⟨v, hv, h⟩ := h
  rw [bind_ok_iff] at h
  obtain ⟨l, hl, h⟩ := h
  have hrl : ∀ r ∈ rs, r.length = m.numCategories := by
    refine mapM_forall ?_ hrs
    intro p r hr
    rw [recipeFromPathLoop_length hr, List.length_replicate]
  have hvv : v.psRecipes = rs ∧ v.agentCounts = List.replicate m.numCategories 1 ∧ v.status = none ∧
      calculateInitialPrices rs (-MAX_VALUE) = .ok v.prices := by
    cases rs with
    | nil => simp [IntegerPrices.SimultaneousAscendingPriceVectors.init] at hv
    | cons r rs =>
      rw [IntegerPrices.SimultaneousAscendingPriceVectors.init] at hv
      split at hv
      · simp at hv
      · rw [bind_ok_iff] at hv
        obtain ⟨p, hp, hv⟩ := hv
        simp only [Except.ok.injEq] at hv
        subst hv
        refine ⟨rfl, ?_, rfl, hp⟩
        simp [countsOrOnes, hrl r (by simp)]
  obtain ⟨rfl, hv2, hv3, hv4⟩ := hvv
  have hpl := calculateInitialPrices_length hrl hv4
  have hple := calculateInitialPrices_le (by linarith [max_value_pos]) hv4
  refine ⟨t, v, ht, hv3, hrs, hv4, ?_, ⟨m.sorted_length, rfl, fun i => ⟨(valuesAt m.sorted i).length, by simp⟩, ?_, hrl, hv2, hpl⟩, ?_, ?_⟩
  · intro hn
    have := treeOn_of_init ht hn
    refine ⟨hn, fun i hi => ?_⟩
    have := this.lt i hi
    split at this
    · exact this
    · exact lt_of_lt_of_le this (min_le_left _ _)
  · intro i
    rw [valuesAt_sorted]; exact sortDesc_sorted _
  · intro i hi
    rw [List.getD_eq_getElem?_getD, List.getElem?_eq_getElem (by rw [hpl]; exact hi)]
    exact hple _ (List.getElem_mem _)
  · cases l with
    | none => simp only [Except.ok.injEq] at h; exact .inl ⟨h.symm, hl⟩
    | some cv =>
      obtain ⟨cats, v'⟩ := cv
      simp only [Except.ok.injEq] at h
      exact .inr ⟨cats, v', hl, h.symm⟩

theorem rational_start {m : Market} {v : IntegerPrices.SimultaneousAscendingPriceVectors}
    (hp : ∀ i < m.numCategories, v.prices.getD i 0 ≤ -MAX_VALUE) (hlow : ∀ l ∈ m.valueLists, ∀ x ∈ l, -MAX_VALUE ≤ x) :
    RationalAt m.sorted v := by
  intro i x hx
  by_cases hi : i < m.numCategories
  · refine (hp i hi).trans ?_
    rw [valuesAt_sorted, mem_sortDesc] at hx
    refine hlow (m.valueLists.getD i []) ?_ x hx
    have hil : i < m.valueLists.length := by simpa [Market.valueLists, Market.numCategories] using hi
    rw [List.getD_eq_getElem?_getD, List.getElem?_eq_getElem hil]; exact List.getElem_mem hil
  · rw [valuesAt_ge (by rw [m.sorted_length]; omega)] at hx; simp at hx

/-- **C41**. Whatever the agent counts, if no value is below `-MAX_VALUE`: every agent that remains has a value of at least the final price of
its category; the remaining agents are the top agents of their category, and no agent is added. -/
theorem integer_auction_individually_rational {m : Market} {struct : List PyObj} {counts : List ℕ} {t : RecipeTree} {fuel : ℕ}
    {trade : TradeWithMultipleRecipes} (ht : IntegerTree.init m.numCategories struct counts = .ok t) (hn : (treeNodes t).Nodup)
    (hlow : ∀ l ∈ m.valueLists, ∀ x ∈ l, -MAX_VALUE ≤ x)
    (h : IntegerAuction.auction m struct counts fuel = .ok (some trade)) (i : ℕ) :
    (∀ x ∈ remaining trade i, finalPrice trade i ≤ x) ∧
      ∃ out : List ℚ, ((remaining trade i ++ out).Perm (m.valueLists.getD i [])) ∧ ∀ x ∈ remaining trade i, ∀ y ∈ out, y ≤ x := by
  obtain ⟨hc, t', v, ht', -, -, -, hto, hinv, hp, hl⟩ := integer_auction_inv h
  rw [ht, Except.ok.injEq] at ht'
  subst ht'
  rcases hl with ⟨hl, -⟩ | ⟨cats, v', hl, e⟩
  · simp at hl
  · simp only [Option.some.injEq] at e
    subst e
    rcases integer_loop_end (hto hn) (IntegerTree.countOf counts) fuel hinv (rational_start hp hlow) with e | ⟨cats', v'', e, e1, e2⟩
    · rw [hl] at e; simp at e
    · rw [hl] at e
      simp only [Except.ok.injEq, Option.some.injEq, Prod.mk.injEq] at e
      obtain ⟨rfl, rfl⟩ := e
      rw [remaining_eq]
      refine ⟨fun x hx => e2 i x hx, ?_⟩
      obtain ⟨k, hk⟩ := e1.pre i
      have hs : SortedDesc (valuesAt m.sorted i) := by rw [valuesAt_sorted]; exact sortDesc_sorted _
      refine ⟨(valuesAt m.sorted i).drop k, ?_, ?_⟩
      · change (valuesAt cats i ++ _).Perm _
        rw [hk, List.take_append_drop, valuesAt_sorted]
        exact sortDesc_perm _
      · intro x hx y hy
        change x ∈ valuesAt cats i at hx
        rw [hk] at hx
        exact hs.take_ge_drop k x hx y hy

/-- **C41**. The auction raises nothing once the tree and the initial prices are constructed; in a tree whose category indices increase along
every path both are. (Values below `-MAX_VALUE` do no harm here.) -/
theorem integer_auction_never_raises {m : Market} {x y : PyObj} {rest : List PyObj} {counts : List ℕ} {t : RecipeTree}
    (he : rest.length % 2 = 0) (ht : IntegerTree.init m.numCategories (x :: y :: rest) counts = .ok t) (hn : (treeNodes t).Nodup)
    (hpos : ∀ i ∈ treeNodes t, 0 < IntegerTree.countOf counts i) (hinc : ∀ p, TreePath t p → p.Pairwise (· < ·)) (fuel : ℕ) :
    ∃ o, IntegerAuction.auction m (x :: y :: rest) counts fuel = .ok o := by
  obtain ⟨rs, hrs, p, hp, ⟨hlen, -, -⟩, -⟩ := integer_initial_prices_tree (bound := -MAX_VALUE) (by linarith [max_value_pos]) he ht hn hpos hinc
  have hto : TreeOn t m.numCategories := by
    have := treeOn_of_init ht hn
    refine ⟨hn, fun i hi => ?_⟩
    have := this.lt i hi
    split at this
    · exact this
    · exact lt_of_lt_of_le this (min_le_left _ _)
  have hc : m.categories ≠ [] := by
    have := hto.lt t.index (by simp [treeNodes])
    intro h
    simp [Market.numCategories, h] at this
  have hnum : (⟨m.sorted⟩ : Market).numCategories = m.numCategories := m.sorted_length
  have hrl : ∀ r ∈ rs, r.length = m.numCategories := by
    refine mapM_forall ?_ hrs
    intro p r hr
    rw [recipeFromPathLoop_length hr, List.length_replicate]
  have hpl := calculateInitialPrices_length hrl hp
  have hv : IntegerPrices.SimultaneousAscendingPriceVectors.init rs (-MAX_VALUE) [] = .ok ⟨rs, List.replicate m.numCategories 1, p, none⟩ := by
    cases rs with
    | nil => simp [calculateInitialPrices] at hp
    | cons r rs =>
      rw [IntegerPrices.SimultaneousAscendingPriceVectors.init, if_neg]
      · simp [hp, bind, Except.bind, countsOrOnes, hrl r (by simp)]
      · simp only [List.any_eq_true, not_exists, not_and, decide_eq_true_eq, Decidable.not_not]
        intro q hq
        rw [hrl q hq, hrl r (by simp)]
  have hloop : ∀ fuel cats v, IInv m.numCategories m.sorted cats v → ∃ o, loop (IntegerTree.countOf counts) t fuel cats v = .ok o := by
    intro fuel
    induction fuel with
    | zero => intro cats v _; exact ⟨_, rfl⟩
    | succ fuel ih =>
      intro cats v h
      rcases integer_loop_step hto (IntegerTree.countOf counts) h fuel with ⟨-, e⟩ | ⟨-, v', d, -, -, -, -, -, ⟨-, e⟩ | ⟨-, cats', g1, e, -⟩⟩
      · exact ⟨_, e⟩
      · exact ⟨_, e⟩
      · rw [e]; exact ih _ _ g1
  obtain ⟨o, ho⟩ := hloop fuel m.sorted ⟨rs, List.replicate m.numCategories 1, p, none⟩
    ⟨m.sorted_length, rfl, fun i => ⟨(valuesAt m.sorted i).length, by simp⟩,
      fun i => by rw [valuesAt_sorted]; exact sortDesc_sorted _, hrl, rfl, hpl⟩
  unfold IntegerAuction.auction
  rw [Market.clone_eq hc]
  simp only [bind, Except.bind, hnum, ht, hrs, hv, ho]
  cases o with
  | none => exact ⟨_, rfl⟩
  | some cv => obtain ⟨cats, v⟩ := cv; exact ⟨_, rfl⟩

/-- The tree auction depends on the initial prices only. -/
theorem auction_congr {f g : List (List ℕ) → ℚ → Py (List ℚ)} {m : Market} {struct : List PyObj} {t : RecipeTree} (fuel : ℕ)
    (ht : RecipeTree.init m.numCategories struct = .ok t) (hn : (treeNodes t).Nodup)
    (h : f (t.pathsToLeaf.map (indicator m.numCategories)) (-MAX_VALUE) = g (t.pathsToLeaf.map (indicator m.numCategories)) (-MAX_VALUE)) :
    TreeAuction.auction f m struct fuel = TreeAuction.auction g m struct fuel := by
  have hto := treeOn_of_init ht hn
  have hnum : (⟨m.sorted⟩ : Market).numCategories = m.numCategories := m.sorted_length
  have hc : m.categories ≠ [] := by
    have := hto.lt t.index (by simp [treeNodes])
    intro h
    simp [Market.numCategories, h] at this
  unfold TreeAuction.auction
  rw [Market.clone_eq hc]
  simp only [bind, Except.bind, hnum, ht, recipes_of_treeOn hto, h]

theorem fixedSolver_eq {rs : List (List ℕ)} {b : ℚ} {p : List ℚ} (h : InitialPrices rs b p) : fixedSolver p rs b = .ok p := by
  obtain ⟨h1, h2, s, h3⟩ := h
  unfold fixedSolver
  rw [if_pos ⟨h1, h2, fun r hr r' hr' => by rw [h3 r hr, h3 r' hr']⟩]

/-- **C41**, balance without counts. With `agent_counts` omitted or all 1, in a tree of at least two categories, all different, whose indices increase along
every path, the outcome has no deals and no gain, or the prices on every path sum to exactly 0. -/
theorem integer_auction_ones_budget_balanced {m : Market} {struct : List PyObj} {counts : List ℕ} {t : RecipeTree} {fuel : ℕ}
    {trade : TradeWithMultipleRecipes} (ht : RecipeTree.init m.numCategories struct = .ok t) (hn : (treeNodes t).Nodup)
    (hch : t.children ≠ .nil) (hcounts : OnesFor counts m.numCategories) (hinc : ∀ p, TreePath t p → p.Pairwise (· < ·))
    (h : IntegerAuction.auction m struct counts fuel = .ok (some trade)) :
    (trade.numOfDeals = 0 ∧ trade.gainFromTrade = 0) ∨ ∀ p, TreePath t p → (p.map (finalPrice trade)).sum = 0 := by
  have hto := treeOn_of_init ht hn
  have hw : t.pathsToLeaf.map (weightedIndicator m.numCategories (fun _ => 1)) = t.pathsToLeaf.map (indicator m.numCategories) := by
    apply List.map_congr_left
    intro p _
    unfold weightedIndicator indicator
    rfl
  have hown := increasing_tree_ownLast (n := m.numCategories) (cnt := fun _ => 1) hn hto.lt (fun _ _ => by omega) hinc
  rw [hw] at hown
  obtain ⟨p0, hp0, hip, -⟩ := integer_initial_prices (bound := -MAX_VALUE) (n := m.numCategories) (by linarith [max_value_pos])
    (by simpa using paths_ne_nil t) (by
      intro r hr
      obtain ⟨p, -, rfl⟩ := List.mem_map.1 hr
      simp [indicator]) hown
  have hag := integer_auction_agrees ht hn hch hcounts fuel
  rw [h, auction_congr (g := fixedSolver p0) fuel ht hn (by rw [hp0, fixedSolver_eq hip])] at hag
  cases hA : TreeAuction.auction (fixedSolver p0) m struct fuel with
  | error e => rw [hA] at hag; simp [Except.map] at hag
  | ok o =>
    rw [hA] at hag
    cases o with
    | none => simp [Except.map] at hag
    | some tr =>
      simp only [Except.map, Option.map, Except.ok.injEq, Option.some.injEq] at hag
      have hb := (tree_auction_budget_balanced (fixedSolver_contract p0) ht hn hA).2
      have e1 : trade.numOfDeals = tr.numOfDeals := by
        have := congrArg TradeWithMultipleRecipes.numOfDeals hag
        exact this
      have e2 : trade.gainFromTrade = tr.gainFromTrade := by
        have := congrArg TradeWithMultipleRecipes.gainFromTrade hag
        exact this
      have e3 : trade.prices = tr.prices := by
        have := congrArg TradeWithMultipleRecipes.prices hag
        exact this
      unfold finalPrice at hb ⊢
      rw [e1, e2, e3]
      exact hb

/-- **C41**, a surplus: counts 2 and 1. Each of the two sellers of a deal receives 4, the buyer pays 9, and 1 is left over. -/
theorem integer_auction_surplus :
    ∃ trade, IntegerAuction.auction ⟨[⟨"seller", [-1, -4, -4, -5]⟩, ⟨"buyer", [10, 9]⟩]⟩ [.int 0, .list [.int 1, .none]] [2, 1] 20 = .ok (some trade) ∧
      trade.numOfDeals = 1 ∧ trade.prices = [-4, 9] ∧ remaining trade 0 = [-1, -4, -4] ∧ remaining trade 1 = [10] ∧
      weightedPathPrice (IntegerTree.countOf [2, 1]) trade [0, 1] = 1 := by
  refine ⟨mkTrade (IntegerTree.countOf [2, 1]) [⟨"seller", [-1, -4, -4]⟩, ⟨"buyer", [10]⟩] ⟨0, .cons 1 .nil .nil⟩ [-4, 9], ?_, ?_⟩ <;> decide +kernel

/-- **C41**, a deficit: counts 3 and 1. Each of the three sellers of a deal receives 6, the buyer pays 16. -/
theorem integer_auction_deficit :
    ∃ trade, IntegerAuction.auction ⟨[⟨"seller", [-1, -2, -3, -4, -5, -6, -7]⟩, ⟨"buyer", [17, 16, 15, 14, 13]⟩]⟩
        [.int 0, .list [.int 1, .none]] [3, 1] 40 = .ok (some trade) ∧
      trade.numOfDeals = 1 ∧ trade.prices = [-6, 16] ∧ remaining trade 0 = [-1, -2, -3, -4] ∧ remaining trade 1 = [17] ∧
      weightedPathPrice (IntegerTree.countOf [3, 1]) trade [0, 1] = -2 := by
  refine ⟨mkTrade (IntegerTree.countOf [3, 1]) [⟨"seller", [-1, -2, -3, -4]⟩, ⟨"buyer", [17]⟩] ⟨0, .cons 1 .nil .nil⟩ [-6, 16], ?_, ?_⟩ <;>
    decide +kernel

/-- **C41**, a deficit without counts, when the indices do not increase along the paths: the deal of the categories 1, 2 and 3 costs the auctioneer
100000000. -/
theorem integer_auction_ones_deficit :
    ∃ trade, IntegerAuction.auction ⟨[⟨"buyer", [9, 8]⟩, ⟨"seller", [-1, -2, -3]⟩, ⟨"A", [-1, -2]⟩, ⟨"B", [7, 6]⟩]⟩
        [.int 1, .list [.int 0, .none, .int 2, .list [.int 3, .none]]] [] 40 = .ok (some trade) ∧
      trade.numOfDeals = 1 ∧ trade.prices = [9, -9, -99999997, 6] ∧
      remaining trade 0 = [] ∧ remaining trade 1 = [-1, -2, -3] ∧ remaining trade 2 = [-1, -2] ∧ remaining trade 3 = [7] ∧
      weightedPathPrice (IntegerTree.countOf []) trade [1, 2, 3] = -100000000 := by
  refine ⟨mkTrade (IntegerTree.countOf []) [⟨"buyer", []⟩, ⟨"seller", [-1, -2, -3]⟩, ⟨"A", [-1, -2]⟩, ⟨"B", [7]⟩]
    ⟨1, .cons 0 .nil (.cons 2 (.cons 3 .nil .nil) .nil)⟩ [9, -9, -99999997, 6], ?_, ?_⟩ <;> decide +kernel

/-- Non-vacuity of C40 and of the balance in C41: a balanced outcome with counts 1, which is also that of the other tree auction. -/
example :
    let m : Market := ⟨[⟨"buyer", [27, 21, 17, 11, 3]⟩, ⟨"seller", [-4, -5, -11]⟩, ⟨"A", [-2, -3, -11]⟩, ⟨"B", [-1, -2, -8]⟩]⟩
    let s : List PyObj := [.int 0, .list [.int 1, .none, .int 2, .list [.int 3, .none]]]
    let t : RecipeTree := ⟨0, .cons 1 .nil (.cons 2 (.cons 3 .nil .nil) .nil)⟩
    RecipeTree.init 4 s = .ok t ∧ (treeNodes t).Nodup ∧ OnesFor [1, 1, 1, 1] 4 ∧ (∀ p ∈ t.pathsToLeaf, p.Pairwise (· < ·)) ∧
      (IntegerAuction.auction m s [1, 1, 1, 1] 100).map (fun o => o.map (fun t => (t.numOfDeals, t.prices, t.gainFromTrade)))
        = .ok (some (2, [5, -5, -3, -2], 41)) := by
  refine ⟨by decide +kernel, by decide, .inr ⟨by simp, by simp⟩, by decide, by decide +kernel⟩

end Auctions.Props
