import Verif.Proofs.IntegerAuction
import Verif.Props.IntegerPrices

set_option autoImplicit false

/-!
# C40 — the tree auction with agent counts, when all counts are 1
-/

namespace Auctions.Props

open Auctions Spec IntegerPrices TreeAuction

/-- A trade without `kmin`, which the two implementations define differently (C32, C52). -/
def withoutKmin (trade : TradeWithMultipleRecipes) : TradeWithMultipleRecipes := { trade with kmin := 0 }

/-- `agent_counts` is omitted (or empty), or says 1 for every category. -/
def OnesFor (counts : List ℕ) (n : ℕ) : Prop := counts = [] ∨ (n ≤ counts.length ∧ ∀ c ∈ counts, c = 1)

theorem countOf_ones {counts : List ℕ} {n i : ℕ} (h : OnesFor counts n) (hi : i < n) : IntegerTree.countOf counts i = 1 := by
  unfold IntegerTree.countOf
  rcases h with rfl | ⟨h1, h2⟩
  · simp
  · split
    · rfl
    · rw [List.getD_eq_getElem?_getD, List.getElem?_eq_getElem (by omega)]
      exact h2 _ (List.getElem_mem _)

theorem integerTree_init_ones {counts : List ℕ} {n : ℕ} {struct : List PyObj} (h : OnesFor counts n) :
    IntegerTree.init n struct counts = RecipeTree.init n struct := by
  unfold IntegerTree.init
  rcases h with rfl | ⟨h1, -⟩
  · simp
  · split
    · rfl
    · rw [min_eq_left h1]

theorem recipes_ones {t : RecipeTree} {n : ℕ} {counts : List ℕ} (ht : TreeOn t n) (h : OnesFor counts n) :
    IntegerTree.recipes t n counts = .ok (t.pathsToLeaf.map (indicator n)) := by
  unfold IntegerTree.recipes
  apply mapM_ok
  intro p hp
  have hp' := ht.path_lt (mem_paths.1 hp)
  have hget : ∀ i < n, (if counts = [] then List.replicate n 1 else counts).getD i 0 = 1 := by
    intro i hi
    have := countOf_ones h hi
    unfold IntegerTree.countOf at this
    split
    · simp [hi]
    · rename_i hne; rw [if_neg hne] at this; exact this
  rw [IntegerTree.recipeFromPath, recipeFromPathLoop_counts]
  · congr 1
    rw [indicator, List.length_replicate]
    apply List.map_congr_left
    intro i hi
    have hi' : i < n := by simpa using hi
    by_cases hip : i ∈ p
    · rw [if_pos hip, if_pos hip, hget i hi']
    · rw [if_neg hip, if_neg hip]; simp [hi']
  · intro i hi
    refine ⟨by simpa using hp' i hi, ?_⟩
    split
    · simpa using hp' i hi
    · rcases h with h | ⟨h, -⟩
      · contradiction
      · have := hp' i hi; omega

theorem initialPricesLoop_length {bound : ℚ} {n D : ℕ} {T : List (List ℕ)} {prices p : List ℚ}
    (h : initialPricesLoop bound n D T prices = .ok p) : p.length = prices.length := by
  induction T generalizing prices with
  | nil => simp only [initialPricesLoop, Except.ok.injEq] at h; rw [h]
  | cons r T ih =>
    rw [initialPricesLoop, bind_ok_iff] at h
    obtain ⟨o, -, h⟩ := h
    cases o with
    | none => exact ih h
    | some j =>
      simp only at h
      rw [bind_ok_iff] at h
      obtain ⟨pj, -, h⟩ := h
      split at h
      · simp at h
      · rw [bind_ok_iff] at h
        obtain ⟨rj, -, h⟩ := h
        have := ih h
        simpa using this

theorem calculateInitialPrices_length {recipes : List (List ℕ)} {bound : ℚ} {p : List ℚ} {n : ℕ}
    (hlen : ∀ r ∈ recipes, r.length = n) (h : calculateInitialPrices recipes bound = .ok p) : p.length = n := by
  cases recipes with
  | nil => simp [calculateInitialPrices] at h
  | cons r rs =>
    rw [calculateInitialPrices] at h
    have := initialPricesLoop_length h
    rw [this, List.length_replicate]; exact hlen r (by simp)

theorem removeLosers_sorted {cats cats' : List AgentCategory} {ps : List ℚ} (hs : ∀ c ∈ cats, SortedDesc c.values)
    (h : removeLosers cats ps = .ok cats') : ∀ c ∈ cats', SortedDesc c.values := by
  induction cats generalizing ps cats' with
  | nil => simp only [removeLosers, Except.ok.injEq] at h; subst h; simp
  | cons c cats ih =>
    cases ps with
    | nil => simp [removeLosers] at h
    | cons p ps =>
      have hcs := hs c (by simp)
      have key : ∃ c', SortedDesc c'.values ∧ ∃ cs', removeLosers cats ps = .ok cs' ∧ c' :: cs' = cats' := by
        rw [removeLosers] at h
        split at h
        · rw [bind_ok_iff] at h
          obtain ⟨low, -, h⟩ := h
          split at h
          · rw [bind_ok_iff] at h
            obtain ⟨c', hc', h⟩ := h
            rw [bind_ok_iff] at h
            obtain ⟨cs', h1, h2⟩ := h
            refine ⟨c', ?_, cs', h1, by simpa using h2⟩
            unfold AgentCategory.removeLowestAgent at hc'
            split at hc'
            · simp at hc'
            · simp only [Except.ok.injEq] at hc'
              subst hc'
              exact List.Pairwise.sublist (List.dropLast_sublist _) hcs
          · rw [bind_ok_iff] at h
            obtain ⟨c', hc', h⟩ := h
            rw [bind_ok_iff] at h
            obtain ⟨cs', h1, h2⟩ := h
            simp only [Except.ok.injEq] at hc'
            subst hc'
            exact ⟨c, hcs, cs', h1, by simpa using h2⟩
        · rw [bind_ok_iff] at h
          obtain ⟨c', hc', h⟩ := h
          rw [bind_ok_iff] at h
          obtain ⟨cs', h1, h2⟩ := h
          simp only [Except.ok.injEq] at hc'
          subst hc'
          exact ⟨c, hcs, cs', h1, by simpa using h2⟩
      obtain ⟨c', h1, cs', h2, rfl⟩ := key
      intro d hd
      rcases List.mem_cons.1 hd with rfl | hd
      · exact h1
      · exact ih (fun c hc => hs c (by simp [hc])) h2 d hd

theorem loop_sorted {t : RecipeTree} {fuel : ℕ} {cats cats' : List AgentCategory} {v v' : SimultaneousAscendingPriceVectors}
    (hs : ∀ c ∈ cats, SortedDesc c.values) (h : loop t fuel cats v = .ok (some (cats', v'))) :
    ∀ c ∈ cats', SortedDesc c.values := by
  induction fuel generalizing cats v with
  | zero => simp [loop] at h
  | succ fuel ih =>
    rw [loop] at h
    simp only at h
    split at h
    · simp only [Except.ok.injEq, Option.some.injEq, Prod.mk.injEq] at h
      rw [← h.1]; exact hs
    · rw [bind_ok_iff] at h
      obtain ⟨incs, -, h⟩ := h
      rw [bind_ok_iff] at h
      obtain ⟨v1, -, h⟩ := h
      split at h
      · simp only [Except.ok.injEq, Option.some.injEq, Prod.mk.injEq] at h
        rw [← h.1]; exact hs
      · rw [bind_ok_iff] at h
        obtain ⟨cats1, h1, h⟩ := h
        exact ih (removeLosers_sorted hs h1) h

theorem mkTrade_ones {t : RecipeTree} {cnt : ℕ → ℕ} {cats : List AgentCategory} {ps : List ℚ} (hc : ∀ i ∈ treeNodes t, cnt i = 1)
    (hs : ∀ c ∈ cats, SortedDesc c.values) :
    withoutKmin (IntegerAuction.mkTrade cnt cats t ps) = withoutKmin (TradeWithMultipleRecipes.init cats t ps) := by
  have hc' : ∀ i ∈ nodes t.forest, cnt i = 1 := by rw [treeNodes_eq]; exact hc
  have hvs : ∀ i, SortedDesc (valuesAt cats i) := by
    intro i
    by_cases hi : i < cats.length
    · rw [valuesAt_get hi]; exact hs _ (List.getElem_mem hi)
    · rw [valuesAt_ge (by omega)]; exact List.Pairwise.nil
  have hgft : IntegerTree.optimalTradeGFT t cnt (valuesAt cats) = t.optimalTradeGFT (valuesAt cats) := by
    have h1 := IntegerTree.combinedValues_sums (cnt := cnt) (vals := valuesAt cats) (f := t.forest)
      (fun i hi => by rw [hc' i hi]; omega)
    have h2 : ∀ f : Forest, (∀ i ∈ nodes f, cnt i = 1) →
        f.combinedValues (fun i => (IntegerTree.groups (cnt i) (sortDesc (valuesAt cats i))).map List.sum)
          = f.combinedValues (valuesAt cats) := by
      intro f hf
      induction f with
      | nil => rfl
      | cons i ch s ih1 ih2 =>
        have e : (IntegerTree.groups (cnt i) (sortDesc (valuesAt cats i))).map List.sum = valuesAt cats i := by
          rw [hf i (by simp [nodes]), IntegerTree.groups_one, sortDesc_of_sorted (hvs i), List.map_map]
          exact (List.map_congr_left (fun a _ => by simp)).trans (List.map_id _)
        rw [combinedValues_cons, combinedValues_cons, ih2 (fun j hj => hf j (by simp [nodes, hj]))]
        congr 1
        cases ch with
        | nil => simp only [nodeValues]; exact e
        | cons j c r =>
          simp only [nodeValues]
          rw [e, ih1 (fun k hk => hf k (by rw [nodes, List.mem_cons, List.mem_append]; exact Or.inr (Or.inl hk)))]
    rw [h2 _ hc'] at h1
    rw [IntegerTree.optimalTradeGFT, RecipeTree.optimalTradeGFT, RecipeTree.combinedValues, ← h1, List.filter_map]
    rfl
  have hexp : ∀ f : Forest, (∀ i ∈ nodes f, cnt i = 1) →
      f.numOfDealsExplained (fun i => sizeAt cats i / cnt i) = f.numOfDealsExplained (sizeAt cats) := by
    intro f hf
    induction f with
    | nil => rfl
    | cons i ch s ih1 ih2 =>
      rw [numOfDealsExplained_cons, numOfDealsExplained_cons, ih1 (fun j hj => hf j (by simp [nodes, hj])),
        ih2 (fun j hj => hf j (by simp [nodes, hj])), hf i (by simp [nodes]), Nat.div_one]
  obtain ⟨e, he⟩ := integer_explained_eq t cnt (sizeAt cats)
  have hd := IntegerTree.explained_div cnt (sizeAt cats) t.forest
  have hlen : t.forest.numOfDealsExplained (sizeAt cats) = [t.numOfDealsExplained (sizeAt cats)] := by
    rw [RecipeTree.numOfDealsExplained, RecipeTree.forest, numOfDealsExplained_cons]; rfl
  rw [hexp _ hc', hlen, he] at hd
  simp only [List.map_cons, List.map_nil, List.cons.injEq, and_true, Prod.mk.injEq] at hd
  unfold withoutKmin IntegerAuction.mkTrade TradeWithMultipleRecipes.init
  simp only [he, List.headD_cons, hd.1, hd.2, hgft]

/-- **C40**. On a structure that denotes a tree of at least two categories, all different, with `agent_counts` omitted or all 1, the tree
auction with counts does exactly what the other tree auction does when started from the same initial prices: the same exception,
the same number of iterations, and the same categories, prices, number of deals, `kmax` and gain. -/
theorem integer_auction_agrees {m : Market} {struct : List PyObj} {counts : List ℕ} {t : RecipeTree}
    (ht : RecipeTree.init m.numCategories struct = .ok t) (hn : (treeNodes t).Nodup) (hch : t.children ≠ .nil)
    (hcounts : OnesFor counts m.numCategories) (fuel : ℕ) :
    (IntegerAuction.auction m struct counts fuel).map (Option.map withoutKmin)
      = (auction calculateInitialPrices m struct fuel).map (Option.map withoutKmin) := by
  have hto := treeOn_of_init ht hn
  have hc : m.categories ≠ [] := by
    have := hto.lt t.index (by simp [treeNodes])
    intro h
    simp [Market.numCategories, h] at this
  have hcnt : ∀ i ∈ treeNodes t, IntegerTree.countOf counts i = 1 := fun i hi => countOf_ones hcounts (hto.lt i hi)
  have hnum : (⟨m.sorted⟩ : Market).numCategories = m.numCategories := m.sorted_length
  obtain ⟨deals, -, -, -, ho⟩ := tree_optimal_trade (vals := valuesAt m.sorted) hn hch
  have hlen : ∀ r ∈ t.pathsToLeaf.map (indicator m.numCategories), r.length = m.numCategories := by
    intro r hr
    obtain ⟨p, -, rfl⟩ := List.mem_map.1 hr
    simp [indicator]
  have hinit : IntegerPrices.SimultaneousAscendingPriceVectors.init (t.pathsToLeaf.map (indicator m.numCategories)) (-MAX_VALUE) []
      = (calculateInitialPrices (t.pathsToLeaf.map (indicator m.numCategories)) (-MAX_VALUE)).map
        (fun p0 => IntegerAuction.lift m.numCategories (startVector t m.numCategories p0)) := by
    have hne := paths_ne_nil t
    generalize hR : t.pathsToLeaf.map (indicator m.numCategories) = R at hlen
    have hRne : R ≠ [] := by rw [← hR]; simpa using hne
    cases R with
    | nil => exact absurd rfl hRne
    | cons r rs =>
      rw [IntegerPrices.SimultaneousAscendingPriceVectors.init, if_neg]
      · cases calculateInitialPrices (r :: rs) (-MAX_VALUE) with
        | error e => rfl
        | ok p =>
          simp only [bind, Except.bind, Except.map, IntegerAuction.lift, startVector, hR, countsOrOnes, if_true, hlen r (by simp)]
      · simp only [List.any_eq_true, not_exists, not_and, decide_eq_true_eq, Decidable.not_not]
        intro q hq
        rw [hlen q hq, hlen r (by simp)]
  have hrec := recipes_ones hto hcounts
  have hini := integerTree_init_ones (struct := struct) hcounts
  rw [ht] at hini
  unfold IntegerAuction.auction auction
  rw [Market.clone_eq hc]
  simp only [bind, Except.bind, hnum, ht, hini, hrec, recipes_of_treeOn hto, ho, hinit]
  cases hp : calculateInitialPrices (t.pathsToLeaf.map (indicator m.numCategories)) (-MAX_VALUE) with
  | error e => rfl
  | ok p0 =>
    have hpl := calculateInitialPrices_length hlen hp
    simp only [Except.map, init_vector]
    have hl := IntegerAuction.loop_lift hto hcnt fuel (cats := m.sorted) (v := startVector t m.numCategories p0) m.sorted_length rfl hpl
    rw [hl]
    have hsv : (⟨t.pathsToLeaf.map (indicator m.numCategories), p0, none⟩ : SimultaneousAscendingPriceVectors)
      = startVector t m.numCategories p0 := rfl
    rw [hsv]
    cases hL : loop t fuel m.sorted (startVector t m.numCategories p0) with
    | error e => rfl
    | ok o =>
      cases o with
      | none => rfl
      | some cv =>
        obtain ⟨cats, v⟩ := cv
        have hss : ∀ c ∈ m.sorted, SortedDesc c.values := by
          intro c hcm
          obtain ⟨c0, -, rfl⟩ := List.mem_map.1 hcm
          exact sortDesc_sorted _
        have := mkTrade_ones (ps := v.prices) hcnt (loop_sorted hss hL)
        simp only [Except.map, Option.map, IntegerAuction.lift]
        rw [this]

end Auctions.Props
