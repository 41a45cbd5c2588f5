import Verif.Props.SameMarket

set_option autoImplicit false

/-!
# C100 — renumbered categories and another order of the alternatives, from corresponding initial prices

Unlike in C99, there may be ties and empty categories, and the values may be of any size. In exchange, both auctions start at the same prices. Then they go through the same iterations: if one of them
never ends, then the other one does not end either.
-/

namespace Auctions.Props

open Auctions Spec TreeAuction
open Auctions.SameTree (Same)

section

variable {t t' : RecipeTree} {n n' : ℕ} {σ : ℕ → ℕ}

/-- The states of the two auctions. -/
structure Parallel (σ : ℕ → ℕ) (t : RecipeTree) (cats : List AgentCategory) (v : SimultaneousAscendingPriceVectors) (cats' : List AgentCategory) (v' : SimultaneousAscendingPriceVectors) : Prop where
  values : ∀ i ∈ nodes t.forest, valuesAt cats' (σ i) = valuesAt cats i
  prices : ∀ i ∈ nodes t.forest, priceAt v' (σ i) = priceAt v i

variable {cats cats' : List AgentCategory} {v v' : SimultaneousAscendingPriceVectors}

theorem Parallel.size (h : Parallel σ t cats v cats' v') {i : ℕ} (hi : i ∈ nodes t.forest) : sizeAt cats' (σ i) = sizeAt cats i := by
  rw [sizeAt_eq, sizeAt_eq, h.values i hi]

theorem Parallel.target (h : Parallel σ t cats v cats' v') {i : ℕ} (hi : i ∈ nodes t.forest) : target cats' (σ i) = target cats i := by
  unfold Auctions.target; rw [h.values i hi]

variable (hinj : ∀ i ∈ nodes t.forest, ∀ j ∈ nodes t.forest, σ i = σ j → i = j) (htree : SameTree.Shuffled (SameTree.rename σ t.forest) t'.forest)
include hinj htree

theorem Parallel.cut (h : Parallel σ t cats v cats' v') {j : ℕ} : j ∈ cutOf t' cats' ↔ ∃ i ∈ cutOf t cats, σ i = j := by
  have := (htree.largest (sizeAt cats')).mem_iff (a := j)
  rw [SameTree.largest_rename, largest_agree (size' := sizeAt cats) fun i hi => h.size hi, List.mem_map] at this
  exact this.symm

theorem Parallel.cut_mem (h : Parallel σ t cats v cats' v') {i : ℕ} (hi : i ∈ nodes t.forest) : σ i ∈ cutOf t' cats' ↔ i ∈ cutOf t cats := by
  rw [h.cut hinj htree]
  constructor
  · rintro ⟨j, hj, e⟩
    rwa [← hinj j (forest_nodes.2 (Auctions.cut_mem j hj)) i hi e]
  · exact fun hc => ⟨i, hc, rfl⟩

/-- The smallest possible raise is the same. -/
theorem Parallel.raise (h : Parallel σ t cats v cats' v') {d d' : ℚ} (h1 : ∀ i ∈ cutOf t cats, d ≤ Auctions.target cats i - priceAt v i)
    (h2 : ∃ i ∈ cutOf t cats, Auctions.target cats i - priceAt v i = d) (h1' : ∀ i ∈ cutOf t' cats', d' ≤ Auctions.target cats' i - priceAt v' i)
    (h2' : ∃ i ∈ cutOf t' cats', Auctions.target cats' i - priceAt v' i = d') : d' = d := by
  obtain ⟨i, hi, e⟩ := h2
  obtain ⟨j, hj, e'⟩ := h2'
  obtain ⟨k, hk, rfl⟩ := (h.cut hinj htree).1 hj
  have a1 := h1 k hk
  have a2 := h1' (σ i) ((h.cut hinj htree).2 ⟨i, hi, rfl⟩)
  have ni := forest_nodes.2 (Auctions.cut_mem i hi)
  have nk := forest_nodes.2 (Auctions.cut_mem k hk)
  rw [h.target ni, h.prices i ni] at a2
  rw [h.target nk, h.prices k nk] at e'
  linarith

/-- The two loops run in parallel. -/
theorem loops_parallel (hto : TreeOn t n) (hto' : TreeOn t' n') (hroot : t'.index = σ t.index) {cats0 cats0' : List AgentCategory} {s : ℚ} (fuel : ℕ)
    (hi : TInv t n cats0 cats v s) (hi' : TInv t' n' cats0' cats' v' s) (h : Parallel σ t cats v cats' v') :
    (loop t fuel cats v = .ok none ∧ loop t' fuel cats' v' = .ok none) ∨
    ∃ c w c' w' r, loop t fuel cats v = .ok (some (c, w)) ∧ loop t' fuel cats' v' = .ok (some (c', w')) ∧ TInv t n cats0 c w r ∧ TInv t' n' cats0' c' w' r ∧ Parallel σ t c w c' w' := by
  induction fuel generalizing cats v cats' v' s with
  | zero => exact Or.inl ⟨rfl, rfl⟩
  | succ fuel ih =>
    have hsz : sizeAt cats' t'.index = sizeAt cats t.index := by
      rw [hroot]; exact h.size (by simp [RecipeTree.forest, nodes])
    rcases tree_loop_step hto hi fuel with ⟨h1, h2⟩ | ⟨h1, w, d, h2, h3, h4, h5, h6, h7⟩ | ⟨h1, cs, w, d, h2, h3, h4, h5⟩
    · rcases tree_loop_step hto' hi' fuel with ⟨k1, k2⟩ | ⟨k1, -⟩ | ⟨k1, -⟩
      · exact Or.inr ⟨_, _, _, _, _, h2, k2, hi, hi', h⟩
      · exact absurd (hsz.trans h1) k1
      · exact absurd (hsz.trans h1) k1
    · rcases tree_loop_step hto' hi' fuel with ⟨k1, k2⟩ | ⟨k1, w', d', k2, k3, k4, k5, k6, k7⟩ | ⟨k1, cs', w', d', k2, k3, k4, k5⟩
      · exact absurd (hsz.symm.trans k1) h1
      · refine Or.inr ⟨_, _, _, _, _, h2, k2, h3, k3, h.values, fun i hi => ?_⟩
        rw [h7, k7, h.prices i hi]
        simp only [h.cut_mem hinj htree hi]
      · exfalso
        have := h.raise hinj htree h4 h5 (d' := d') (fun i hi => by have := k5.le i hi; linarith) (by obtain ⟨i, a, e⟩ := k5.reached; exact ⟨i, a, by linarith⟩)
        linarith
    · rcases tree_loop_step hto' hi' fuel with ⟨k1, k2⟩ | ⟨k1, w', d', k2, k3, k4, k5, k6, k7⟩ | ⟨k1, cs', w', d', k2, k3, k4, k5⟩
      · exact absurd (hsz.symm.trans k1) h1
      · exfalso
        have := h.raise hinj htree (d := d) (fun i hi => by have := h5.le i hi; linarith) (by obtain ⟨i, a, e⟩ := h5.reached; exact ⟨i, a, by linarith⟩) k4 k5
        linarith
      · obtain rfl := h.raise hinj htree (d := d) (d' := d') (fun i hi => by have := h5.le i hi; linarith) (by obtain ⟨i, a, e⟩ := h5.reached; exact ⟨i, a, by linarith⟩)
          (fun i hi => by have := k5.le i hi; linarith) (by obtain ⟨i, a, e⟩ := k5.reached; exact ⟨i, a, by linarith⟩)
        have hp : ∀ i ∈ nodes t.forest, priceAt w' (σ i) = priceAt w i := by
          intro i hi
          rw [h5.price, k5.price, h.prices i hi]
          simp only [h.cut_mem hinj htree hi]
        rw [h2, k2]
        refine ih h4 k4 ⟨fun i hi => ?_, hp⟩
        rw [h5.values, k5.values, h.values i hi, hp i hi]

end

section

variable {f g : List (List ℕ) → ℚ → Py (List ℚ)} {m m' : Market} {struct struct' : List PyObj} {t t' : RecipeTree}

/-- **C100**. The same market and recipe tree with other category numbers and another order of the alternatives, and corresponding initial prices: the two auctions go through the same iterations.
Either both are still running after `fuel` iterations, or both have ended, with the same agents and the same prices category by category, and the same numbers of deals and gain. -/
theorem tree_auction_reordered_same_start (ht : RecipeTree.init m.numCategories struct = .ok t) (hn : (treeNodes t).Nodup) (hch : t.children ≠ .nil)
    (ht' : RecipeTree.init m'.numCategories struct' = .ok t') (hn' : (treeNodes t').Nodup)
    {σ : ℕ → ℕ} (hσ : ∀ i ∈ treeNodes t, ∀ j ∈ treeNodes t, σ i = σ j → i = j) (hpaths : ∀ q, TreePath t' q ↔ ∃ p, TreePath t p ∧ q = p.map σ)
    (hvalues : ∀ i ∈ treeNodes t, (m'.valueLists.getD (σ i) []).Perm (m.valueLists.getD i []))
    {p p' : List ℚ} (hf : f (t.pathsToLeaf.map (indicator m.numCategories)) (-MAX_VALUE) = .ok p) (hp : InitialPrices (t.pathsToLeaf.map (indicator m.numCategories)) (-MAX_VALUE) p)
    (hg : g (t'.pathsToLeaf.map (indicator m'.numCategories)) (-MAX_VALUE) = .ok p') (hp' : InitialPrices (t'.pathsToLeaf.map (indicator m'.numCategories)) (-MAX_VALUE) p')
    (hpp : ∀ i ∈ treeNodes t, p'[σ i]? = p[i]?) (fuel : ℕ) :
    (auction f m struct fuel = .ok none ∧ auction g m' struct' fuel = .ok none) ∨
    ∃ trade trade', auction f m struct fuel = .ok (some trade) ∧ auction g m' struct' fuel = .ok (some trade') ∧
      (∀ i ∈ treeNodes t, (trade'.categories.map AgentCategory.values).getD (σ i) [] = (trade.categories.map AgentCategory.values).getD i []) ∧
      (∀ i ∈ treeNodes t, trade'.prices[σ i]? = trade.prices[i]?) ∧
      trade'.numOfDeals = trade.numOfDeals ∧ trade'.kmin = trade.kmin ∧ trade'.kmax = trade.kmax ∧ trade'.gainFromTrade = trade.gainFromTrade := by
  have hto := treeOn_of_init ht hn
  have hto' := treeOn_of_init ht' hn'
  have hs : SameMarket σ 1 (fun _ => 0) m t m' t' := by
    refine ⟨one_pos, hσ, hpaths, fun p _ => by simp, fun i hi => ?_⟩
    simpa using hvalues i hi
  have hS := sameMarket_same hs hn hn'
  have hch' : t'.children ≠ .nil := by
    intro h0
    obtain ⟨l, hl⟩ := exists_path hch
    have h1 : TreePath t' ((t.index :: l).map σ) := (hpaths _).2 ⟨_, isPath_cons.2 (Or.inr (Or.inl ⟨l, rfl, hl⟩)), rfl⟩
    rw [TreePath, h0, isPath_cons] at h1
    rcases h1 with ⟨-, e⟩ | ⟨q, -, h1⟩ | h1
    · have := isPath_ne_nil hl
      simp only [List.map_cons, List.cons.injEq, List.map_eq_nil_iff] at e
      exact this e.2
    · exact isPath_nil h1
    · exact isPath_nil h1
  have cat : ∀ {m : Market} {t : RecipeTree}, TreeOn t m.numCategories → m.categories ≠ [] := by
    intro m t h h0
    have := h.lt t.index (by simp [treeNodes])
    simp [Market.numCategories, h0] at this
  obtain ⟨_, -, -, -, ho⟩ := tree_optimal_trade (vals := valuesAt m.sorted) hn hch
  obtain ⟨_, -, -, -, ho'⟩ := tree_optimal_trade (vals := valuesAt m'.sorted) hn' hch'
  rw [auction_eq fuel (cat hto) ht hn ho hf, auction_eq fuel (cat hto') ht' hn' ho' hg]
  obtain ⟨s, hi, -, -⟩ := start_inv hto hp
  obtain ⟨s', hi', -, -⟩ := start_inv hto' hp'
  have hpar : Parallel σ t m.sorted (startVector t m.numCategories p) m'.sorted (startVector t' m'.numCategories p') := by
    refine ⟨fun i hi => by simpa using hS.values i hi, fun i hi => ?_⟩
    have := hpp i (forest_nodes.1 hi)
    simp only [priceAt, startVector, List.getD_eq_getElem?_getD, this]
  obtain rfl : s' = s := by
    obtain ⟨l, hl⟩ := treePath_exists t
    have e1 := hi.fits.balanced l hl
    have e2 := hi'.fits.balanced (l.map σ) ((hpaths _).2 ⟨l, hl, rfl⟩)
    rw [← e1, ← e2, pathSum, pathSum, List.map_map]
    congr 1
    apply List.map_congr_left
    intro i hi
    exact hpar.prices i (isPath_subset hl i hi)
  rcases loops_parallel hS.inj hS.tree hto hto' hS.root fuel hi hi' hpar with ⟨e1, e2⟩ | ⟨c, w, c', w', r, e1, e2, i1, i2, hP⟩
  · left; rw [e1, e2]; exact ⟨rfl, rfl⟩
  · right
    rw [e1, e2]
    refine ⟨_, _, rfl, rfl, ?_, ?_, ?_⟩
    · intro i hi
      have := hP.values i (forest_nodes.2 hi)
      rwa [← vAt_valuesAt, ← vAt_valuesAt] at this
    · intro i hi
      have h1 := hP.prices i (forest_nodes.2 hi)
      have h2 := hto.lt i hi
      have h3 := hto'.lt (σ i) (forest_nodes.1 (hS.node.2 ⟨i, forest_nodes.2 hi, rfl⟩))
      have h4 := i1.fits.length
      have h5 := i2.fits.length
      simp only [priceAt, List.getD_eq_getElem?_getD] at h1
      simp only [TradeWithMultipleRecipes.init]
      rw [List.getElem?_eq_getElem (show i < w.prices.length by omega), List.getElem?_eq_getElem (show σ i < w'.prices.length by omega)] at h1 ⊢
      simpa using h1
    · have hsame2 : Same σ 1 (fun _ => 0) (valuesAt c) (valuesAt c') t t' := ⟨hS.pos, hS.inj, hS.tree, fun i hi => by simpa using hP.values i hi⟩
      have hexp : t'.numOfDealsExplained (sizeAt c') = t.numOfDealsExplained (sizeAt c) := hsame2.explained fun i hi => hP.size hi
      have hgain := hsame2.gain hn hn' hs.cancel (fun i _ => i1.sorted i) (fun i _ => i2.sorted i)
      simp only [TradeWithMultipleRecipes.init, hexp, hgain, one_mul, and_self]

end

/-- Non-vacuity of C100: the market of `initial_prices_matter_ties`, which has a tie, and the market of `initial_prices_matter_empty`, which has an empty category and on which the auction never ends
(here: not within 100 iterations); both also with the categories numbered backwards and the alternatives in the other order. -/
example :
    let m : Market := ⟨[⟨"0", [89, 70, 42]⟩, ⟨"1", [-41, -1]⟩, ⟨"2", [-50, -15]⟩, ⟨"3", [-13]⟩, ⟨"4", [-7, -7]⟩, ⟨"5", [-13]⟩]⟩
    let m' : Market := ⟨m.categories.reverse⟩
    let e : Market := ⟨[⟨"0", [40, 30, 20]⟩, ⟨"1", [-8]⟩, ⟨"2", []⟩, ⟨"3", [-2]⟩, ⟨"4", [-3]⟩, ⟨"5", [-4]⟩]⟩
    let e' : Market := ⟨e.categories.reverse⟩
    let t : RecipeTree := ⟨0, .cons 1 (.cons 2 .nil .nil) (.cons 3 (.cons 4 (.cons 5 .nil .nil) .nil) .nil)⟩
    let t' : RecipeTree := ⟨5, .cons 2 (.cons 1 (.cons 0 .nil .nil) .nil) (.cons 4 (.cons 3 .nil .nil) .nil)⟩
    let struct' : List PyObj := [.int 5, .list [.int 2, .list [.int 1, .list [.int 0, .none]], .int 4, .list [.int 3, .none]]]
    RecipeTree.init 6 twoBranches = .ok t ∧ RecipeTree.init 6 struct' = .ok t' ∧ (treeNodes t).Nodup ∧ (treeNodes t').Nodup ∧
    (∀ i ∈ treeNodes t, ∀ j ∈ treeNodes t, 5 - i = 5 - j → i = j) ∧
    (∀ i ∈ treeNodes t, (m'.valueLists.getD (5 - i) []).Perm (m.valueLists.getD i [])) ∧ (∀ i ∈ treeNodes t, (e'.valueLists.getD (5 - i) []).Perm (e.valueLists.getD i [])) ∧
    fixedSolver bestPrices1 (t.pathsToLeaf.map (indicator 6)) (-MAX_VALUE) = .ok bestPrices1 ∧ fixedSolver bestPrices1.reverse (t'.pathsToLeaf.map (indicator 6)) (-MAX_VALUE) = .ok bestPrices1.reverse ∧
    (∀ i ∈ treeNodes t, bestPrices1.reverse[5 - i]? = bestPrices1[i]?) ∧
    (auction (fixedSolver bestPrices1.reverse) m' struct' 30).map (fun o => o.map fun t => (t.numOfDeals, t.gainFromTrade)) = .ok (some (1, 73)) ∧
    auction (fixedSolver bestPrices1.reverse) e' struct' 100 = .ok none := by
  refine ⟨by decide +kernel, by decide +kernel, by decide, by decide, by decide, by decide +kernel, by decide +kernel, by decide +kernel, by decide +kernel, by decide +kernel, by decide +kernel, by decide +kernel⟩

end Auctions.Props
