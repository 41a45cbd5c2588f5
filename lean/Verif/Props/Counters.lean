import Verif.Model.Counters
import Verif.Props.Tree

set_option autoImplicit false

/-!
# C56 — optimal trades with a counter for every leaf
-/

namespace Auctions.Props

open Auctions Spec

/-- What `combined_values_detailed_with_counters` returns for the first tree of a forest. -/
def counterNode (vals : ℕ → List ℚ) (i : ℕ) (ch : Forest) (store : List ℕ) : List (ℚ × ℕ) × List ℕ :=
  match ch with
  | .nil => ((vals i).map (fun v => (v, store.length)), store ++ [0])
  | .cons .. =>
    let first := ch.combinedWithCounters vals store
    let second := ch.combinedWithCounters vals first.2
    (List.zipWith (fun (c : ℚ × ℕ) (v : ℚ) => (c.1 + v, c.2)) (Forest.sortByValueDesc second.1) (sortDesc (vals i)), second.2)

theorem combinedWithCounters_cons (vals : ℕ → List ℚ) (i : ℕ) (ch s : Forest) (store : List ℕ) :
    (Forest.cons i ch s).combinedWithCounters vals store
      = ((counterNode vals i ch store).1 ++ (s.combinedWithCounters vals (counterNode vals i ch store).2).1,
        (s.combinedWithCounters vals (counterNode vals i ch store).2).2) := by
  cases ch <;> rw [Forest.combinedWithCounters] <;> rfl

theorem counterNode_of_ne (vals : ℕ → List ℚ) (i : ℕ) {ch : Forest} (h : ch ≠ .nil) (store : List ℕ) :
    counterNode vals i ch store
      = (List.zipWith (fun (c : ℚ × ℕ) (v : ℚ) => (c.1 + v, c.2))
          (Forest.sortByValueDesc (ch.combinedWithCounters vals (ch.combinedWithCounters vals store).2).1) (sortDesc (vals i)),
        (ch.combinedWithCounters vals (ch.combinedWithCounters vals store).2).2) := by
  cases ch with
  | nil => exact absurd rfl h
  | cons j c s => rfl

theorem zip_counted (i : ℕ) (vs : List ℚ) (ds : List TreeDeal) (a b : List ℕ → ℕ) (h : ∀ p, b (i :: p) = a p) :
    List.zipWith (fun (c : ℚ × ℕ) (v : ℚ) => (c.1 + v, c.2)) (ds.map (fun d => (treeGain d, a (d.map Prod.fst)))) vs
      = (List.zipWith (fun v d => (i, v) :: d) vs ds).map (fun d => (treeGain d, b (d.map Prod.fst))) := by
  induction vs generalizing ds with
  | nil => simp
  | cons v vs ih =>
    cases ds with
    | nil => simp
    | cons d ds =>
      simp only [List.map_cons, List.zipWith_cons_cons, ih, h]
      congr 2
      simp [treeGain]; ring

/-- The deals with counters are the deals formed by `combined_values_detailed`, in the same order, and every path has its own counter. -/
theorem combinedWithCounters_eq {vals : ℕ → List ℚ} (f : Forest) (hn : (nodes f).Nodup) (hs : ∀ i ∈ nodes f, SortedDesc (vals i))
    (store : List ℕ) :
    ∃ a : List ℕ → ℕ, (f.combinedWithCounters vals store).1 = (treeDeals vals f).map (fun d => (treeGain d, a (d.map Prod.fst))) ∧
      (∀ p q, IsPath f p → IsPath f q → a p = a q → p = q) ∧
      (∀ p, IsPath f p → store.length ≤ a p ∧ a p < (f.combinedWithCounters vals store).2.length) ∧
      ∃ n, (f.combinedWithCounters vals store).2 = store ++ List.replicate n 0 := by
  induction f generalizing store with
  | nil => exact ⟨fun _ => 0, rfl, fun p q hp => absurd hp isPath_nil, fun p hp => absurd hp isPath_nil, 0, by simp [Forest.combinedWithCounters]⟩
  | cons i ch s ih1 ih2 =>
    rw [nodes, List.nodup_cons, List.mem_append, List.nodup_append] at hn
    obtain ⟨hi, hch, hsn, hdis⟩ := hn
    push Not at hi
    have hs1 : ∀ j ∈ nodes ch, SortedDesc (vals j) := fun j hj => hs j (by simp [nodes, hj])
    have hs2 : ∀ j ∈ nodes s, SortedDesc (vals j) := fun j hj => hs j (by simp [nodes, hj])
    have hsi : SortedDesc (vals i) := hs i (by simp [nodes])
    -- the first tree
    have hnode : ∃ b : List ℕ → ℕ, (counterNode vals i ch store).1
          = (nodeDeals vals i ch).map (fun d => (treeGain d, b (d.map Prod.fst))) ∧
        (∀ p q, IsPath (.cons i ch .nil) p → IsPath (.cons i ch .nil) q → b p = b q → p = q) ∧
        (∀ p, IsPath (.cons i ch .nil) p → store.length ≤ b p ∧ b p < (counterNode vals i ch store).2.length) ∧
        ∃ n, (counterNode vals i ch store).2 = store ++ List.replicate n 0 := by
      by_cases hc : ch = .nil
      · subst hc
        refine ⟨fun _ => store.length, ?_, ?_, ?_, 1, rfl⟩
        · simp [counterNode, nodeDeals, treeGain, Function.comp_def]
        · intro p q hp hq _
          rw [isPath_cons] at hp hq
          rcases hp with ⟨-, rfl⟩ | ⟨q', -, hp⟩ | hp
          · rcases hq with ⟨-, rfl⟩ | ⟨q', -, hq⟩ | hq
            · rfl
            · exact absurd hq isPath_nil
            · exact absurd hq isPath_nil
          · exact absurd hp isPath_nil
          · exact absurd hp isPath_nil
        · intro p _
          simp [counterNode]
      · obtain ⟨-, -, -, -, n1, h1⟩ := ih1 hch hs1 store
        obtain ⟨a, h2, h3, h4, n2, h5⟩ := ih1 hch hs1 (ch.combinedWithCounters vals store).2
        have hpath : ∀ p, IsPath (.cons i ch .nil) p → ∃ q, p = i :: q ∧ IsPath ch q := by
          intro p hp
          rw [isPath_cons] at hp
          rcases hp with ⟨h, -⟩ | h | h
          · exact absurd h hc
          · exact h
          · exact absurd h isPath_nil
        rw [counterNode_of_ne vals i hc]
        refine ⟨fun p => a p.tail, ?_, ?_, ?_, n1 + n2, ?_⟩
        · simp only
          rw [nodeDeals_of_ne _ _ hc, sortDesc_of_sorted hsi, h2, Forest.sortByValueDesc]
          rw [← List.map_insertionSort (r := fun x y => treeGain x ≥ treeGain y)]
          · exact zip_counted i _ _ a (fun p => a p.tail) (fun p => rfl)
          · intro x _ y _; exact Iff.rfl
        · intro p q hp hq he
          obtain ⟨p', rfl, hp'⟩ := hpath p hp
          obtain ⟨q', rfl, hq'⟩ := hpath q hq
          rw [h3 p' q' hp' hq' he]
        · intro p hp
          obtain ⟨p', rfl, hp'⟩ := hpath p hp
          have := h4 p' hp'
          refine ⟨?_, this.2⟩
          have h6 := this.1
          rw [h1, List.length_append] at h6
          simp only [List.tail_cons]; omega
        · rw [h5, h1, List.append_assoc, List.replicate_append_replicate]
    obtain ⟨b, e1, e2, e3, n1, e4⟩ := hnode
    obtain ⟨a, f1, f2, f3, n2, f4⟩ := ih2 hsn hs2 (counterNode vals i ch store).2
    have hhead : ∀ p, IsPath (.cons i ch s) p → (p.head? = some i ∧ IsPath (.cons i ch .nil) p) ∨ (p.head? ≠ some i ∧ IsPath s p) := by
      intro p hp
      rw [isPath_cons] at hp
      rcases hp with ⟨h, rfl⟩ | ⟨q, rfl, hq⟩ | hp
      · exact Or.inl ⟨rfl, isPath_cons.2 (Or.inl ⟨h, rfl⟩)⟩
      · exact Or.inl ⟨rfl, isPath_cons.2 (Or.inr (Or.inl ⟨q, rfl, hq⟩))⟩
      · refine Or.inr ⟨fun he => ?_, hp⟩
        exact hi.2 (isPath_subset hp i (List.mem_of_mem_head? (by simp [he])))
    rw [combinedWithCounters_cons]
    refine ⟨fun p => if p.head? = some i then b p else a p, ?_, ?_, ?_, n1 + n2, ?_⟩
    · simp only
      rw [treeDeals_cons, List.map_append, e1, f1]
      congr 1
      · apply List.map_congr_left
        intro d hd
        have hp : (d.map Prod.fst).head? = some i := by
          by_cases hc : ch = .nil
          · subst hc
            simp only [nodeDeals, List.mem_map] at hd
            obtain ⟨v, -, rfl⟩ := hd; rfl
          · rw [nodeDeals_of_ne _ _ hc] at hd
            obtain ⟨k, hk, rfl⟩ := List.getElem_of_mem hd
            rw [List.getElem_zipWith]; rfl
        simp [hp]
      · apply List.map_congr_left
        intro d hd
        have hp : (d.map Prod.fst).head? ≠ some i := by
          intro he
          exact hi.2 (isPath_subset (treeDeals_path vals s d hd) i (List.mem_of_mem_head? (by rw [Option.mem_def]; exact he)))
        rw [if_neg hp]
    · intro p q hp hq he
      simp only at he
      have hgap : ∀ p q, IsPath (.cons i ch .nil) p → IsPath s q → b p ≠ a q := by
        intro p q hp hq h
        have := (e3 p hp).2
        have := (f3 q hq).1
        omega
      rcases hhead p hp with ⟨h1, h2⟩ | ⟨h1, h2⟩ <;> rcases hhead q hq with ⟨h3, h4⟩ | ⟨h3, h4⟩
      · rw [if_pos h1, if_pos h3] at he
        exact e2 p q h2 h4 he
      · rw [if_pos h1, if_neg h3] at he
        exact absurd he (hgap p q h2 h4)
      · rw [if_neg h1, if_pos h3] at he
        exact absurd he.symm (hgap q p h4 h2)
      · rw [if_neg h1, if_neg h3] at he
        exact f2 p q h2 h4 he
    · intro p hp
      have hl : (counterNode vals i ch store).2.length ≤ (s.combinedWithCounters vals (counterNode vals i ch store).2).2.length := by
        rw [f4, List.length_append]; omega
      have hl2 : store.length ≤ (counterNode vals i ch store).2.length := by rw [e4, List.length_append]; omega
      simp only
      rcases hhead p hp with ⟨h1, h2⟩ | ⟨h1, h2⟩
      · rw [if_pos h1]
        have := e3 p h2
        omega
      · rw [if_neg h1]
        have := f3 p h2
        omega
    · simp only
      rw [f4, e4, List.append_assoc, List.replicate_append_replicate]

theorem countDeals_getD {ds : List (ℚ × ℕ)} {store : List ℕ} (h : ∀ d ∈ ds, d.2 < store.length) (x : ℕ) :
    (countDeals ds store).getD x 0 = store.getD x 0 + (ds.filter (fun d => d.2 = x)).length := by
  induction ds generalizing store with
  | nil => simp [countDeals]
  | cons d ds ih =>
    have hd := h d (by simp)
    rw [countDeals, ih (fun e he => by simpa using h e (by simp [he]))]
    by_cases hx : d.2 = x
    · subst hx
      rw [List.filter_cons_of_pos (by simp), List.length_cons]
      simp [List.getD_eq_getElem?_getD, hd]
      omega
    · rw [List.filter_cons_of_neg (by simpa using hx)]
      simp [List.getD_eq_getElem?_getD, hx]

theorem counterLoop_eq (store : List ℕ) (ds : List (ℚ × ℕ)) (h : ∀ d ∈ ds, 0 < store.getD d.2 0) (kmin kmax count : ℕ) (gain : ℚ) :
    counterLoop store ds (kmin, kmax, count, gain)
      = ((ds.map (fun d => store.getD d.2 0)).foldl min kmin, (ds.map (fun d => store.getD d.2 0)).foldl max kmax,
          count + ds.length, gain + (ds.map Prod.fst).sum) := by
  induction ds generalizing kmin kmax count gain with
  | nil => simp [counterLoop]
  | cons d ds ih =>
    have hd := h d (by simp)
    have e1 : (if kmin > store.getD d.2 0 then store.getD d.2 0 else kmin) = min kmin (store.getD d.2 0) := by
      split
      · rw [min_eq_right (by omega)]
      · rw [min_eq_left (by omega)]
    have e2 : (if kmax < store.getD d.2 0 then store.getD d.2 0 else kmax) = max kmax (store.getD d.2 0) := by
      split
      · rw [max_eq_right (by omega)]
      · rw [max_eq_left (by omega)]
    rw [counterLoop]
    simp only [gt_iff_lt, hd, if_true]
    simp only [gt_iff_lt] at e1
    rw [e1, e2, ih (fun e he => h e (by simp [he]))]
    simp only [List.map_cons, List.foldl_cons, List.length_cons, List.sum_cons, Prod.mk.injEq, true_and]
    exact ⟨by omega, by ring⟩

theorem foldl_min_nat (l : List ℕ) (x : ℕ) : (l.foldl min x ∈ x :: l) ∧ ∀ y ∈ x :: l, l.foldl min x ≤ y := by
  induction l generalizing x with
  | nil => simp
  | cons y l ih =>
    obtain ⟨h1, h2⟩ := ih (min x y)
    rw [List.foldl_cons]
    refine ⟨?_, ?_⟩
    · rcases List.mem_cons.1 h1 with h | h
      · rcases le_total x y with hxy | hxy
        · rw [h, min_eq_left hxy]; simp
        · rw [h, min_eq_right hxy]; simp
      · simp [h]
    · have hm := h2 (min x y) (by simp)
      intro z hz
      simp only [List.mem_cons] at hz
      rcases hz with rfl | rfl | hz
      · exact hm.trans (min_le_left _ _)
      · exact hm.trans (min_le_right _ _)
      · exact h2 z (by simp [hz])

theorem foldl_max_nat (l : List ℕ) (x : ℕ) : (l.foldl max x ∈ x :: l) ∧ ∀ y ∈ x :: l, y ≤ l.foldl max x := by
  induction l generalizing x with
  | nil => simp
  | cons y l ih =>
    obtain ⟨h1, h2⟩ := ih (max x y)
    rw [List.foldl_cons]
    refine ⟨?_, ?_⟩
    · rcases List.mem_cons.1 h1 with h | h
      · rcases le_total x y with hxy | hxy
        · rw [h, max_eq_right hxy]; simp
        · rw [h, max_eq_left hxy]; simp
      · simp [h]
    · have hm := h2 (max x y) (by simp)
      intro z hz
      simp only [List.mem_cons] at hz
      rcases hz with rfl | rfl | hz
      · exact (le_max_left _ _).trans hm
      · exact (le_max_right _ _).trans hm
      · exact h2 z (by simp [hz])

/-- The deals behind `optimal_trade_with_counters()`. -/
theorem counted_deals {t : RecipeTree} {vals : ℕ → List ℚ} (hn : (treeNodes t).Nodup)
    (hs : ∀ i ∈ treeNodes t, SortedDesc (vals i)) :
    ∀ deals : List TreeDeal, deals = (treeDeals vals t.forest).filter (fun d => treeGain d ≥ 0) → FeasibleDeals t vals deals ∧ (∀ d ∈ deals, 0 ≤ treeGain d) ∧
      IsGreatest {g | ∃ deals', FeasibleDeals t vals deals' ∧ treeTotalGain deals' = g} (treeTotalGain deals) ∧
      (t.children ≠ .nil → t.optimalTrade vals = .ok (deals.map (List.map Prod.snd), deals.length, treeTotalGain deals)) ∧
      ∀ r, r = t.optimalTradeWithCounters vals →
        r.deals.map Prod.fst = deals.map treeGain ∧ r.count = deals.length ∧ r.gain = treeTotalGain deals ∧
        r.deals.map (fun d => r.store.getD d.2 0) = deals.map (dealsOnPath deals) ∧
        (deals ≠ [] → IsLeast {n | ∃ d ∈ deals, dealsOnPath deals d = n} r.kmin ∧
          IsGreatest {n | ∃ d ∈ deals, dealsOnPath deals d = n} r.kmax) ∧
        (deals = [] → r.kmin = 99999 ∧ r.kmax = 0) := by
  intro D hD
  obtain ⟨h1, h2⟩ := filtered_deals (vals := vals) hn
  have hopt : t.children ≠ .nil → t.optimalTrade vals
      = .ok (((treeDeals vals t.forest).filter (fun d => treeGain d ≥ 0)).map (List.map Prod.snd),
        ((treeDeals vals t.forest).filter (fun d => treeGain d ≥ 0)).length,
        treeTotalGain ((treeDeals vals t.forest).filter (fun d => treeGain d ≥ 0))) := fun hc => optimalTrade_deals hc
  obtain ⟨a, e1, e2, e3, n, e4⟩ := combinedWithCounters_eq (vals := vals) t.forest (by rw [treeNodes_eq]; exact hn)
    (by rw [treeNodes_eq]; exact hs) []
  rw [← hD] at h1 h2 hopt
  have hpath : ∀ d ∈ D, IsPath t.forest (d.map Prod.fst) := h1.1
  refine ⟨h1, ?_, ?_, hopt, ?_⟩
  · intro d hd
    rw [hD] at hd
    simpa using (List.mem_filter.1 hd).2
  · rw [h2]; exact tree_gft_is_maximum hn hs
  · rintro r rfl
    have hdeals : ((t.forest.combinedWithCounters vals []).1.filter (fun d => d.1 ≥ 0))
        = D.map (fun d => (treeGain d, a (d.map Prod.fst))) := by
      rw [e1, List.filter_map, hD]; rfl
    have hlt : ∀ d ∈ D.map (fun d => (treeGain d, a (d.map Prod.fst))), d.2 < (t.forest.combinedWithCounters vals []).2.length := by
      intro x hx
      obtain ⟨d, hd, rfl⟩ := List.mem_map.1 hx
      exact (e3 _ (hpath d hd)).2
    have hcount : ∀ d ∈ D, (countDeals (D.map (fun d => (treeGain d, a (d.map Prod.fst)))) (t.forest.combinedWithCounters vals []).2).getD
        (a (d.map Prod.fst)) 0 = dealsOnPath D d := by
      intro d hd
      rw [countDeals_getD hlt, e4, List.filter_map, List.length_map, dealsOnPath]
      have h0 : ([] ++ List.replicate n 0).getD (a (d.map Prod.fst)) 0 = 0 := by
        rw [List.nil_append, List.getD_eq_getElem?_getD, List.getElem?_replicate]; split <;> rfl
      rw [h0, zero_add]
      congr 1
      apply List.filter_congr
      intro e he
      simp only [Function.comp_apply, decide_eq_decide]
      exact ⟨e2 _ _ (hpath e he) (hpath d hd), fun h => by rw [h]⟩
    have hpos : ∀ d ∈ D, 0 < dealsOnPath D d := by
      intro d hd
      unfold dealsOnPath
      exact List.length_pos_of_mem (List.mem_filter.2 ⟨hd, by simp⟩)
    have hmap : (D.map (fun d => (treeGain d, a (d.map Prod.fst)))).map
        (fun d => (countDeals (D.map (fun d => (treeGain d, a (d.map Prod.fst)))) (t.forest.combinedWithCounters vals []).2).getD d.2 0)
        = D.map (dealsOnPath D) := by
      rw [List.map_map]
      apply List.map_congr_left
      intro d hd
      exact hcount d hd
    have hsum : ((D.map (fun d => (treeGain d, a (d.map Prod.fst)))).map Prod.fst) = D.map treeGain := by
      rw [List.map_map]; rfl
    unfold RecipeTree.optimalTradeWithCounters
    simp only [hdeals]
    rw [counterLoop_eq _ _ (by
      intro x hx
      obtain ⟨d, hd, rfl⟩ := List.mem_map.1 hx
      simp only
      rw [hcount d hd]; exact hpos d hd)]
    simp only [hmap, hsum, List.length_map, zero_add]
    refine ⟨trivial, trivial, rfl, trivial, ?_, ?_⟩
    · intro hne
      cases hD' : D with
      | nil => exact absurd hD' hne
      | cons d0 ds =>
        rw [hD'] at hcount hpos
        simp only [List.map_cons] at hcount ⊢
        have h0 := hcount d0 (by simp)
        rw [h0]
        have hset : {n | ∃ d ∈ d0 :: ds, dealsOnPath (d0 :: ds) d = n} = {n | n ∈ (d0 :: ds).map (dealsOnPath (d0 :: ds))} := by
          ext k; exact List.mem_map.symm
        rw [hset]
        constructor
        · obtain ⟨g1, g2⟩ := foldl_min_nat (dealsOnPath (d0 :: ds) d0 :: ds.map (dealsOnPath (d0 :: ds))) (dealsOnPath (d0 :: ds) d0)
          refine ⟨?_, ?_⟩
          · simpa using g1
          · intro y hy
            apply g2
            simp only [Set.mem_setOf_eq, List.map_cons] at hy
            exact List.mem_cons_of_mem _ hy
        · obtain ⟨g1, g2⟩ := foldl_max_nat (dealsOnPath (d0 :: ds) d0 :: ds.map (dealsOnPath (d0 :: ds))) 0
          refine ⟨?_, ?_⟩
          · rcases List.mem_cons.1 g1 with h | h
            · exfalso
              have := g2 (dealsOnPath (d0 :: ds) d0) (by simp)
              have := hpos d0 (by simp)
              omega
            · simpa using h
          · intro y hy
            apply g2
            simp only [Set.mem_setOf_eq, List.map_cons] at hy
            exact List.mem_cons_of_mem _ hy
    · intro he
      subst he
      exact ⟨rfl, rfl⟩

/-- **C56**. In a tree whose nodes are different categories, `optimal_trade_with_counters()` returns the values of the deals of a feasible
collection without losses and of maximal gain (the deals of `optimal_trade()`), their number and their total gain. The counter of every
returned deal holds the number of deals that follow the same path. `kmin` and `kmax` are the smallest and the largest of these numbers
(99999 and 0 without deals). -/
theorem tree_optimal_trade_with_counters {t : RecipeTree} {vals : ℕ → List ℚ} (hn : (treeNodes t).Nodup)
    (hs : ∀ i ∈ treeNodes t, SortedDesc (vals i)) :
    ∃ deals : List TreeDeal, FeasibleDeals t vals deals ∧ (∀ d ∈ deals, 0 ≤ treeGain d) ∧
      IsGreatest {g | ∃ deals', FeasibleDeals t vals deals' ∧ treeTotalGain deals' = g} (treeTotalGain deals) ∧
      (t.children ≠ .nil → t.optimalTrade vals = .ok (deals.map (List.map Prod.snd), deals.length, treeTotalGain deals)) ∧
      ∀ r, r = t.optimalTradeWithCounters vals →
        r.deals.map Prod.fst = deals.map treeGain ∧ r.count = deals.length ∧ r.gain = treeTotalGain deals ∧
        r.deals.map (fun d => r.store.getD d.2 0) = deals.map (dealsOnPath deals) ∧
        (deals ≠ [] → IsLeast {n | ∃ d ∈ deals, dealsOnPath deals d = n} r.kmin ∧
          IsGreatest {n | ∃ d ∈ deals, dealsOnPath deals d = n} r.kmax) ∧
        (deals = [] → r.kmin = 99999 ∧ r.kmax = 0) :=
  ⟨_, counted_deals hn hs _ rfl⟩

theorem joinCounted_error (bs : List (List ℚ)) (xs : List (List IntegerTree.CountedSet)) :
    IntegerTree.joinCounted bs xs = .error .typeError ∨ IntegerTree.joinCounted bs xs = .error .indexError := by
  unfold IntegerTree.joinCounted
  cases xs with
  | nil => simp
  | cons x xs =>
    simp only
    split <;> split <;> simp

/-- **C56**. The same method of `recipetree_integer.py` raises an exception for every tree with at least two categories. -/
theorem integer_counters_always_fail (t : RecipeTree) (cnt : ℕ → ℕ) (vals : ℕ → List ℚ) (h : t.children ≠ .nil) :
    IntegerTree.optimalTradeWithCounters t cnt vals = .error .typeError ∨
      IntegerTree.optimalTradeWithCounters t cnt vals = .error .indexError := by
  have key : ∀ (f : Forest) (store : List ℕ),
      (∃ r, IntegerTree.combinedWithCountersList cnt vals f store = .ok r) ∨
      IntegerTree.combinedWithCountersList cnt vals f store = .error .typeError ∨
      IntegerTree.combinedWithCountersList cnt vals f store = .error .indexError := by
    intro f
    induction f with
    | nil => intro store; exact Or.inl ⟨_, rfl⟩
    | cons i ch s ih1 ih2 =>
      intro store
      cases ch with
      | nil =>
        rw [IntegerTree.combinedWithCountersList]
        simp only [bind, Except.bind]
        rcases ih2 (IntegerTree.withCounters (IntegerTree.blocks (cnt i) [] (sortDesc (vals i))) store).2 with ⟨r, h⟩ | h | h <;> rw [h] <;> simp
      | cons j c s' =>
        rw [IntegerTree.combinedWithCountersList]
        simp only [bind, Except.bind]
        rcases ih1 (IntegerTree.withCounters (IntegerTree.blocks (cnt i) [] (sortDesc (vals i))) store).2 with ⟨r, h⟩ | h | h <;> rw [h]
        · rcases joinCounted_error (IntegerTree.blocks (cnt i) [] (sortDesc (vals i))) r.1 with h | h <;> simp only [h] <;> simp
        · simp
        · simp
  unfold IntegerTree.optimalTradeWithCounters RecipeTree.forest
  obtain ⟨i, ch⟩ := t
  cases ch with
  | nil => exact absurd rfl h
  | cons j c s' =>
    rw [IntegerTree.combinedWithCountersList]
    simp only [bind, Except.bind]
    rcases key (.cons j c s') (IntegerTree.withCounters (IntegerTree.blocks (cnt i) [] (sortDesc (vals i))) []).2 with ⟨r, h⟩ | h | h <;> rw [h]
    · rcases joinCounted_error (IntegerTree.blocks (cnt i) [] (sortDesc (vals i))) r.1 with h | h <;> simp only [h] <;> simp
    · simp
    · simp

/-- Non-vacuity of C56: buyers, sellers, producers A and B with the tree `[0, [1, None, 2, [3, None]]]`: three deals, one of them through the
sellers. For the integer tree both exceptions occur; with a single category the method works, and every set of agents has its own counter. -/
example :
    let vals : ℕ → List ℚ := fun i => [[60, 40, 20, -30], [-5, -30, -50], [-1, -3, -5], [-2, -4, -6, -8]].getD i []
    let t : RecipeTree := ⟨0, .cons 1 .nil (.cons 2 (.cons 3 .nil .nil) .nil)⟩
    ((treeNodes t).Nodup ∧ ∀ i ∈ treeNodes t, SortedDesc (vals i)) ∧
    t.optimalTradeWithCounters vals = ⟨[(57, 5), (35, 3), (13, 5)], [0, 0, 0, 1, 0, 2], 3, 105, 1, 2⟩ ∧
    (⟨3, .cons 1 .nil .nil⟩ : RecipeTree).optimalTradeWithCounters vals = ⟨[], [0, 0], 0, 0, 99999, 0⟩ ∧
    IntegerTree.optimalTradeWithCounters ⟨0, .cons 1 .nil .nil⟩ (fun _ => 2) vals = .error .typeError ∧
    IntegerTree.optimalTradeWithCounters ⟨0, .cons 1 .nil .nil⟩ (fun _ => 4) vals = .error .indexError ∧
    IntegerTree.optimalTradeWithCounters ⟨0, .nil⟩ (fun _ => 1) vals
      = .ok ([([60], 0), ([40], 1), ([20], 2)], ⟨[(60, 0), (40, 1), (20, 2)], [1, 1, 1, 0], 3, 120, 1, 1⟩) := by
  unfold SortedDesc; decide +kernel

end Auctions.Props
