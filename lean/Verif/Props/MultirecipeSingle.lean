import Verif.Proofs.MultirecipeSingle
import Verif.Props.Multirecipe
import Verif.Props.Ascending

set_option autoImplicit false

/-!
# C87 — the old auction with several recipes, given one recipe, and the auction for one recipe
-/

namespace Auctions.Props

open Auctions Spec TreeAuction Auctions.Multirecipe

theorem single_multi {n : ℕ} {r : List ℕ} (hlen : r.length = n) (hbin : ∀ x ∈ r, x = 0 ∨ x = 1) : MultiRecipes n [r] := by
  refine ⟨by simp, by simpa using hlen, by simpa using hbin, fun c _ => Or.inl fun j hj k hk _ _ => ?_⟩
  simp at hj hk; omega

theorem uses_single (r : List ℕ) (c : ℕ) : Uses [r] 0 c ↔ 0 < rAt r c := Iff.rfl

theorem owns_single (r : List ℕ) (c : ℕ) : Owns [r] 0 c ↔ 0 < rAt r c :=
  ⟨fun h => h.1, fun h => ⟨h, fun j hj _ => by simp at hj; exact hj⟩⟩

theorem single_own {r : List ℕ} (h : 1 ∈ r) : AllOwn [r] := by
  intro k hk
  have : k = 0 := by simp at hk; exact hk
  subst this
  obtain ⟨c, hc, e⟩ := List.getElem_of_mem h
  exact ⟨c, (owns_single r c).2 (by rw [rAt_eq_getElem hc, e]; omega)⟩

theorem rAt_binary {r : List ℕ} (hbin : ∀ x ∈ r, x = 0 ∨ x = 1) (i : ℕ) : rAt r i = 0 ∨ rAt r i = 1 := by
  by_cases hi : i < r.length
  · rw [rAt_eq_getElem hi]; exact hbin _ (List.getElem_mem hi)
  · left; unfold rAt; simp [List.getD_eq_getElem?_getD, List.getElem?_eq_none (show r.length ≤ i by omega)]

/-- The best initial prices for one recipe are `-MAX_VALUE` wherever the recipe uses the category. -/
theorem single_start {f : List (List ℕ) → ℚ → Py (List ℚ)} {n : ℕ} {r : List ℕ} (hlen : r.length = n) (hf : SolvesAt f [r] (-MAX_VALUE)) :
    ∃ p, f [r] (-MAX_VALUE) = .ok p ∧ p.length = n ∧ (∀ i < n, p.getD i 0 ≤ -MAX_VALUE) ∧ ∀ i < n, 0 < rAt r i → p.getD i 0 = -MAX_VALUE := by
  obtain ⟨p, h1, ⟨h2, h3, -⟩, h4⟩ := hf
  have hpl : p.length = n := by rw [← h2 r (by simp), hlen]
  have hle : ∀ i < n, p.getD i 0 ≤ -MAX_VALUE := fun i hi => getD_le_of_forall h3 (by omega)
  refine ⟨p, h1, hpl, hle, fun i hi hri => ?_⟩
  by_contra hne
  have hlt : p.getD i 0 < -MAX_VALUE := lt_of_le_of_ne (hle i hi) hne
  have hbest := h4 (List.replicate n (-MAX_VALUE)) ⟨by simpa using hlen, by simp, recipeSum r (List.replicate n (-MAX_VALUE)), by simp⟩ r (by simp)
  rw [recipeSum_eq_sum hlen hpl, recipeSum_eq_sum hlen (by simp)] at hbest
  have : ∑ j ∈ Finset.range n, (rAt r j : ℚ) * p.getD j 0 < ∑ j ∈ Finset.range n, (rAt r j : ℚ) * (List.replicate n (-MAX_VALUE)).getD j 0 := by
    refine Finset.sum_lt_sum (fun j hj => ?_) ⟨i, Finset.mem_range.2 hi, ?_⟩
    · have hj' := Finset.mem_range.1 hj
      refine mul_le_mul_of_nonneg_left ?_ (by positivity)
      have := hle j hj'
      simpa [List.getD_eq_getElem?_getD, hj'] using this
    · refine mul_lt_mul_of_pos_left ?_ (by exact_mod_cast hri)
      simpa [List.getD_eq_getElem?_getD, hi] using hlt
  linarith

/-- **C87**. Given one recipe of zeros and ones (not only zeros), on a market without ties within a category, and with the best initial prices, the old auction for several recipes ends, as
the unit tests expect, like the auction for one recipe: the same agents remain, the prices of all categories that are used are the same, and so is the number of deals (up to
`MAX_VALUE`). -/
theorem multirecipe_single {f : List (List ℕ) → ℚ → Py (List ℚ)} {m : Market} {r : List ℕ} (hlen : r.length = m.numCategories) (hbin : ∀ x ∈ r, x = 0 ∨ x = 1) (hpos : 1 ∈ r)
    (hf : SolvesAt f [r] (-MAX_VALUE)) (hval : ∀ l ∈ m.valueLists, ∀ x ∈ l, -MAX_VALUE < x) (hnodup : ∀ l ∈ m.valueLists, l.Nodup) {fuel : ℕ} (hfuel : m.numAgents < fuel) (N : ℕ) :
    ∃ t t' ps, Multirecipe.auction id f m [r] fuel = .ok (some t) ∧ Ascending.auction m r fuel N = .ok (some t') ∧
      t.psRecipes = [r] ∧ t.categories = t'.categories ∧ t'.prices = some ps ∧ (∀ i < m.numCategories, r.getD i 0 = 1 → t.prices.getD i 0 = ps.getD i 0) ∧
      t.numOfDeals = min t'.numOfDeals 100000000 := by
  have hR := single_multi hlen hbin
  have hown := single_own hpos
  have hpos' : ∃ x ∈ r, 0 < x := ⟨1, hpos, by omega⟩
  have hcat : m.categories ≠ [] := by
    intro e
    have : r.length = 0 := by rw [hlen]; simp [Market.numCategories, e]
    rw [List.length_eq_zero_iff.1 this] at hpos; simp at hpos
  obtain ⟨p0, hp0, hpl, hple, hpeq⟩ := single_start hlen hf
  obtain ⟨a, ha, heq⟩ := auctionLoop_eq hR hown id f fuel 1
  have hrel : ∀ i ∈ Ascending.relevantCategoryIndices m r, i < m.numCategories ∧ rAt r i = 1 := by
    intro i hi
    have := Ascending.relevant_mem (cs := m.categories).1 hi
    refine ⟨this.1, ?_⟩
    rcases rAt_binary hbin i with h0 | h0
    · omega
    · exact h0
  have hrelne : Ascending.relevantCategoryIndices m r ≠ [] := by rw [Ascending.rel_sorted]; exact Ascending.rel_ne_nil hlen hpos'
  have haa : a.common = [] ∧ a.unique = [Ascending.relevantCategoryIndices m r] := by
    constructor
    · rw [ha.common]; unfold commonList; simp
    · have hl : a.unique.length = 1 := by rw [ha.length]; rfl
      obtain ⟨u, hu⟩ := List.length_eq_one_iff.1 hl
      have := ha.unique 0 (by simp)
      rw [hu] at this ⊢
      congr 1
      rw [show u = [u].getD 0 [] from rfl, this]
      unfold ownList Ascending.relevantCategoryIndices
      refine List.filter_congr fun c _ => ?_
      rw [decide_eq_decide, containing_single (by simp), owns_single, Ascending.recipeAt_eq]
  have hsame : Same m.numCategories r m.sorted ⟨[r], p0, none⟩ (AscendingPriceVector.init r (-MAX_VALUE)) := by
    refine ⟨m.sorted_length, rfl, hpl, rfl, by simp [AscendingPriceVector.init, hlen], ?_, ?_, ?_, ?_, ?_⟩
    · intro i hi hri
      rw [hpeq i hi hri]
      simp [AscendingPriceVector.init, List.getD_eq_getElem?_getD, hlen, hi]
    · intro i x hx
      rw [valuesAt_sorted, mem_sortDesc] at hx
      by_cases hil : i < m.valueLists.length
      · refine lt_of_le_of_lt (hple i (by simpa [Market.valueLists, Market.numCategories] using hil)) (hval (m.valueLists.getD i []) ?_ x hx)
        rw [List.getD_eq_getElem?_getD, List.getElem?_eq_getElem hil]; exact List.getElem_mem hil
      · rw [List.getD_eq_getElem?_getD, List.getElem?_eq_none (by omega)] at hx; simp at hx
    · intro i; rw [valuesAt_sorted]; exact sortDesc_sorted _
    · intro i
      rw [valuesAt_sorted, (sortDesc_perm _).nodup_iff]
      by_cases hil : i < m.valueLists.length
      · refine hnodup _ ?_
        rw [List.getD_eq_getElem?_getD, List.getElem?_eq_getElem hil]; exact List.getElem_mem hil
      · rw [List.getD_eq_getElem?_getD, List.getElem?_eq_none (by omega)]; simp
    · obtain ⟨c, hc, e⟩ := List.getElem_of_mem hpos
      refine sum_neg (c := c) (by simp [AscendingPriceVector.init]) (by simp [List.getD_eq_getElem?_getD, hc, e]) ?_
      simp [AscendingPriceVector.init]
  obtain ⟨k, -, hk⟩ := optimalTrade_eq hlen hcat N true
  have hA : Ascending.auction m r fuel N = (do
      match ← Ascending.loop r (Ascending.relevantCategoryIndices m r) fuel ⟨m.sorted⟩ (AscendingPriceVector.init r (-MAX_VALUE)) with
      | none => .ok none
      | some (remaining', prices') => do
        let t ← TradeWithSinglePrice.init remaining'.categories r (some prices'.prices)
        .ok (some t)) := by
    unfold Ascending.auction
    simp only [hlen, ne_eq, not_true_eq_false, if_false, hk, bind, Except.bind, Market.clone_eq hcat]
    rfl
  obtain ⟨t0, ht0⟩ := ascending_total hlen hcat hpos'
  have ht0 := ht0 fuel N hfuel
  have hM : Multirecipe.auction id f m [r] fuel = auctionLoop id f m fuel (1 + 1) [r] := rfl
  rcases same_loop hlen hbin _ hrel hrelne haa fuel hsame with ⟨e1, -⟩ | ⟨cats', ps, p', e1, e2, e3, e4, e5⟩
  · rw [hA, e1] at ht0
    simp [bind, Except.bind] at ht0
  · obtain ⟨u, b, hi, hu, hb, hb'⟩ := Multirecipe.init_ok hR hown e3 ps
    have hb100 : b = 100000000 := by
      rcases hb' with ⟨c, hc, -⟩ | ⟨-, h⟩
      · have := hc.1; simp at this
      · exact h
    rcases trade_init_spec cats' r (some p'.prices) with ⟨-, h1⟩ | ⟨-, d, h1, h2, h3⟩
    · rw [hA, e1] at ht0
      simp [bind, Except.bind, h1] at ht0
    · refine ⟨⟨cats', [r], ps, min (∑ k ∈ Finset.range [r].length, u k) b⟩, ⟨cats', r, some p'.prices, d⟩, p'.prices, ?_, ?_, rfl, rfl, rfl, ?_, ?_⟩
      rotate_left
      · rw [hA, e1]; simp only [bind, Except.bind, h1]
      rotate_left
      · show min (∑ k ∈ Finset.range [r].length, u k) b = min d 100000000
        rw [hb100]
        congr 1
        rw [List.length_singleton, Finset.sum_range_one]
        have hv : ∀ i, (vAt cats' i).length = sizeAt cats' i := by
          intro i
          rw [sizeAt_eq]
          unfold vAt valuesAt
          rw [List.getD_eq_getElem?_getD, List.getElem?_map]
          cases cats'[i]? <;> rfl
        obtain ⟨hu1, c, hc, hu2⟩ := hu 0 (by simp)
        apply le_antisymm
        · refine h3 _ fun i _ => ?_
          rcases rAt_binary hbin i with h0 | h0
          · rw [h0]; simp
          · rw [h0, mul_one, hv]
            exact hu1 i ((owns_single r i).2 (by omega))
        · rw [hu2]
          have hri := (owns_single r c).1 hc
          have hcn : c < cats'.length := by
            rw [e3, ← hlen]
            by_contra hge
            have : rAt r c = 0 := by unfold rAt; simp [List.getD_eq_getElem?_getD, List.getElem?_eq_none (show r.length ≤ c by omega)]
            omega
          have := h2 c hcn
          rcases rAt_binary hbin c with h0 | h0
          · omega
          · rw [h0, mul_one, hv] at this; exact this
      · rw [hM, heq, hp0]
        simp only [bind, Except.bind, List.length_singleton]
        rw [e2]
        simp only [hi]
        rfl
      · intro i hi' hri
        exact (e5 i hi' (by rw [show rAt r i = r.getD i 0 from rfl, hri]; omega)).symm

/-- **C87**. With ties the two auctions differ: in this market the auction for one recipe has a deal, and the old auction has none. -/
theorem multirecipe_single_ties :
    let m : Market := ⟨[⟨"a", [2]⟩, ⟨"b", [-1, -1, -3]⟩, ⟨"c", [-1, -1]⟩]⟩
    let f := fixedSolver [-100000000, -100000000, -100000000]
    (Multirecipe.auction id f m [[1, 1, 1]] 100).map (fun o => o.map (fun t => (t.numOfDeals, t.prices))) = .ok (some (0, [2, -1, -1])) ∧
    (Ascending.auction m [1, 1, 1] 100).map (fun o => o.map (fun t => (t.numOfDeals, t.prices))) = .ok (some (1, some [2, -1, -1])) := by
  decide +kernel

/-- Non-vacuity of C87: the last doctest of `old/ascending_auction_multirecipe_protocol.py:132-136`; the solver is as assumed. -/
example :
    let m : Market := ⟨[⟨"buyer", [9, 8]⟩, ⟨"seller", [-4, -3]⟩]⟩
    let f := fixedSolver [-100000000, -100000000]
    SolvesAt f [[1, 1]] (-MAX_VALUE) ∧ (∀ l ∈ m.valueLists, l.Nodup) ∧
    (Multirecipe.auction id f m [[1, 1]] 100).map (fun o => o.map (fun t => (t.numOfDeals, t.prices))) = .ok (some (1, [8, -8])) := by
  intro m f
  refine ⟨?_, by decide +kernel, by decide +kernel⟩
  have hf : f [[1, 1]] (-MAX_VALUE) = .ok [-100000000, -100000000] := by decide +kernel
  refine ⟨_, hf, fixedSolver_contract _ _ _ _ hf, ?_⟩
  rintro p' ⟨h1, h2, -⟩ r hr
  have hr' : r = [1, 1] := by simpa using hr
  subst hr'
  have hl := h1 [1, 1] (by simp)
  match p', hl with
  | [a, b], _ =>
    have ha := h2 a (by simp)
    have hb := h2 b (by simp)
    simp only [recipeSum, List.zipWith_cons_cons, List.zipWith_nil_right, List.sum_cons, List.sum_nil, MAX_VALUE, Nat.cast_one] at ha hb ⊢
    linarith

end Auctions.Props
