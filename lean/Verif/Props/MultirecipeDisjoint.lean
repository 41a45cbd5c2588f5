import Verif.Proofs.MultirecipeDisjoint
import Verif.Props.Multirecipe
import Verif.Props.Ascending

set_option autoImplicit false

/-!
# C88 — the old auction with several recipes that share no category
-/

namespace Auctions.Props

open Auctions Spec TreeAuction Auctions.Multirecipe

theorem valuesAt_sorted_mem {m : Market} {i : ℕ} {x : ℚ} : x ∈ valuesAt m.sorted i ↔ x ∈ m.valueLists.getD i [] := by
  rw [valuesAt_sorted, mem_sortDesc]

theorem vAt_valuesAt (cs : List AgentCategory) (c : ℕ) : vAt cs c = valuesAt cs c := by
  unfold vAt valuesAt
  rw [List.getD_eq_getElem?_getD, List.getElem?_map]
  cases cs[c]? <;> rfl

/-- If no procurement-set has a gain of at least 0, the optimal trade is empty. -/
theorem optimal_unprofitable {m : Market} {r : List ℕ} (hlen : r.length = m.numCategories) (hbin : ∀ x ∈ r, x = 0 ∨ x = 1) (hu : Unprofitable m r) {N : ℕ}
    {opt : TradeWithMaterialBalance} {rem : Market} (hopt : m.optimalTrade r N = .ok (opt, rem)) : opt.numOfDeals = 0 := by
  have hcat : m.categories ≠ [] := by
    intro e
    have : m.numCategories = 0 := by simp [Market.numCategories, e]
    have h0 := hu (fun _ => 0) (fun c hc => by
      exfalso; have : r.length = 0 := by omega
      rw [List.length_eq_zero_iff.1 this] at hc; simp [rAt] at hc)
    simp [this] at h0
  obtain ⟨k, hk, hke⟩ := optimalTrade_eq hlen hcat N true
  rw [hke] at hopt
  simp only [Except.ok.injEq, Prod.mk.injEq] at hopt
  obtain ⟨rfl, rfl⟩ := hopt
  by_contra hne
  have hk0 : 0 < k := by
    simp [TradeWithMaterialBalance.numOfDeals] at hne; omega
  obtain ⟨h1, h2⟩ := hk.taken 0 hk0
  have h3 : 0 ≤ (blk m.sorted r 0).sum := by unfold Good at h2; push Not at h2; exact h2.1
  rw [blk_sum_binary hlen hbin h1] at h3
  have := hu (fun c => (valuesAt m.sorted c).getD 0 0) (fun c hc => by
    have hcl : c < m.sorted.length := by
      rw [m.sorted_length]
      by_contra hge
      have : rAt r c = 0 := by unfold rAt; simp [List.getD_eq_getElem?_getD, List.getElem?_eq_none (show r.length ≤ c by omega)]
      omega
    have h4 := h1 c hcl
    rw [vAt_valuesAt] at h4
    have : 0 < (valuesAt m.sorted c).length := by nlinarith
    simp only [List.getD_eq_getElem?_getD, List.getElem?_eq_getElem this, Option.getD_some]
    exact List.getElem_mem _)
  linarith

/-- **C88**. If no two recipes share a category, a recipe is deleted only if no procurement-set of it has a gain of at least 0. -/
theorem multirecipe_deleted {order : List ℕ → List ℕ} (ho : ∀ l, (order l).Perm l) {f : List (List ℕ) → ℚ → Py (List ℚ)} (hf : PriceContract f) {m : Market}
    (hval : ∀ l ∈ m.valueLists, ∀ x ∈ l, -MAX_VALUE ≤ x) {R : List (List ℕ)} (hno : ∀ c, ¬ SharedByAll R c) {fuel : ℕ} {t : Multirecipe.Trade}
    (h : Multirecipe.auction order f m R fuel = .ok (some t)) {r : List ℕ} (hr : r ∈ R) (hr' : r ∉ t.psRecipes)
    {x : ℕ → ℚ} (hx : ∀ c, r.getD c 0 = 1 → x c ∈ m.valueLists.getD c []) : ∑ c ∈ Finset.range m.numCategories, (r.getD c 0 : ℚ) * x c < 0 := by
  obtain ⟨hR, hown, -⟩ := multirecipe_outcome ho hf hval h
  unfold Multirecipe.auction at h
  obtain ⟨R', cats, v, v0, s, s0, he⟩ := auction_disjoint ho hf hval hR hown hno fuel _ h
  obtain ⟨u, b, hi, -⟩ := Multirecipe.init_ok he.recipes he.own he.inv.len v.prices
  have hi' := he.init
  rw [hi] at hi'
  cases hi'
  refine he.deleted r hr hr' x fun c hc => ?_
  rw [valuesAt_sorted_mem]
  refine hx c ?_
  have : r.getD c 0 ∈ r := by
    unfold rAt at hc
    by_cases hcl : c < r.length
    · simp [List.getD_eq_getElem?_getD, hcl]
    · simp [List.getD_eq_getElem?_getD, List.getElem?_eq_none (show r.length ≤ c by omega)] at hc
  rcases hR.binary r hr _ this with h0 | h0
  · have : rAt r c = r.getD c 0 := rfl
    omega
  · exact h0

/-- **C88**. If no two recipes share a category, and there are no ties within a category: of each remaining recipe at most one deal is lost, compared with the optimal trade for this
recipe, and there are no more deals than in it; the optimal trade of a deleted recipe is empty. The number of deals that is reported is the sum (up to `MAX_VALUE`). -/
theorem multirecipe_disjoint {order : List ℕ → List ℕ} (ho : ∀ l, (order l).Perm l) {f : List (List ℕ) → ℚ → Py (List ℚ)} (hf : PriceContract f) {m : Market}
    (hval : ∀ l ∈ m.valueLists, ∀ x ∈ l, -MAX_VALUE < x) (hnodup : ∀ l ∈ m.valueLists, l.Nodup) {R : List (List ℕ)} (hno : ∀ c, ¬ SharedByAll R c) {fuel : ℕ} {t : Multirecipe.Trade}
    (h : Multirecipe.auction order f m R fuel = .ok (some t)) {opt : List ℕ → TradeWithMaterialBalance} {rem : List ℕ → Market} {N : ℕ} (hN : m.numAgents ≤ N)
    (hopt : ∀ r ∈ R, m.optimalTrade r N = .ok (opt r, rem r)) :
    ∃ deals : ℕ → ℕ, CanForm t.psRecipes (fun i => (multiRemaining t i).length) deals ∧
      t.numOfDeals = min (∑ k ∈ Finset.range t.psRecipes.length, deals k) 100000000 ∧
      (∀ k < t.psRecipes.length, deals k ≤ (opt (t.psRecipes.getD k [])).numOfDeals ∧ (opt (t.psRecipes.getD k [])).numOfDeals ≤ deals k + 1) ∧
      ∀ r ∈ R, r ∉ t.psRecipes → (opt r).numOfDeals = 0 := by
  have hval' : ∀ l ∈ m.valueLists, ∀ x ∈ l, -MAX_VALUE ≤ x := fun l hl x hx => (hval l hl x hx).le
  obtain ⟨hR, hown, -⟩ := multirecipe_outcome ho hf hval' h
  unfold Multirecipe.auction at h
  obtain ⟨R', cats, v, v0, s, s0, he⟩ := auction_disjoint ho hf hval' hR hown hno fuel _ h
  obtain ⟨u, b, hi, hu, -, hb⟩ := Multirecipe.init_ok he.recipes he.own he.inv.len v.prices
  have hi' := he.init
  rw [hi] at hi'
  cases hi'
  have hb100 : b = 100000000 := by
    rcases hb with ⟨c, hc, -⟩ | ⟨-, hb⟩
    · exact absurd hc (he.notShared c)
    · exact hb
  have hrem : ∀ ps dd i, (multiRemaining ⟨cats, R', ps, dd⟩ i).length = sizeAt cats i := by
    intro ps dd i; rw [multiRemaining_eq, sizeAt_eq]
  have hnear := he.near hval hnodup
  have hcat : m.categories ≠ [] := by
    intro e
    have h0 : 0 < R'.length := List.length_pos_iff.2 he.recipes.nonempty
    obtain ⟨c, hc⟩ := he.own 0 h0
    have := uses_lt he.recipes.length h0 hc.1
    simp [Market.numCategories, e] at this
  have hsz : ∀ c, sizeAt cats c ≤ (valuesAt m.sorted c).length ∧ valuesAt cats c = (valuesAt m.sorted c).take (sizeAt cats c) := by
    intro c
    obtain ⟨j, h1, -⟩ := he.inv.left c
    rw [sizeAt_eq, h1, List.length_take]
    refine ⟨min_le_right _ _, ?_⟩
    rw [List.take_eq_take_iff]; simp
  refine ⟨u, ?_, by rw [← hb100], ?_, ?_⟩
  · simp only [CanForm, hrem]
    intro c
    by_cases hex : ∃ k < R'.length, Uses R' k c
    · obtain ⟨k, hk, huse⟩ := hex
      have ho := owns_of_uses he.recipes he.notShared hk huse
      rw [Finset.sum_eq_single_of_mem k (Finset.mem_range.2 hk)]
      · rw [count_le_one he.recipes hk, if_pos huse, one_mul]
        exact (hu k hk).1 c ho
      · intro j hj hjk
        rw [count_le_one he.recipes (Finset.mem_range.1 hj), if_neg, zero_mul]
        intro uj; exact hjk (ho.2 j (Finset.mem_range.1 hj) uj)
    · rw [Finset.sum_eq_zero]
      · exact Nat.zero_le _
      · intro k hk
        rw [count_le_one he.recipes (Finset.mem_range.1 hk), if_neg, zero_mul]
        exact fun uk => hex ⟨k, Finset.mem_range.1 hk, uk⟩
  · intro k hk
    have hk : k < R'.length := hk
    show u k ≤ (opt (R'.getD k [])).numOfDeals ∧ (opt (R'.getD k [])).numOfDeals ≤ u k + 1
    have hmem : R'.getD k [] ∈ R := he.sublist.subset (Multirecipe.getD_mem hk)
    have hlen := hR.length _ hmem
    have hbin := hR.binary _ hmem
    have hopt := hopt _ hmem
    obtain ⟨K, hK, hKe⟩ := optimalTrade_eq hlen hcat N true
    rw [hKe] at hopt
    simp only [Except.ok.injEq, Prod.mk.injEq] at hopt
    have hnum : (opt (R'.getD k [])).numOfDeals = K := by
      rw [← hopt.1]; simp [TradeWithMaterialBalance.numOfDeals]
    rw [hnum]
    obtain ⟨hu1, c0, hc0, hu2⟩ := hu k hk
    have hc0n := uses_lt he.recipes.length hk hc0.1
    have hrow : ∀ c, rAt (R'.getD k []) c = if Uses R' k c then 1 else 0 := count_le_one he.recipes hk
    have hav : ∀ j, Avail m.sorted (R'.getD k []) j ↔ ∀ c, Uses R' k c → j + 1 ≤ (valuesAt m.sorted c).length := by
      intro j
      constructor
      · intro h1 c hc
        have := h1 c (by rw [m.sorted_length]; exact uses_lt he.recipes.length hk hc)
        rwa [hrow, if_pos hc, mul_one, vAt_valuesAt] at this
      · intro h1 c _
        rw [hrow, vAt_valuesAt]
        split
        · rename_i hc; rw [mul_one]; exact h1 c hc
        · simp
    constructor
    · -- no more deals than in the optimal trade
      by_contra hlt
      have hlt : K < u k := not_le.1 hlt
      have hs : s = 0 := by
        rcases he.zero with h0 | h0
        · exact h0
        · have := h0 k hk c0 hc0; omega
      have hKN : K < N := by
        refine lt_of_lt_of_le hlt (le_trans ?_ hN)
        rw [hu2, ← total_sorted]
        refine (hsz c0).1.trans ?_
        have hc0l : c0 < m.sorted.length := by rw [m.sorted_length]; exact hc0n
        rw [← sizeAt_eq, sizeAt_get hc0l]
        exact List.single_le_sum (by simp) _ (List.mem_map.2 ⟨_, List.getElem_mem hc0l, rfl⟩)
      have hin : ∀ c, Uses R' k c → K < sizeAt cats c := fun c hc => lt_of_lt_of_le hlt (hu1 c (owns_of_uses he.recipes he.notShared hk hc))
      have hAv : Avail m.sorted (R'.getD k []) K := (hav K).2 fun c hc => le_trans (hin c hc) (hsz c).1
      rcases hK.stop hKN with h1 | h1
      · exact h1 hAv
      · apply h1
        unfold Good
        push Not
        rw [blk_sum_binary hlen hbin hAv]
        refine ⟨?_, fun _ => by simp⟩
        rw [← hs, ← he.inv.balanced _ (Multirecipe.getD_mem hk), recipeSum_eq_sum (he.recipes.length _ (Multirecipe.getD_mem hk)) he.inv.plen]
        refine Finset.sum_le_sum fun c hc => ?_
        rw [hrow]
        split
        · rename_i hc'
          refine mul_le_mul_of_nonneg_left ?_ (by norm_num)
          refine he.inv.rational c _ ?_
          rw [(hsz c).2]
          have h2 := hin c hc'
          have h3 := (hsz c).1
          rw [List.mem_take_iff_getElem]
          refine ⟨K, by omega, ?_⟩
          have h4 : K < (valuesAt m.sorted c).length := by omega
          simp [List.getD_eq_getElem?_getD, h4]
        · simp
    · -- at most one deal is lost
      by_contra hlt
      have hlt : u k + 1 < K := not_le.1 hlt
      obtain ⟨h1, h2⟩ := hK.taken (K - 1) (by omega)
      have h3 : 0 ≤ (blk m.sorted (R'.getD k []) (K - 1)).sum := by unfold Good at h2; push Not at h2; exact h2.1
      rw [blk_sum_binary hlen hbin h1] at h3
      have hAv := (hav _).1 h1
      rcases hnear.near k hk c0 hc0 with h4 | h4
      · have := hAv c0 hc0.1
        rw [← h4, ← sizeAt_eq] at this
        omega
      · have := selection_neg he.recipes he.before hk (x := fun c => (valuesAt m.sorted c).getD (K - 1) 0) (fun c hc => by
          have h5 := h4 c (owns_of_uses he.recipes he.notShared hk hc)
          have h6 := hAv c hc
          have h7 : K - 1 < (valuesAt m.sorted c).length := by omega
          rw [List.mem_drop_iff_getElem]
          refine ⟨K - 1 - sizeAt cats c, by omega, ?_⟩
          simp [List.getD_eq_getElem?_getD, h7, show sizeAt cats c + (K - 1 - sizeAt cats c) = K - 1 by omega])
        have := he.neg
        linarith
  · intro r hr hr'
    exact optimal_unprofitable (hR.length r hr) (hR.binary r hr) (he.deleted r hr hr') (hopt r hr)

/-- Non-vacuity of C88: three recipes without a shared category, one of which is deleted; the others trade. -/
example :
    let f : List (List ℕ) → ℚ → Py (List ℚ) := fun _ _ => .ok [-100000000, -100000000, -100000000, -100000000, -100000000, -100000000]
    let m : Market := ⟨[⟨"b1", [19, 17, 15]⟩, ⟨"s1", [-12, -10, -8]⟩, ⟨"b2", [9, 8]⟩, ⟨"s2", [-3, -4, -10]⟩, ⟨"b3", [1]⟩, ⟨"s3", [-5]⟩]⟩
    let R := [[1, 1, 0, 0, 0, 0], [0, 0, 0, 0, 1, 1], [0, 0, 1, 1, 0, 0]]
    MultiRecipes 6 R ∧ AllOwn R ∧ (∀ c < 6, ¬ SharedByAll R c) ∧ (∀ l ∈ m.valueLists, l.Nodup) ∧
    (Multirecipe.auction id f m R 100).map (fun o => o.map (fun t => (t.numOfDeals, t.prices, t.psRecipes)))
      = .ok (some (3, [15, -15, 8, -8, -100000000, -100000000], [[1, 1, 0, 0, 0, 0], [0, 0, 1, 1, 0, 0]])) := by
  intro f m R
  refine ⟨⟨by simp [R], by decide, by decide, by decide⟩, ?_, ?_, by decide +kernel, ?_⟩
  · intro k hk
    have : k = 0 ∨ k = 1 ∨ k = 2 := by simp [R] at hk; omega
    rcases this with rfl | rfl | rfl
    · exact ⟨0, by decide, by decide⟩
    · exact ⟨4, by decide, by decide⟩
    · exact ⟨2, by decide, by decide⟩
  · intro c hc h
    have := h.2
    revert hc this; clear h
    revert c
    decide
  · decide +kernel

end Auctions.Props
