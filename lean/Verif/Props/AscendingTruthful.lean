import Verif.Props.Ascending
import Verif.Spec.Truthful

set_option autoImplicit false

/-!
# C22 — truthfulness of the single-recipe ascending auction
-/

namespace Auctions.Props

open Auctions Spec Ascending

theorem auction_mono {m : Market} {r : List ℕ} {fuel N : ℕ} {t : TradeWithSinglePrice}
    (ht : auction m r fuel N = .ok (some t)) : ∃ n, ∀ fuel' N', n < fuel' → auction m r fuel' N' = .ok (some t) := by
  obtain ⟨h, hcat, hpos⟩ := auction_ok_inv ht
  obtain ⟨n, s, p, d, hp, he, rfl, hle, hmax⟩ := outcome_of_ok ht
  obtain ⟨d', h1, h2, h3⟩ := auction_of_ending h hcat hpos hp he
  obtain rfl : d = d' := le_antisymm (h2 d hle) (hmax d' h1)
  exact ⟨n, h3⟩

/-- Removing a reported value from the part that remains. -/
theorem drop_report {X : List ℚ} {b : ℚ} {k : ℕ} (hk : k ≤ X.length + 1) (hb : b ∈ (sortDesc (b :: X)).take k) :
    sortDesc X = ((sortDesc (b :: X)).take k).erase b ++ (sortDesc (b :: X)).drop k ∧
      (((sortDesc (b :: X)).take k).erase b).length = k - 1 := by
  set L := sortDesc (b :: X) with hL
  have hLs : SortedDesc L := sortDesc_sorted _
  have hlen : L.length = X.length + 1 := by simp [hL]
  refine ⟨?_, ?_⟩
  · refine eq_of_perm_of_sorted ?_ (sortDesc_sorted _) ?_
    · refine (sortDesc_perm X).trans ?_
      have h1 : (b :: X).Perm (b :: ((L.take k).erase b ++ L.drop k)) := by
        refine (sortDesc_perm (b :: X)).symm.trans ?_
        rw [← hL]
        conv_lhs => rw [← List.take_append_drop k L]
        rw [← List.cons_append]
        exact (List.perm_cons_erase hb).append_right _
      exact h1.cons_inv
    · refine hLs.sublist ?_
      conv_rhs => rw [← List.take_append_drop k L]
      exact List.Sublist.append List.erase_sublist (List.Sublist.refl _)
  · rw [List.length_erase_of_mem hb, List.length_take, hlen, min_eq_left hk]

/-- Adding a report that is above the part that left. -/
theorem add_report {X : List ℚ} {v : ℚ} {k : ℕ} (hk0 : 0 < k) (hk : k ≤ X.length + 1)
    (hv : ∀ x ∈ (sortDesc X).drop (k - 1), x ≤ v) :
    (sortDesc (v :: X)).take k = sortDesc (v :: (sortDesc X).take (k - 1)) ∧
      (sortDesc (v :: X)).drop k = (sortDesc X).drop (k - 1) := by
  have hs := sortDesc_sorted X
  have e : sortDesc (v :: X) = sortDesc (v :: (sortDesc X).take (k - 1)) ++ (sortDesc X).drop (k - 1) := by
    refine eq_of_perm_of_sorted ?_ (sortDesc_sorted _) ?_
    · refine (sortDesc_perm _).trans ?_
      refine ((sortDesc_perm X).symm.cons v).trans ?_
      conv_lhs => rw [← List.take_append_drop (k - 1) (sortDesc X)]
      rw [← List.cons_append]
      exact (sortDesc_perm _).symm.append_right _
    · unfold SortedDesc
      rw [List.pairwise_append]
      refine ⟨sortDesc_sorted _, hs.drop _, ?_⟩
      intro a ha y hy
      rw [mem_sortDesc] at ha
      rcases List.mem_cons.1 ha with rfl | ha
      · exact hv y hy
      · exact hs.take_ge_drop _ a ha y hy
  have hl : (sortDesc (v :: (sortDesc X).take (k - 1))).length = k := by
    simp; omega
  rw [e]
  exact ⟨by rw [List.take_append_of_le_length (by omega), List.take_of_length_le (by omega)],
    by rw [List.drop_append_of_le_length (by omega), List.drop_of_length_le (by omega), List.nil_append]⟩

theorem clock_congr {V W : List ℚ} {k : ℕ} (h : V.drop k = W.drop k) {j : ℕ} (hj : k ≤ j) : clock V j = clock W j := by
  unfold clock
  have h1 : ∀ L : List ℚ, L[j]? = (L.drop k)[j - k]? := by
    intro L; rw [List.getElem?_drop]; congr 1; omega
  simp [h1 V, h1 W, h]

theorem clockSum_congr {cs ct : List AgentCategory} {r : List ℕ} (h : r.length = cs.length) (hl : ct.length = cs.length)
    {s : ℕ → ℕ} (he : ∀ j < cs.length, clock (vAt ct j) (s j) = clock (vAt cs j) (s j)) :
    clockSum ct r s = clockSum cs r s := by
  rw [clockSum_eq h, clockSum_eq (by rw [hl]; exact h), hl]
  exact Finset.sum_congr rfl fun j hj => by rw [he j (Finset.mem_range.1 hj)]

theorem rel_congr {cs ct : List AgentCategory} {r : List ℕ} (hl : ct.length = cs.length) : rel ct r = rel cs r := by
  simp [rel, relevantCategoryIndices, Market.numCategories, hl]

/-- Two markets that agree on the agents that leave go through the same states. -/
theorem path_congr {cs ct : List AgentCategory} {r : List ℕ} (h : r.length = cs.length) (hl : ct.length = cs.length)
    (hsz : ∀ j, (vAt ct j).length = (vAt cs j).length) {n : ℕ} {s : ℕ → ℕ} (hp : Path cs r n s) :
    ∀ k : ℕ → ℕ, (∀ j, k j ≤ s j) → (∀ j, (vAt ct j).drop (k j) = (vAt cs j).drop (k j)) → Path ct r n s := by
  induction hp with
  | start =>
    intro k _ _
    have : (fun i => (vAt cs i).length) = fun i => (vAt ct i).length := by funext i; rw [hsz]
    rw [this]
    exact Path.start
  | @step n s c hp hc h0 hneg ih =>
    intro k hk hd
    have hk' : ∀ j, k j ≤ s j := fun j => le_trans (hk j) (update_le j)
    refine (ih k hk' hd).step ?_ h0 ?_
    · rw [rel_congr hl]; exact hc
    · rw [clockSum_congr h hl (fun j _ => clock_congr (hd j) (hk j))]
      exact hneg

theorem withAgent_length (m : Market) (i : ℕ) (b : ℚ) : (withAgent m i b).numCategories = m.numCategories := by
  simp [withAgent, Market.numCategories]

theorem vAt_withAgent_ne (m : Market) {i j : ℕ} (b : ℚ) (h : j ≠ i) :
    vAt (withAgent m i b).categories j = vAt m.categories j := by
  unfold vAt withAgent
  simp [Ne.symm h]

theorem vAt_withAgent_eq (m : Market) {i : ℕ} (b : ℚ) (h : i < m.numCategories) :
    vAt (withAgent m i b).categories i = b :: vAt m.categories i := by
  have h' : i < m.categories.length := h
  unfold vAt withAgent
  simp [h']

theorem utility_outcome (cs : List AgentCategory) (s : ℕ → ℕ) (r : List ℕ) (p : List ℚ) (d i : ℕ) (v b : ℚ) :
    utility ⟨(mkMarket cs s).categories, r, some p, d⟩ i v b
      = if b ∈ (vAt cs i).take (s i) then
          ((rAt r i * d : ℕ) : ℚ) / ((vAt cs i).take (s i)).length * (v - p.getD i 0) else 0 := by
  unfold utility
  simp only [getD_values, vAt_mkMarket]
  rfl

/-- A single trader is individually rational. -/
theorem separation_one {cs : List AgentCategory} {r : List ℕ} (h : r.length = cs.length) (hne : rel cs r ≠ [])
    (hs : ∀ i, SortedDesc (vAt cs i)) {n : ℕ} {s : ℕ → ℕ} (hp : Path cs r n s) {p : List ℚ} (he : Ending cs r s p)
    {i : ℕ} (hi : i < cs.length) {v : ℚ} (hv : v ∈ (vAt cs i).take (s i)) (hval : -MAX_VALUE ≤ v) : p.getD i 0 ≤ v := by
  have hinv := (hp.inv h hne).1
  have key : clock (vAt cs i) (s i) ≤ v := by
    by_cases hlt : s i < (vAt cs i).length
    · rw [clock_of_lt hlt]
      obtain ⟨j, hj, rfl⟩ := List.getElem_of_mem hv
      simp only [List.getElem_take]
      simp only [List.length_take] at hj
      apply (hs i).getElem_ge; omega
    · rw [clock_of_ge (by omega)]; exact hval
  rcases he.cases h hne hp with ⟨-, ⟨-, rfl⟩ | ⟨c, hcm, h0, -, -, hoth, hc1, hc2⟩⟩
  · rw [mkPrices_getD hi]; exact key
  · by_cases hic : i = c
    · subst hic
      refine le_trans hc2 ?_
      have hlt : s i - 1 < (vAt cs i).length := by have := hinv.le i; omega
      rw [clock_of_lt hlt]
      obtain ⟨j, hj, rfl⟩ := List.getElem_of_mem hv
      simp only [List.getElem_take]
      simp only [List.length_take] at hj
      apply (hs i).getElem_ge; omega
    · rw [hoth i hi hic]; exact key

/-- **C22**. Truthfulness in expectation: whatever the other agents report, an agent with true value `v` cannot get a
larger expected utility by reporting any `b` than by reporting `v`; and truthful reporting never gives negative utility
(so that it is also at least as good when a tie between equal reports is broken against the misreporting agent). -/
theorem ascending_truthful {m : Market} {r : List ℕ} {i : ℕ} {v b : ℚ} {f₁ N₁ f₂ N₂ : ℕ} {tT tB : TradeWithSinglePrice}
    (hT : auction (withAgent m i v) r f₁ N₁ = .ok (some tT)) (hB : auction (withAgent m i b) r f₂ N₂ = .ok (some tB))
    (hv : -MAX_VALUE ≤ v) :
    utility tB i v b ≤ utility tT i v v ∧ 0 ≤ utility tT i v v := by
  obtain ⟨hlT, hcatT, hpos⟩ := auction_ok_inv hT
  have hl : r.length = m.numCategories := by rwa [withAgent_length] at hlT
  obtain ⟨hlB, hcatB, -⟩ := auction_ok_inv hB
  set mT := withAgent m i v with hmT
  set mB := withAgent m i b with hmB
  have hlT' : r.length = mT.sorted.length := by rw [mT.sorted_length]; exact hlT
  have hlB' : r.length = mB.sorted.length := by rw [mB.sorted_length]; exact hlB
  have hneT := rel_ne_nil hlT hpos
  have hneB := rel_ne_nil hlB hpos
  have hcl : mT.sorted.length = mB.sorted.length := by omega
  obtain ⟨n₁, hmono⟩ := auction_mono hT
  -- truthful utility is non-negative
  have hnonneg : 0 ≤ utility tT i v v := by
    obtain ⟨n, s, p, d, hp, he, rfl, -, -⟩ := outcome_of_ok hT
    rw [utility_outcome]
    split_ifs with hmem
    · have hi : i < mT.sorted.length := by
        by_contra hge
        rw [vAt_of_ge (by omega)] at hmem
        simp at hmem
      have hle := separation_one hlT' hneT (sorted_vAt mT) hp he hi hmem hv
      refine mul_nonneg (div_nonneg ?_ ?_) (by linarith)
      · exact_mod_cast Nat.zero_le _
      · exact_mod_cast Nat.zero_le _
    · exact le_refl _
  refine ⟨?_, hnonneg⟩
  obtain ⟨n, s, p, d, hp, he, rfl, hdle, hdmax⟩ := outcome_of_ok hB
  by_cases hpos' : utility ⟨(mkMarket mB.sorted s).categories, r, some p, d⟩ i v b ≤ 0
  · exact le_trans hpos' hnonneg
  -- the misreport pays off: the truthful run ends in the same state
  apply le_of_eq
  have hinv := (hp.inv hlB' hneB).1
  rw [utility_outcome] at hpos' ⊢
  by_cases hmem : b ∈ (vAt mB.sorted i).take (s i)
  swap
  · simp [hmem] at hpos'
  rw [if_pos hmem] at hpos' ⊢
  have hi : i < mB.sorted.length := by
    by_contra hge
    rw [vAt_of_ge (by omega)] at hmem
    simp at hmem
  have hi' : i < m.numCategories := by omega
  have hr0 : 0 < rAt r i := by
    rcases Nat.eq_zero_or_pos (rAt r i) with h0 | h0
    · simp [h0] at hpos'
    · exact h0
  have him : i ∈ rel mB.sorted r := relevant_mem.2 ⟨hi, hr0⟩
  have hpv : p.getD i 0 < v := by
    by_contra hge
    refine hpos' (mul_nonpos_of_nonneg_of_nonpos (div_nonneg ?_ ?_) (by linarith))
    · exact_mod_cast Nat.zero_le _
    · exact_mod_cast Nat.zero_le _
  have hsep := (separation hlB' hneB (sorted_vAt mB) hp he hi).1
  -- the two sorted categories
  set X := vAt m.categories i with hX
  have hVB : vAt mB.sorted i = sortDesc (b :: X) := by rw [vAt_sorted, vAt_withAgent_eq m b hi']
  have hVT : vAt mT.sorted i = sortDesc (v :: X) := by rw [vAt_sorted, vAt_withAgent_eq m v hi']
  have hoth : ∀ j, j ≠ i → vAt mT.sorted j = vAt mB.sorted j := by
    intro j hj
    rw [vAt_sorted, vAt_sorted, vAt_withAgent_ne m v hj, vAt_withAgent_ne m b hj]
  have hsi : s i ≤ X.length + 1 := by have := hinv.le i; rw [hVB] at this; simpa using this
  have hs0 : 0 < s i := by
    rcases Nat.eq_zero_or_pos (s i) with h0 | h0
    · rw [h0] at hmem; simp at hmem
    · exact h0
  have hmem' := hmem
  rw [hVB] at hmem' hsep
  obtain ⟨hX1, hX2⟩ := drop_report hsi hmem'
  have hXdrop : (sortDesc X).drop (s i - 1) = (sortDesc (b :: X)).drop (s i) := by
    conv_lhs => rw [hX1]
    rw [List.drop_append_of_le_length (by omega), List.drop_of_length_le (by omega), List.nil_append]
  have hXtake : (sortDesc X).take (s i - 1) = ((sortDesc (b :: X)).take (s i)).erase b := by
    conv_lhs => rw [hX1]
    rw [List.take_append_of_le_length (by omega), List.take_of_length_le (by omega)]
  obtain ⟨hT1, hT2⟩ := add_report (v := v) hs0 hsi (fun x hx => by
    rw [hXdrop] at hx
    exact le_trans (hsep x hx) hpv.le)
  rw [hXdrop] at hT2
  have hdrop : ∀ j, (vAt mT.sorted j).drop (s j) = (vAt mB.sorted j).drop (s j) := by
    intro j
    by_cases hj : j = i
    · subst hj; rw [hVT, hVB, hT2]
    · rw [hoth j hj]
  have hsz : ∀ j, (vAt mT.sorted j).length = (vAt mB.sorted j).length := by
    intro j
    by_cases hj : j = i
    · subst hj; rw [hVT, hVB]; simp
    · rw [hoth j hj]
  have hpT : Path mT.sorted r n s := path_congr hlB' hcl hsz hp s (fun j => le_refl _) hdrop
  have hclk : ∀ j, clock (vAt mT.sorted j) (s j) = clock (vAt mB.sorted j) (s j) :=
    fun j => clock_congr (hdrop j) (le_refl _)
  have hprices : mkPrices mT.sorted s = mkPrices mB.sorted s := by
    unfold mkPrices; rw [hcl]; simp only [hclk]
  have hsum : clockSum mT.sorted r s = clockSum mB.sorted r s := by unfold clockSum; rw [hprices]
  have hbalp : ∀ c, balPrice mT.sorted r s c = balPrice mB.sorted r s c := by
    intro c; unfold balPrice; rw [hsum, hclk]
  have heT : Ending mT.sorted r s p := by
    obtain ⟨c, hc, hend⟩ := he
    refine ⟨c, by rw [rel_congr hcl]; exact hc, ?_⟩
    obtain ⟨hcm, harg⟩ := mainOf_ok hneB hc
    obtain ⟨hcl', hcp⟩ := relevant_mem.1 hcm
    rcases hend with ⟨h0, hpe⟩ | ⟨h0, hge, hpe⟩
    · exact Or.inl ⟨h0, by rw [hprices]; exact hpe⟩
    · refine Or.inr ⟨h0, ?_, by rw [hprices, hbalp]; exact hpe⟩
      by_cases hci : c = i
      · subst hci
        have hpc : p.getD c 0 = balPrice mB.sorted r s c := by
          rw [hpe]; simp [mkPrices_length, hcl']
        have hrc : (0 : ℚ) < rAt r c := by exact_mod_cast hcp
        have hlt : s c - 1 < (vAt mT.sorted c).length := by rw [hsz]; have := hinv.le c; omega
        -- the lowest remaining agent of the truthful run is above the price
        have htarget : p.getD c 0 ≤ clock (vAt mT.sorted c) (s c - 1) := by
          rw [clock_of_lt hlt]
          have hmemT : (vAt mT.sorted c)[s c - 1] ∈ (vAt mT.sorted c).take (s c) := by
            rw [List.mem_take_iff_getElem]; exact ⟨s c - 1, by omega, rfl⟩
          generalize (vAt mT.sorted c)[s c - 1] = y at hmemT ⊢
          rw [hVT, hT1, mem_sortDesc] at hmemT
          rcases List.mem_cons.1 hmemT with h1 | h1
          · rw [h1]; exact hpv.le
          · rw [hXtake] at h1
            have h2 := List.mem_of_mem_erase h1
            -- agents that remain in the other run are above the price
            have hcB := (Ending.cases hlB' hneB hp ⟨c, hc, Or.inr ⟨h0, hge, hpe⟩⟩).2
            rcases hcB with ⟨h3, -⟩ | ⟨c', hc'm, -, -, -, hoth', hc1, hc2⟩
            · exact absurd (h3 c hcm) h0
            · obtain ⟨j, hj, hje⟩ := List.getElem_of_mem h2
              have hle2 : p.getD c 0 ≤ clock (vAt mB.sorted c) (s c - 1) := by
                rw [hpc]
                unfold balPrice
                rw [div_le_iff₀ hrc]
                rw [clockSum_update hlB' hcl'] at hge
                linarith
              refine le_trans hle2 ?_
              rw [clock_of_lt (by rw [← hsz]; exact hlt), ← hje]
              simp only [hVB, List.getElem_take]
              simp only [List.length_take] at hj
              apply (sortDesc_sorted (b :: X)).getElem_ge; omega
        rw [clockSum_update hlT' (by omega), hsum, hclk]
        have hbal : clockSum mB.sorted r s - rAt r c * clock (vAt mB.sorted c) (s c) + rAt r c * p.getD c 0 = 0 := by
          rw [hpc]; unfold balPrice
          field_simp
          ring
        have := mul_le_mul_of_nonneg_left htarget hrc.le
        linarith
      · rw [clockSum_update hlT' (by omega), hsum, hclk, hoth c hci]
        rw [clockSum_update hlB' hcl'] at hge
        exact hge
  obtain ⟨d', hd1, hd2, hd3⟩ := auction_of_ending hlT hcatT hpos hpT heT
  rw [hcl] at hd1 hd2
  obtain rfl : d = d' := le_antisymm (hd2 d hdle) (hdmax d' hd1)
  have hfin := hd3 (max n n₁ + 1) 0 (by omega)
  rw [hmono (max n n₁ + 1) 0 (by omega)] at hfin
  simp only [Except.ok.injEq, Option.some.injEq] at hfin
  rw [hfin, utility_outcome]
  have hvm : v ∈ (vAt mT.sorted i).take (s i) := by rw [hVT, hT1, mem_sortDesc]; simp
  rw [if_pos hvm, List.length_take, List.length_take, hsz]

/-- Non-vacuity of C22: a buyer with true value 7 joins; truth trades at price 4 with probability 1/2,
overbidding gives the same, and reporting 1 gives utility 0. -/
example :
    let m : Market := ⟨[⟨"seller", [-1, -4, -6]⟩, ⟨"buyer", [9, 2]⟩]⟩
    ∃ t₁ t₂ t₃, auction (withAgent m 1 7) [1, 1] 20 = .ok (some t₁) ∧ auction (withAgent m 1 8) [1, 1] 20 = .ok (some t₂) ∧
      auction (withAgent m 1 1) [1, 1] 20 = .ok (some t₃) ∧
      0 < utility t₁ 1 7 7 ∧ utility t₂ 1 7 8 = utility t₁ 1 7 7 ∧ utility t₃ 1 7 1 = 0 := by
  refine ⟨⟨[⟨"seller", [-1]⟩, ⟨"buyer", [9, 7]⟩], [1, 1], some [-4, 4], 1⟩,
    ⟨[⟨"seller", [-1]⟩, ⟨"buyer", [9, 8]⟩], [1, 1], some [-4, 4], 1⟩,
    ⟨[⟨"seller", [-1]⟩, ⟨"buyer", [9]⟩], [1, 1], some [-2, 2], 1⟩, ?_⟩
  decide +kernel

end Auctions.Props
