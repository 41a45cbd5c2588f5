import Verif.Proofs.AscendingOutcome
import Verif.Props.Markets

set_option autoImplicit false

/-!
# C16–C21 — the single-recipe ascending auction

`auction m r fuel N` models a call with at most `fuel` iterations of the clock loop (`.ok none`: not finished);
`N` is the parameter `max_iterations`, which only affects the log.
-/

namespace Auctions.Props

open Auctions Spec Ascending

theorem ascending_total {m : Market} {r : List ℕ} (h : r.length = m.numCategories) (hcat : m.categories ≠ [])
    (hpos : ∃ x ∈ r, 0 < x) :
    ∃ t, ∀ fuel N, m.numAgents < fuel → auction m r fuel N = .ok (some t) := by
  have h' : r.length = m.sorted.length := by rw [m.sorted_length]; exact h
  rcases auction_spec h hcat hpos (m.numAgents + 1) 0 with ⟨-, h1⟩ | ⟨t, h1, n, s, p, d, hp, he, -⟩
  · omega
  · obtain ⟨d', -, -, h4⟩ := auction_of_ending h hcat hpos hp he
    refine ⟨_, fun fuel N hf => h4 fuel N ?_⟩
    have := (hp.inv h' (rel_ne_nil h hpos)).2
    rw [total_eq] at this
    omega

/-- **C16**. The clock loop needs at most `numAgents + 1` iterations: with that many, the auction has returned a trade or
raised, and more iterations change nothing. -/
theorem ascending_terminates (m : Market) (r : List ℕ) (N : ℕ) :
    ∃ res : Py TradeWithSinglePrice, ∀ fuel, m.numAgents < fuel → auction m r fuel N = res.map some := by
  by_cases hl : r.length = m.numCategories
  swap
  · exact ⟨.error .valueError, fun fuel _ => by simp [auction, hl, Except.map]⟩
  by_cases hcat : m.categories = []
  · refine ⟨.error .valueError, fun fuel _ => ?_⟩
    have : m.optimalTrade r N = .error .valueError := by
      simp [Market.optimalTrade, hl, Market.clone, hcat, Market.init, bind, Except.bind]
    simp [auction, hl, this, bind, Except.bind, Except.map]
  by_cases hpos : ∃ x ∈ r, 0 < x
  · obtain ⟨t, ht⟩ := ascending_total hl hcat hpos
    exact ⟨.ok t, fun fuel hf => ht fuel N hf⟩
  · refine ⟨.error .valueError, fun fuel hf => ?_⟩
    cases fuel with
    | zero => omega
    | succ fuel =>
      push Not at hpos
      have hrel : relevantCategoryIndices m r = [] := by
        unfold relevantCategoryIndices
        rw [List.filter_eq_nil_iff]
        intro i hi
        simp only [List.mem_range] at hi
        rw [recipeAt_eq, rAt_eq_getElem (by omega)]
        have := hpos r[i] (List.getElem_mem _)
        simp only [gt_iff_lt, decide_eq_true_eq, not_lt]; omega
      obtain ⟨k, -, hk⟩ := optimalTrade_eq hl hcat N true
      simp [auction, hl, hk, bind, Except.bind, Market.clone_eq hcat, hrel, loop, pyMaxBy, Except.map]

/-- **C17**. Strong budget balance: a returned trade with at least one deal has prices whose recipe-weighted sum is 0. -/
theorem ascending_budget_balanced {m : Market} {r : List ℕ} {fuel N : ℕ} {t : TradeWithSinglePrice}
    (ht : auction m r fuel N = .ok (some t)) (hd : 0 < t.numOfDeals) :
    ∃ p, t.prices = some p ∧ p.length = m.numCategories ∧ recipeSum r p = 0 := by
  obtain ⟨h, hcat, hpos⟩ := auction_ok_inv ht
  have h' : r.length = m.sorted.length := by rw [m.sorted_length]; exact h
  have hne := rel_ne_nil h hpos
  obtain ⟨n, s, p, d, hp, he, rfl, hle, -⟩ := outcome_of_ok ht
  obtain ⟨hpl, hcase⟩ := he.cases h' hne hp
  refine ⟨p, rfl, by rw [hpl, m.sorted_length], ?_⟩
  rcases hcase with ⟨h0, -⟩ | ⟨c, -, -, -, hb, -⟩
  · obtain ⟨c, hc⟩ := List.exists_mem_of_ne_nil _ hne
    obtain ⟨hcl, hcp⟩ := relevant_mem.1 hc
    have h1 := hle c hcl
    rw [h0 c hc] at h1
    have hd' : 0 < d := hd
    have := Nat.mul_pos hd' hcp
    omega
  · exact hb

/-- The trade's number of agents and agents of category `i`, for a category list. -/
theorem getD_values (cs : List AgentCategory) (i : ℕ) : (cs.map AgentCategory.values).getD i [] = vAt cs i := rfl

/-- **C18**. Individual rationality: in a market whose values are at least `-MAX_VALUE`, every agent that remains in a
category used by the recipe has value at least the price of its category; a category that the recipe does not use keeps
all its agents. -/
theorem ascending_individually_rational {m : Market} {r : List ℕ} {fuel N : ℕ} {t : TradeWithSinglePrice}
    (ht : auction m r fuel N = .ok (some t)) (hval : ∀ c ∈ m.categories, ∀ v ∈ c.values, -MAX_VALUE ≤ v) :
    ∃ p, t.prices = some p ∧ ∀ i < m.numCategories,
      (0 < r.getD i 0 → ∀ v ∈ (t.categories.map AgentCategory.values).getD i [], p.getD i 0 ≤ v) ∧
      (r.getD i 0 = 0 → (t.categories.map AgentCategory.values).getD i [] = sortDesc (m.valueLists.getD i [])) := by
  obtain ⟨h, hcat, hpos⟩ := auction_ok_inv ht
  have h' : r.length = m.sorted.length := by rw [m.sorted_length]; exact h
  have hne := rel_ne_nil h hpos
  obtain ⟨n, s, p, d, hp, he, rfl, hle, -⟩ := outcome_of_ok ht
  refine ⟨p, rfl, fun i hi => ⟨fun _ => ?_, fun h0 => ?_⟩⟩
  · have hi' : i < m.sorted.length := by rw [m.sorted_length]; exact hi
    simp only [getD_values, vAt_mkMarket]
    refine (separation h' hne (sorted_vAt m) hp he hi').2 ?_
    intro v hv
    rw [vAt_sorted, mem_sortDesc, vAt_eq_getElem hi] at hv
    exact hval _ (List.getElem_mem hi) v hv
  · have hinv := (hp.inv h' hne).1
    simp only [getD_values, vAt_mkMarket]
    rw [hinv.unused i (fun hm => by have := (relevant_mem.1 hm).2; unfold rAt at this; omega), List.take_length, vAt_sorted]
    rfl

/-- **C19**. In every category the agents that remain are the best ones, in descending order, and each agent that left has
value at most the final price of its category: nobody who left envies a trader. -/
theorem ascending_keeps_best {m : Market} {r : List ℕ} {fuel N : ℕ} {t : TradeWithSinglePrice}
    (ht : auction m r fuel N = .ok (some t)) :
    t.categories.map AgentCategory.name = m.categories.map AgentCategory.name ∧
    ∃ p, t.prices = some p ∧ ∀ i < m.numCategories, ∃ left : List ℚ,
      SortedDesc ((t.categories.map AgentCategory.values).getD i [] ++ left) ∧
      ((t.categories.map AgentCategory.values).getD i [] ++ left).Perm (m.valueLists.getD i []) ∧
      ∀ v ∈ left, v ≤ p.getD i 0 := by
  obtain ⟨h, hcat, hpos⟩ := auction_ok_inv ht
  have h' : r.length = m.sorted.length := by rw [m.sorted_length]; exact h
  have hne := rel_ne_nil h hpos
  obtain ⟨n, s, p, d, hp, he, rfl, hle, -⟩ := outcome_of_ok ht
  refine ⟨?_, p, rfl, fun i hi => ⟨(vAt m.sorted i).drop (s i), ?_, ?_, ?_⟩⟩
  · simp only [mkMarket]
    apply List.ext_getElem
    · simp [Market.sorted]
    · intro i h1 h2
      simp [Market.sorted, AgentCategory.clone, AgentCategory.init]
  · simp only [getD_values, vAt_mkMarket, List.take_append_drop]; exact sorted_vAt m i
  · simp only [getD_values, vAt_mkMarket, List.take_append_drop]
    rw [vAt_sorted]
    exact sortDesc_perm _
  · exact (separation h' hne (sorted_vAt m) hp he (by rw [m.sorted_length]; exact hi)).1

/-- **C20**. If the optimal trade (default arguments, iteration limit not binding) has `k` deals, the auction makes at
least `k - 1` deals; and at most `k` if values are at least `-MAX_VALUE`. -/
theorem ascending_loses_at_most_one_deal {m : Market} {r : List ℕ} {fuel N N' : ℕ} {t : TradeWithSinglePrice}
    {opt : TradeWithMaterialBalance} {rem : Market}
    (ht : auction m r fuel N = .ok (some t)) (hopt : m.optimalTrade r N' = .ok (opt, rem)) (hN : m.numAgents ≤ N') :
    opt.numOfDeals ≤ t.numOfDeals + 1 ∧
    ((∀ c ∈ m.categories, ∀ v ∈ c.values, -MAX_VALUE ≤ v) → t.numOfDeals ≤ opt.numOfDeals) := by
  obtain ⟨h, hcat, hpos⟩ := auction_ok_inv ht
  have h' : r.length = m.sorted.length := by rw [m.sorted_length]; exact h
  have hne := rel_ne_nil h hpos
  obtain ⟨n, s, p, d, hp, he, rfl, hle, hmax⟩ := outcome_of_ok ht
  have hinv := (hp.inv h' hne).1
  obtain ⟨k, hk, hke⟩ := optimalTrade_eq h hcat N' true
  rw [hke] at hopt
  simp only [Except.ok.injEq, Prod.mk.injEq] at hopt
  obtain ⟨rfl, rfl⟩ := hopt
  have hnum : TradeWithMaterialBalance.numOfDeals ⟨((List.range k).map (blk m.sorted r)).reverse⟩ = k := by
    simp [TradeWithMaterialBalance.numOfDeals]
  rw [hnum]
  change k ≤ d + 1 ∧ (_ → d ≤ k)
  constructor
  · cases k with
    | zero => omega
    | succ k =>
      obtain ⟨h1, h2⟩ := hk.taken k (by omega)
      have h3 : 0 ≤ (blk m.sorted r k).sum := by
        unfold Good at h2; push Not at h2; exact h2.1
      have := deals_lower h' (sorted_vAt m) hinv hmax h1 h3
      omega
  · intro hval
    by_contra hlt
    have hlt : k < d := not_le.1 hlt
    have havk : ∀ i < m.sorted.length, (k + 1) * rAt r i ≤ s i := fun i hi =>
      le_trans (Nat.mul_le_mul_right _ hlt) (hle i hi)
    have hd : 0 < TradeWithSinglePrice.numOfDeals ⟨(mkMarket m.sorted s).categories, r, some p, d⟩ := by
      change 0 < d; omega
    obtain ⟨p', hp', hpl, hbal⟩ := ascending_budget_balanced ht hd
    obtain rfl : p = p' := by simpa using hp'
    have hb := blocks_nonneg h' (s := s) (p := p) (by rw [hpl, m.sorted_length]) hbal (fun i hi _ v hv => by
      refine (separation h' hne (sorted_vAt m) hp he hi).2 ?_ v hv
      intro v hv
      have hi' : i < m.categories.length := by rw [m.sorted_length] at hi; exact hi
      rw [vAt_sorted, mem_sortDesc, vAt_eq_getElem hi'] at hv
      exact hval _ (List.getElem_mem hi') v hv) hinv.le havk
    have hav : Avail m.sorted r k := fun i hi => le_trans (havk i hi) (hinv.le i)
    rcases hk.stopped h hN hpos with h1 | h1
    · exact h1 hav
    · refine h1 ?_
      unfold Good; push Not; exact ⟨hb, by simp⟩

end Auctions.Props
