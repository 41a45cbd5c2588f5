import Verif.Proofs.Greedy

set_option autoImplicit false

/-!
# C03–C07 — properties of `Market.optimal_trade`
-/

namespace Auctions.Props

open Auctions Spec

theorem names_dropBlocks {cs : List AgentCategory} {r : List ℕ} (h : r.length = cs.length) (k : ℕ) :
    (dropBlocks cs r k).map AgentCategory.name = cs.map AgentCategory.name := by
  induction cs generalizing r with
  | nil => cases r <;> simp [dropBlocks]
  | cons c cs ih =>
    cases r with
    | nil => simp at h
    | cons a r => simp [dropBlocks, ih (by simpa using h)]

/-- **C03**. The deals of `optimal_trade` split into deals that follow the recipe; together with the agents of the
remaining market they use exactly the agents of the input, in every category. -/
theorem optimal_trade_conserves {m : Market} {r : List ℕ} {n : ℕ} {z : Bool} {t : TradeWithMaterialBalance}
    {rem : Market} (h : m.optimalTrade r n z = .ok (t, rem)) :
    ∃ deals : List Deal, t.procurementSets = deals.map List.flatten ∧ (∀ d ∈ deals, Follows r d) ∧
      rem.categories.map AgentCategory.name = m.categories.map AgentCategory.name ∧
      ∀ i, used deals i + ((rem.valueLists.getD i [] : List ℚ) : Multiset ℚ)
        = ((m.valueLists.getD i [] : List ℚ) : Multiset ℚ) := by
  obtain ⟨hlen, hne⟩ := optimalTrade_ok_inv h
  obtain ⟨k, hk, he⟩ := optimalTrade_eq hlen hne n z
  have h' : r.length = m.sorted.length := by rw [m.sorted_length]; exact hlen
  rw [he] at h
  simp only [Except.ok.injEq, Prod.mk.injEq] at h
  obtain ⟨rfl, rfl⟩ := h
  refine ⟨((List.range k).map (blkDeal m.sorted r)).reverse, ?_, ?_, ?_, ?_⟩
  · simp only [List.map_reverse, List.map_map]
    congr 2
    funext j; simp [blkDeal_flatten]
  · intro d hd
    simp only [List.mem_reverse, List.mem_map, List.mem_range] at hd
    obtain ⟨j, hj, rfl⟩ := hd
    exact blkDeal_follows h' (hk.taken j hj).1
  · rw [names_dropBlocks h']
    simp [Market.sorted, AgentCategory.clone, AgentCategory.init]
  · intro i
    rw [used_reverse, used_blks h']
    have h1 : (Market.valueLists ⟨dropBlocks m.sorted r k⟩).getD i [] = (vAt m.sorted i).drop (k * rAt r i) :=
      vAt_dropBlocks h' k i
    rw [h1, Multiset.coe_add, List.take_append_drop, vAt_sorted, sortDesc_coe]
    rfl

/-- **C04**. Every deal has non-negative gain (positive without zero-gain deals), and deals are in ascending order. -/
theorem optimal_trade_gainful_sorted {m : Market} {r : List ℕ} {n : ℕ} {z : Bool} {t : TradeWithMaterialBalance}
    {rem : Market} (h : m.optimalTrade r n z = .ok (t, rem)) :
    (∀ ps ∈ t.procurementSets, 0 ≤ ps.sum ∧ (z = false → 0 < ps.sum)) ∧
      t.procurementSets.Pairwise (fun a b => a.sum ≤ b.sum) := by
  obtain ⟨hlen, hne⟩ := optimalTrade_ok_inv h
  obtain ⟨k, hk, he⟩ := optimalTrade_eq hlen hne n z
  have h' : r.length = m.sorted.length := by rw [m.sorted_length]; exact hlen
  rw [he] at h
  simp only [Except.ok.injEq, Prod.mk.injEq] at h
  obtain ⟨rfl, rfl⟩ := h
  refine ⟨?_, ?_⟩
  · intro ps hps
    simp only [List.mem_reverse, List.mem_map, List.mem_range] at hps
    obtain ⟨j, hj, rfl⟩ := hps
    have := (hk.taken j hj).2
    unfold Good at this
    push Not at this
    refine ⟨this.1, fun hz => lt_of_le_of_ne this.1 fun h0 => this.2 h0.symm hz⟩
  · rw [List.pairwise_reverse, List.pairwise_map]
    refine List.Pairwise.imp_of_mem ?_ (List.pairwise_lt_range (n := k))
    intro a b _ hb hab
    exact blk_antitone hlen (le_of_lt hab) (hk.taken b (by simpa using hb)).1

/-- The documented claim that all returned deals have *positive* gain fails for the default arguments. -/
theorem optimal_trade_default_may_return_zero_deal :
    (Market.mk [⟨"buyer", [1]⟩, ⟨"seller", [-1]⟩]).optimalTrade [1, 1]
      = .ok (⟨[[1, -1]]⟩, ⟨[⟨"buyer", []⟩, ⟨"seller", []⟩]⟩) := by
  decide +kernel

/-- **C05**. The gain of `optimal_trade` is the greatest total gain of any feasible list of deals:
no feasible list of deals has a larger gain, and some feasible list attains it. -/
theorem optimal_trade_optimal {m : Market} {r : List ℕ} {n : ℕ} {z : Bool} {t : TradeWithMaterialBalance}
    {rem : Market} (h : m.optimalTrade r n z = .ok (t, rem)) (hn : m.numAgents ≤ n) (hr : ∃ x ∈ r, 0 < x) :
    IsGreatest {g | ∃ deals, Feasible m.valueLists r deals ∧ totalGain deals = g} t.gainFromTrade := by
  constructor
  · obtain ⟨deals, h1, h2, -, h4⟩ := optimal_trade_conserves h
    refine ⟨deals, ⟨h2, fun i => ?_⟩, ?_⟩
    · rw [← h4 i]; exact Multiset.le_add_right _ _
    · unfold totalGain TradeWithMaterialBalance.gainFromTrade
      rw [h1, List.map_map]
      congr 1
      refine List.map_congr_left fun d _ => ?_
      simp [dealGain, List.sum_flatten]
  · rintro g ⟨deals, hf, rfl⟩
    obtain ⟨hlen, hne⟩ := optimalTrade_ok_inv h
    obtain ⟨k, hk, he⟩ := optimalTrade_eq hlen hne n z
    rw [he] at h
    simp only [Except.ok.injEq, Prod.mk.injEq] at h
    obtain ⟨rfl, rfl⟩ := h
    obtain ⟨hav, hle⟩ := feasible_bound hlen hf
    rw [gain_blks]
    exact le_trans hle (hk.sum_le hlen (hk.stopped hlen hn hr) hav).1

/-- **C06**, count: among the feasible lists of deals that attain the optimal gain, the default `optimal_trade` has the
largest number of deals, and with `include_zero_gft_ps=False` the smallest. -/
theorem optimal_trade_count {m : Market} {r : List ℕ} {n : ℕ} {z : Bool} {t : TradeWithMaterialBalance}
    {rem : Market} (h : m.optimalTrade r n z = .ok (t, rem)) (hn : m.numAgents ≤ n) (hr : ∃ x ∈ r, 0 < x)
    (deals : List Deal) (hf : Feasible m.valueLists r deals) (hopt : totalGain deals = t.gainFromTrade) :
    (z = true → deals.length ≤ t.numOfDeals) ∧ (z = false → t.numOfDeals ≤ deals.length) := by
  obtain ⟨hlen, hne⟩ := optimalTrade_ok_inv h
  obtain ⟨k, hk, he⟩ := optimalTrade_eq hlen hne n z
  rw [he] at h
  simp only [Except.ok.injEq, Prod.mk.injEq] at h
  obtain ⟨rfl, rfl⟩ := h
  obtain ⟨hav, hle⟩ := feasible_bound hlen hf
  rw [gain_blks] at hopt
  obtain ⟨-, h1, h2⟩ := hk.sum_le hlen (hk.stopped hlen hn hr) hav
  have hnum : TradeWithMaterialBalance.numOfDeals ⟨((List.range k).map (blk m.sorted r)).reverse⟩ = k := by
    simp [TradeWithMaterialBalance.numOfDeals]
  rw [hnum]
  refine ⟨fun hz => ?_, fun hz => ?_⟩
  · by_contra hlt
    have := h1 hz (by omega)
    linarith
  · by_contra hlt
    have := h2 hz (by omega)
    linarith

theorem dropBlocks_sorted {m : Market} {r : List ℕ} (h : r.length = m.sorted.length) (k : ℕ) :
    Market.sorted ⟨dropBlocks m.sorted r k⟩ = dropBlocks m.sorted r k := by
  have hs := m.sorted_sorted
  generalize m.sorted = cs at *
  unfold Market.sorted
  induction cs generalizing r with
  | nil => cases r <;> simp [dropBlocks]
  | cons c cs ih =>
    cases r with
    | nil => simp at h
    | cons a r =>
      simp only [dropBlocks, List.map_cons]
      rw [ih (by simpa using h) (fun c hc => hs c (by simp [hc]))]
      simp [AgentCategory.clone, AgentCategory.init, sortDesc_of_sorted ((hs c (by simp)).drop (k * a))]

/-- **C06**, maximality: every deal that could still be formed from the remaining market has negative gain
(non-positive with `include_zero_gft_ps=False`). -/
theorem optimal_trade_remaining {m : Market} {r : List ℕ} {n : ℕ} {z : Bool} {t : TradeWithMaterialBalance}
    {rem : Market} (h : m.optimalTrade r n z = .ok (t, rem)) (hn : m.numAgents ≤ n) (hr : ∃ x ∈ r, 0 < x)
    (d : Deal) (hd : Feasible rem.valueLists r [d]) :
    dealGain d ≤ 0 ∧ (z = true → dealGain d < 0) := by
  obtain ⟨hlen, hne⟩ := optimalTrade_ok_inv h
  obtain ⟨k, hk, he⟩ := optimalTrade_eq hlen hne n z
  have h' : r.length = m.sorted.length := by rw [m.sorted_length]; exact hlen
  rw [he] at h
  simp only [Except.ok.injEq, Prod.mk.injEq] at h
  obtain ⟨rfl, rfl⟩ := h
  obtain ⟨hav, hle⟩ := feasible_bound (m := ⟨dropBlocks m.sorted r k⟩)
    (by simp [Market.numCategories, dropBlocks_length h', h']) hd
  have hav0 := hav 0 (by simp)
  simp only [List.length_singleton, Finset.range_one, Finset.sum_singleton] at hle
  rw [dropBlocks_sorted h'] at hav0 hle
  rw [blk_dropBlocks h'] at hle
  have hk' : ∀ i < m.sorted.length, k * rAt r i ≤ (vAt m.sorted i).length := by
    intro i hi
    cases k with
    | zero => simp
    | succ k => exact (hk.taken k (by omega)).1 i hi
  rw [avail_dropBlocks h' k hk'] at hav0
  have hg : ¬ Good z (blk m.sorted r k).sum := by
    rcases hk.stopped hlen hn hr with h1 | h1
    · exact absurd hav0 h1
    · exact h1
  simp only [totalGain, List.map_cons, List.map_nil, List.sum_cons, List.sum_nil, add_zero] at hle
  rcases not_not.1 hg with h1 | h1
  · exact ⟨by linarith, fun _ => by linarith⟩
  · exact ⟨by linarith [h1.1], fun hz => by simp [hz] at h1⟩

/-- Non-vacuity for C03–C06: a market with a non-trivial trade, leftover agents and a zero-gain deal
(`markets.py` doctests use the same shape), for both settings of the flag. -/
example :
    let m : Market := ⟨[⟨"buyer", [9, 8, 2]⟩, ⟨"seller", [-1, -3, -4, -4, -7]⟩]⟩
    m.optimalTrade [1, 2] = .ok (⟨[[8, -4, -4], [9, -1, -3]]⟩, ⟨[⟨"buyer", [2]⟩, ⟨"seller", [-7]⟩]⟩) ∧
    m.optimalTrade [1, 2] 2000000 false
      = .ok (⟨[[9, -1, -3]]⟩, ⟨[⟨"buyer", [8, 2]⟩, ⟨"seller", [-4, -4, -7]⟩]⟩) ∧
    m.numAgents ≤ 2000000 ∧ Feasible m.valueLists [1, 2] [[[9], [-4, -4]]] := by
  refine ⟨by decide +kernel, by decide +kernel, by decide, by simp [Follows], ?_⟩
  intro i
  rcases i with _ | _ | _ | i
  all_goals simp [used, Market.valueLists]
  · decide +kernel

end Auctions.Props
