import Verif.Proofs.Experiment
import Verif.Props.Errors
import Verif.Props.Ascending
import Verif.Props.AscendingGain
import Verif.Props.McAfee
import Verif.Props.TradeReduction
import Verif.Props.Trade

set_option autoImplicit false

/-!
# C65, C66: the table of an experiment
-/

namespace Auctions.Props

open Auctions Spec Experiment Ascending TradeReduction McAfee

/-! ## The columns -/

theorem reports_of_sums {N n : ℕ} {row : Row} {xs : List Measurement} (hx : xs.length = N)
    (h : mkRow N n ((⟨0, 0, 0, 0, 0⟩ : Sums).addAll xs) = .ok row) : Reports row n xs := by
  obtain ⟨hN, rfl⟩ := mkRow_ok h
  rw [addAll_eq]
  have c1 : (((xs.map (fun x => x.optimalDeals)).sum : ℕ) : ℚ) = (xs.map (fun x => (x.optimalDeals : ℚ))).sum := by
    rw [Nat.cast_list_sum, List.map_map]; rfl
  have c2 : (((xs.map (fun x => x.deals)).sum : ℕ) : ℚ) = (xs.map (fun x => (x.deals : ℚ))).sum := by
    rw [Nat.cast_list_sum, List.map_map]; rfl
  have c0 : (xs.map (fun x => x.optimalDeals)).sum = 0 ↔ (xs.map (fun x => (x.optimalDeals : ℚ))).sum = 0 := by
    rw [← c1]; exact Nat.cast_eq_zero.symm
  subst hx
  refine ⟨rfl, rfl, ?_, ?_, ?_, ?_, ?_, ?_, ?_, ?_⟩
  · simp only [zero_add, c1]; exact pyRound2_rounded _
  · simp only [zero_add, c2]; exact pyRound2_rounded _
  · simp only [zero_add]; exact pyRound2_rounded _
  · simp only [zero_add]; exact pyRound2_rounded _
  · simp only [zero_add]; exact pyRound2_rounded _
  · simp only [zero_add, c0]
    split_ifs with h0
    · rfl
    · rw [c1, c2]
      have hnn : (0 : ℚ) ≤ (xs.map (fun x => (x.deals : ℚ))).sum / (xs.map (fun x => (x.optimalDeals : ℚ))).sum * 10000 := by
        rw [← c1, ← c2]; positivity
      rw [pyInt, if_pos hnn]
      have h1 := Int.floor_le ((xs.map (fun x => (x.deals : ℚ))).sum / (xs.map (fun x => (x.optimalDeals : ℚ))).sum * 10000)
      have h2 := Int.lt_floor_add_one ((xs.map (fun x => (x.deals : ℚ))).sum / (xs.map (fun x => (x.optimalDeals : ℚ))).sum * 10000)
      constructor <;> linarith
  · simp only [zero_add]
    split_ifs with h0
    · rfl
    · exact pyRound2_rounded _
  · simp only [zero_add]
    split_ifs with h0
    · rfl
    · exact pyRound2_rounded _

/-- **C65**. Whatever the auction and the random numbers: when `experiment` returns, the table has a row for each entry of
`nums_of_agents`; row `i` reports measurements of `num_of_iterations` markets, one for each iteration, each drawn with the random
numbers of that row and iteration. -/
theorem experiment_columns {A : AuctionFunction} {r : List ℕ} {ranges : List (ℚ × ℚ)} {ns : List ℕ} {N : ℕ}
    {random : ℕ → ℕ → ℕ → ℕ → ℚ} {table : List Row} (h : experiment A r ranges ns N random = .ok (some table)) :
    ∃ hl : table.length = ns.length, ∀ i (hi : i < ns.length), ∃ xs : List Measurement, xs.length = N ∧
      (∀ j (hj : j < xs.length), ∃ m, randomMarket r ns[i] ranges (random i j) = .ok m ∧ Measured A r m xs[j]) ∧
      Reports table[i] ns[i] xs := by
  obtain ⟨hl, hall⟩ := (rows_iff 0 ns table).1 h
  refine ⟨hl, fun i hi => ?_⟩
  obtain ⟨s, hs, hrow⟩ := hall i hi
  obtain ⟨xs, hx, hm, rfl⟩ := (iterations_iff _ _ _ _).1 hs
  refine ⟨xs, hx, fun j hj => ?_, reports_of_sums hx hrow⟩
  have := hm j hj
  simpa using this

/-- **C65**. The random market: with as many ranges as categories and numbers between 0 and 1 it exists, has `n * recipe[c]` agents in
category `c`, and their values are whole numbers in the range of the category, except for the rounding of its ends. -/
theorem random_market {r : List ℕ} (hr : r ≠ []) {n : ℕ} {ranges : List (ℚ × ℚ)} (hl : r.length ≤ ranges.length)
    (hle : ∀ x ∈ ranges, x.1 ≤ x.2) {random : ℕ → ℕ → ℚ} (hrand : ∀ c a, 0 ≤ random c a ∧ random c a ≤ 1) :
    ∃ m, randomMarket r n ranges random = .ok m ∧ Drawn r n ranges m := by
  obtain ⟨cats, h1, h2, h3⟩ := randomCategories_ok (n := n) (vr := ranges) (random := random) 0 r (by omega)
  have hne : cats ≠ [] := by
    rintro rfl
    exact hr (List.length_eq_zero_iff.1 h2.symm)
  have hi : Market.init cats = .ok ⟨cats⟩ := by
    cases cats with
    | nil => exact absurd rfl hne
    | cons c cs => rfl
  refine ⟨⟨cats⟩, by simp only [randomMarket, h1, bind, Except.bind, hi], h2, fun c hc => ?_⟩
  have hc' : c < cats.length := hc
  have he := h3 c hc'
  simp only [Nat.zero_add] at he
  have hx : (ranges.getD c 0) ∈ ranges := by
    rw [List.getD_eq_getElem?_getD, List.getElem?_eq_getElem (show c < ranges.length by omega)]
    exact List.getElem_mem _
  refine ⟨?_, fun v hv => ?_⟩
  · show (cats[c]).size = _
    rw [he, uniformlyRandom_size]
  · have hv' : v ∈ (cats[c]).values := hv
    rw [he] at hv'
    obtain ⟨a1, -, -, a4, a5⟩ := uniformlyRandom_mem (hrand c) (hle _ hx) hv'
    exact ⟨a1, a4, a5⟩

/-! ## What the auctions guarantee for one market -/

theorem gains_of_mk {cs : List AgentCategory} {r : List ℕ} {a : ℕ → ℕ} {q : Option (List ℚ)} {d : ℕ} (hl : r.length = cs.length)
    (h : 0 < d → ∃ p, q = some p ∧ p.length = cs.length ∧ ∀ i < cs.length, 0 < a i ∧ 0 < (vAt cs i).length) :
    ∃ g gm, TradeWithSinglePrice.gainFromTrade ⟨(mkMarket cs a).categories, r, q, d⟩ true = .ok g ∧
      TradeWithSinglePrice.gainFromTrade ⟨(mkMarket cs a).categories, r, q, d⟩ false = .ok gm ∧
      (d = 0 → gm = g) ∧ ∀ p, q = some p → p.length = cs.length → g - gm = d * recipeSum r p := by
  rcases Nat.eq_zero_or_pos d with rfl | hd
  · exact ⟨0, 0, rfl, rfl, fun _ => rfl, by simp⟩
  obtain ⟨p, rfl, hpl, hne⟩ := h hd
  have hcne : ∀ c ∈ (mkMarket cs a).categories, c.values ≠ [] := by
    intro c hc hnil
    obtain ⟨i, hi, rfl⟩ := List.getElem_of_mem hc
    have hi' := hi
    rw [mkMarket_length] at hi'
    have h3 : vAt (mkMarket cs a).categories i = [] := by rw [vAt_eq_getElem hi]; exact hnil
    rw [vAt_mkMarket] at h3
    have h4 := congrArg List.length h3
    obtain ⟨h5, h6⟩ := hne i hi'
    simp only [List.length_take, List.length_nil] at h4
    omega
  have hg := fun b => (gain_defined_iff ⟨(mkMarket cs a).categories, r, some p, d⟩ b rfl hd
    (by simp [mkMarket_length, hl]) (by simp [mkMarket_length, hpl])).1 hcne
  obtain ⟨g, h1⟩ := hg true
  obtain ⟨gm, h2⟩ := hg false
  refine ⟨g, gm, h1, h2, by omega, ?_⟩
  rintro p' hp' -
  obtain rfl : p = p' := by simpa using hp'
  exact (gain_split rfl (by simp [mkMarket_length, hl]) (by simp [mkMarket_length, hpl]) h1 h2).1

/-- What is known of one iteration. -/
structure Fine (n : ℕ) (x : Measurement) : Prop where
  deals_le : x.deals ≤ x.optimalDeals
  one : x.optimalDeals ≤ x.deals + 1
  within : x.optimalDeals ≤ n
  gain_le : x.gain ≤ x.optimalGain
  gain_ge : 0 < x.optimalDeals → (1 - 1 / (x.optimalDeals : ℚ)) * x.optimalGain ≤ x.gain
  gain_nonneg : 0 ≤ x.gain
  market_le : x.marketGain ≤ x.gain

theorem optimal_within {m : Market} {r : List ℕ} {n N k : ℕ} {z : Bool}
    (hsz : ∃ c, ∃ hc : c < m.categories.length, m.categories[c].size < (n + 1) * r.getD c 0)
    (hk : GreedyStop m r N z k) : k ≤ n := by
  rcases Nat.eq_zero_or_pos k with h0 | h0
  · omega
  have h1 := (hk.taken (k - 1) (by omega)).1
  obtain ⟨c, hc, hlt⟩ := hsz
  have h2 := h1 c (by rw [m.sorted_length]; exact hc)
  have h4 : (vAt m.sorted c).length = m.categories[c].size := by
    rw [vAt_sorted, sortDesc_length, vAt_eq_getElem hc]
    rfl
  rw [h4, show k - 1 + 1 = k by omega] at h2
  have h5 : k * rAt r c < (n + 1) * rAt r c := lt_of_le_of_lt h2 hlt
  have := Nat.lt_of_mul_lt_mul_right h5
  omega

theorem optimal_gain_nonneg {m : Market} {r : List ℕ} {N k : ℕ} {z : Bool} (hk : GreedyStop m r N z k) :
    0 ≤ TradeWithMaterialBalance.gainFromTrade ⟨((List.range k).map (blk m.sorted r)).reverse⟩ := by
  rw [gain_blks]
  refine Finset.sum_nonneg fun j hj => ?_
  have := (hk.taken j (Finset.mem_range.1 hj)).2
  unfold Good at this; push Not at this; exact this.1

theorem gain_nonneg_of {k : ℕ} {G g : ℚ} (hG : 0 ≤ G) (h0 : k = 0 → 0 ≤ g)
    (hge : 0 < k → (1 - 1 / (k : ℚ)) * G ≤ g) : 0 ≤ g := by
  rcases Nat.eq_zero_or_pos k with hk | hk
  · exact h0 hk
  · refine le_trans (mul_nonneg ?_ hG) (hge hk)
    have h1 : (1 : ℚ) ≤ k := by exact_mod_cast hk
    have : (1 : ℚ) / k ≤ 1 := by
      rw [div_le_one (by linarith)]; exact h1
    linarith

theorem gain_of_no_deals {t : TradeWithSinglePrice} (h : t.numOfDeals = 0) (b : Bool) : t.gainFromTrade b = .ok 0 := by
  simp [TradeWithSinglePrice.gainFromTrade, show t.numOfDealsCache = 0 from h]

/-- The hypotheses on a market: at most `n` procurement-sets and at most `A` agents. -/
structure Usable (r : List ℕ) (n A : ℕ) (m : Market) : Prop where
  length : r.length = m.numCategories
  size : ∃ c, ∃ hc : c < m.categories.length, m.categories[c].size < (n + 1) * r.getD c 0
  low : ∀ c ∈ m.categories, ∀ v ∈ c.values, -MAX_VALUE ≤ v
  high : ∀ c ∈ m.categories, ∀ v ∈ c.values, (r.sum : ℚ) * v < MAX_VALUE
  agents : m.numAgents ≤ A

theorem ascending_fine {r : List ℕ} (hall : ∀ x ∈ r, 0 < x) (hr : r ≠ []) {n A fuel : ℕ} {m : Market} (hm : Usable r n A m)
    (hn : A ≤ 2000000) (hf : A < fuel) :
    ∃ x, Measured (fun m r => auction m r fuel) r m x ∧ Fine n x ∧ x.marketGain = x.gain := by
  have hcat : m.categories ≠ [] := by
    intro h0
    have := hm.length
    simp only [Market.numCategories, h0, List.length_nil] at this
    exact hr (List.length_eq_zero_iff.1 this)
  have hpos : ∃ x ∈ r, 0 < x := by
    obtain ⟨x, hx⟩ := List.exists_mem_of_ne_nil _ hr
    exact ⟨x, hx, hall x hx⟩
  have h' : r.length = m.sorted.length := by rw [m.sorted_length]; exact hm.length
  obtain ⟨t, ht⟩ := ascending_total hm.length hcat hpos
  have ht := ht fuel 999999999 (by have := hm.agents; omega)
  obtain ⟨k, hk, hopt⟩ := optimalTrade_eq hm.length hcat 2000000 true
  have hag : m.numAgents ≤ 2000000 := by have := hm.agents; omega
  have hcount := ascending_loses_at_most_one_deal ht hopt hag
  have hbal := ascending_budget_balanced ht
  have hgain := fun g hg => ascending_gain (g := g) ht hopt hag hg
  obtain ⟨nn, s, p, d, hp, he, rfl, hle, -⟩ := outcome_of_ok ht
  have hinv := (hp.inv h' (rel_ne_nil hm.length hpos)).1
  have hne : 0 < d → ∃ p', some p = some p' ∧ p'.length = m.sorted.length ∧ ∀ i < m.sorted.length, 0 < s i ∧ 0 < (vAt m.sorted i).length := by
    intro hd
    obtain ⟨hpl, -⟩ := he.cases h' (rel_ne_nil hm.length hpos) hp
    refine ⟨p, rfl, hpl, fun i hi => ?_⟩
    have h5 := hle i hi
    have h6 : 0 < rAt r i := by rw [rAt_eq_getElem (by omega)]; exact hall _ (List.getElem_mem _)
    have h7 := Nat.mul_pos hd h6
    have h8 := hinv.le i
    omega
  obtain ⟨g, gm, h1, h2, h3, h4⟩ := gains_of_mk h' hne
  have hnum : TradeWithMaterialBalance.numOfDeals ⟨((List.range k).map (blk m.sorted r)).reverse⟩ = k := by
    simp [TradeWithMaterialBalance.numOfDeals]
  rw [hnum] at hcount
  have hG := hgain g h1
  rw [hnum] at hG
  have hge := hG.2 (fun c hc v hv => ⟨hm.low c hc v hv, hm.high c hc v hv⟩)
  have heq : gm = g := by
    rcases Nat.eq_zero_or_pos d with hd | hd
    · exact h3 hd
    · obtain ⟨p', hp', hpl', hb⟩ := hbal hd
      obtain rfl : p = p' := by simpa using hp'
      have := h4 p rfl (by rw [m.sorted_length]; exact hpl')
      rw [hb] at this
      linarith
  have hdk : d ≤ k := hcount.2 hm.low
  have hone : k ≤ d + 1 := hcount.1
  refine ⟨⟨k, d, TradeWithMaterialBalance.gainFromTrade ⟨((List.range k).map (blk m.sorted r)).reverse⟩, g, gm⟩,
    ⟨_, _, _, hopt, ht, hnum.symm, rfl, rfl, h1, h2⟩, ⟨hdk, hone, optimal_within hm.size hk, hG.1, hge, ?_, heq.le⟩, heq⟩
  refine gain_nonneg_of (optimal_gain_nonneg hk) (fun h0 => ?_) hge
  have hd0 : d = 0 := by omega
  subst hd0
  simp only [TradeWithSinglePrice.gainFromTrade, if_true, Except.ok.injEq] at h1
  exact h1.le

theorem trade_reduction_fine {r : List ℕ} (hall : ∀ x ∈ r, 0 < x) (hr : r ≠ []) {n A : ℕ} {m : Market} (hm : Usable r n A m)
    (hn : A ≤ 2000000) :
    ∃ x, Measured (fun m r => (tradeReduction m r).map some) r m x ∧ Fine n x ∧ x.marketGain = x.gain := by
  have hcat : m.categories ≠ [] := by
    intro h0
    have := hm.length
    simp only [Market.numCategories, h0, List.length_nil] at this
    exact hr (List.length_eq_zero_iff.1 this)
  have hpos : ∃ x ∈ r, 0 < x := by
    obtain ⟨x, hx⟩ := List.exists_mem_of_ne_nil _ hr
    exact ⟨x, hx, hall x hx⟩
  have h' : r.length = m.sorted.length := by rw [m.sorted_length]; exact hm.length
  obtain ⟨t, ht⟩ := trade_reduction_total hm.length hcat hpos true
  have hag : m.numAgents ≤ 2000000 := by have := hm.agents; omega
  obtain ⟨k, hk, hopt, hres⟩ := tr_outcome hpos hm.low ht
  have hcount := trade_reduction_loses_at_most_one_deal hpos hm.low hag ht hopt hopt
  have hgain := fun g hg => trade_reduction_gain (g := g) hpos hm.low hag ht hopt hg
  have hnum : TradeWithMaterialBalance.numOfDeals ⟨((List.range k).map (blk m.sorted r)).reverse⟩ = k := by
    simp [TradeWithMaterialBalance.numOfDeals]
  rw [hnum] at hcount
  have key : ∃ g gm, t.gainFromTrade true = .ok g ∧ t.gainFromTrade false = .ok gm ∧ gm = g := by
    rcases hres with ⟨q, rfl, -⟩ | ⟨a, p, d, rfl, hT, -⟩
    · exact ⟨0, 0, rfl, rfl, rfl⟩
    · have hne : 0 < d → ∃ p', some p = some p' ∧ p'.length = m.sorted.length ∧ ∀ i < m.sorted.length, 0 < a i ∧ 0 < (vAt m.sorted i).length := by
        intro hd
        refine ⟨p, rfl, hT.plen, fun i hi => ?_⟩
        have h5 := hT.dle i hi
        have h6 : 0 < rAt r i := by rw [rAt_eq_getElem (by omega)]; exact hall _ (List.getElem_mem _)
        have h7 := Nat.mul_pos hd h6
        have h8 := hT.alen i
        omega
      obtain ⟨g, gm, h1, h2, h3, h4⟩ := gains_of_mk h' hne
      refine ⟨g, gm, h1, h2, ?_⟩
      have := h4 p rfl hT.plen
      rw [hT.bal] at this
      linarith
  obtain ⟨g, gm, h1, h2, heq⟩ := key
  have hG := hgain g h1
  rw [hnum] at hG
  refine ⟨⟨k, t.numOfDeals, TradeWithMaterialBalance.gainFromTrade ⟨((List.range k).map (blk m.sorted r)).reverse⟩, g, gm⟩,
    ⟨_, _, t, hopt, by simp only [ht]; rfl, hnum.symm, rfl, rfl, h1, h2⟩,
    ⟨hcount.1, hcount.2, optimal_within hm.size hk, hG.1, hG.2, ?_, heq.le⟩, heq⟩
  refine gain_nonneg_of (optimal_gain_nonneg hk) (fun h0 => ?_) hG.2
  have hd0 : t.numOfDeals = 0 := by have := hcount.1; omega
  rw [gain_of_no_deals hd0] at h1
  exact (Except.ok.inj h1).le

theorem mcafee_fine {c : ℕ} (hc : 0 < c) {b : Bool} (hcase : b = false ∨ c = 2) {n A : ℕ} {m : Market}
    (hm : Usable (List.replicate c 1) n A m) :
    ∃ x, Measured (fun m r => (mcafeeTradeReduction m r b).map some) (List.replicate c 1) m x ∧ Fine n x := by
  have hcl : m.numCategories = c := by simpa using hm.length.symm
  have hcat : m.categories ≠ [] := by
    intro h0
    simp only [Market.numCategories, h0, List.length_nil] at hcl
    omega
  obtain ⟨t, ht⟩ := mcafee_total hcat b
  rw [hcl] at ht
  have h' : (List.replicate c 1).length = m.sorted.length := by rw [m.sorted_length, hm.length]
  obtain ⟨k, d, p, hk, hopt, hres, he⟩ := mcafee_eq (r := List.replicate c 1) (m := m) (by rw [hcl]) hcat b
  have hcount := mcafee_deals ht hopt
  obtain ⟨g, h1, hG⟩ := mcafee_gain ht hopt
  obtain ⟨p1, hp1, hpl, -⟩ := mcafee_individually_rational ht
  obtain ⟨p2, hp2, hdef⟩ := mcafee_no_deficit ht (by rw [hcl]; exact hcase)
  have hnum : TradeWithMaterialBalance.numOfDeals ⟨((List.range k).map (blk m.sorted (List.replicate c 1))).reverse⟩ = k := by
    simp [TradeWithMaterialBalance.numOfDeals]
  rw [hnum] at hcount hG
  rw [he] at ht
  obtain rfl := Except.ok.inj ht
  obtain rfl : p = p1 := by simpa using hp1
  obtain rfl : p = p2 := by simpa using hp2
  have hdk : d ≤ k := hcount.1
  have hne : 0 < d → ∃ p', some p = some p' ∧ p'.length = m.sorted.length ∧ ∀ i < m.sorted.length, 0 < (fun _ : ℕ => d) i ∧ 0 < (vAt m.sorted i).length := by
    intro hd
    refine ⟨p, rfl, by rw [m.sorted_length]; exact hpl, fun i hi => ⟨hd, ?_⟩⟩
    have h5 := (hk.taken 0 (by omega)).1 i hi
    have h6 : rAt (List.replicate c 1) i = 1 := by
      rw [rAt_eq_getElem (by rw [h']; exact hi)]; simp
    rw [h6] at h5
    omega
  obtain ⟨g', gm, h1', h2, h3, h4⟩ := gains_of_mk h' hne
  obtain rfl : g = g' := by rw [h1] at h1'; exact Except.ok.inj h1'
  have hle : gm ≤ g := by
    have := h4 p rfl (by rw [m.sorted_length]; exact hpl)
    have h5 : (0 : ℚ) ≤ d * recipeSum (List.replicate c 1) p := mul_nonneg (by positivity) hdef
    linarith
  refine ⟨⟨k, d, TradeWithMaterialBalance.gainFromTrade ⟨((List.range k).map (blk m.sorted (List.replicate c 1))).reverse⟩, g, gm⟩,
    ⟨_, _, _, hopt, by simp only [he]; rfl, hnum.symm, rfl, rfl, h1, h2⟩,
    ⟨hdk, hcount.2.1, optimal_within hm.size hk, hG.1, hG.2, ?_, hle⟩⟩
  refine gain_nonneg_of (optimal_gain_nonneg hk) (fun h0 => ?_) hG.2
  have hd0 : d = 0 := by omega
  subst hd0
  exact (Except.ok.inj (h1.symm.trans rfl)).ge

/-! ## The rows -/

theorem measured_unique {A : AuctionFunction} {r : List ℕ} {m : Market} {x y : Measurement} (hx : Measured A r m x) (hy : Measured A r m y) :
    x = y := by
  obtain ⟨o, re, t, a1, a2, a3, a4, a5, a6, a7⟩ := hx
  obtain ⟨o', re', t', b1, b2, b3, b4, b5, b6, b7⟩ := hy
  rw [a1] at b1
  obtain ⟨rfl, rfl⟩ := Prod.mk.inj (Except.ok.inj b1)
  rw [a2] at b2
  obtain rfl := Option.some.inj (Except.ok.inj b2)
  rw [a6] at b6
  rw [a7] at b7
  cases x; cases y
  simp only at *
  subst a3 a4 a5 b3 b4 b5
  rw [Except.ok.inj b6, Except.ok.inj b7]

theorem sum_le {α : Type} {f g : α → ℚ} {xs : List α} (h : ∀ x ∈ xs, f x ≤ g x) : (xs.map f).sum ≤ (xs.map g).sum :=
  List.sum_le_sum h

/-- The row of sums over iterations that are all fine. -/
theorem row_as_predicted {N n : ℕ} {row : Row} {xs : List Measurement} (hx : xs.length = N) (hxs : ∀ x ∈ xs, Fine n x)
    (h : mkRow N n ((⟨0, 0, 0, 0, 0⟩ : Sums).addAll xs) = .ok row) :
    AsPredicted row ∧
    ((∀ x ∈ xs, x.marketGain = x.gain) →
      row.meanAuctionMarketGft = row.meanAuctionTotalGft ∧ row.marketGftRatio = row.totalGftRatio) ∧
    ∀ k : ℕ, 0 < k → (∀ x ∈ xs, k ≤ x.optimalDeals) → 0 < row.meanOptimalGft →
      (1 - 1 / (k : ℚ)) * 100 - 1 / 200 ≤ row.totalGftRatio := by
  obtain ⟨hN, hrow⟩ := mkRow_ok h
  rw [addAll_eq] at hrow
  have c1 : (((xs.map (fun x => x.optimalDeals)).sum : ℕ) : ℚ) = (xs.map (fun x => (x.optimalDeals : ℚ))).sum := by
    rw [Nat.cast_list_sum, List.map_map]; rfl
  have c2 : (((xs.map (fun x => x.deals)).sum : ℕ) : ℚ) = (xs.map (fun x => (x.deals : ℚ))).sum := by
    rw [Nat.cast_list_sum, List.map_map]; rfl
  simp only [zero_add, c1, c2] at hrow
  have hNq : (0 : ℚ) < N := by exact_mod_cast Nat.pos_of_ne_zero hN
  have s1 : (xs.map (fun x => (x.deals : ℚ))).sum ≤ (xs.map (fun x => (x.optimalDeals : ℚ))).sum :=
    sum_le fun x hx => by exact_mod_cast (hxs x hx).deals_le
  have s2 : (xs.map (fun x => (x.optimalDeals : ℚ))).sum ≤ (xs.map (fun x => (x.deals : ℚ))).sum + N := by
    have := sum_le (xs := xs) (f := fun x => (x.optimalDeals : ℚ)) (g := fun x => (x.deals : ℚ) + 1)
      (fun x hx => by exact_mod_cast (hxs x hx).one)
    rw [List.sum_map_add] at this
    simpa [hx] using this
  have s3 : (xs.map (fun x => (x.optimalDeals : ℚ))).sum ≤ N * n := by
    have := sum_le (xs := xs) (f := fun x => (x.optimalDeals : ℚ)) (g := fun _ => (n : ℚ))
      (fun x hx => by exact_mod_cast (hxs x hx).within)
    simpa [hx] using this
  have s4 : (xs.map (fun x => x.gain)).sum ≤ (xs.map (fun x => x.optimalGain)).sum := sum_le fun x hx => (hxs x hx).gain_le
  have s5 : 0 ≤ (xs.map (fun x => x.gain)).sum := List.sum_nonneg (by
    intro y hy; obtain ⟨x, hx, rfl⟩ := List.mem_map.1 hy; exact (hxs x hx).gain_nonneg)
  have s6 : (xs.map (fun x => x.marketGain)).sum ≤ (xs.map (fun x => x.gain)).sum := sum_le fun x hx => (hxs x hx).market_le
  have s0 : 0 ≤ (xs.map (fun x => (x.deals : ℚ))).sum := by rw [← c2]; positivity
  have sub : ∀ {a b : ℚ}, a ≤ b → pyRound2 (a / N) ≤ pyRound2 (b / N) := fun hab =>
    pyRound2_mono (by rw [div_le_div_iff_of_pos_right hNq]; exact hab)
  have r0 : pyRound2 0 = 0 := by simpa using pyRound2_nat 0
  refine ⟨?_, ?_, ?_⟩
  · constructor
    · rw [hrow]; exact sub s1
    · rw [hrow]
      simp only
      rw [← pyRound2_add_one]
      refine pyRound2_mono ?_
      rw [div_add_one hNq.ne', div_le_div_iff_of_pos_right hNq]; exact s2
    · rw [hrow]
      simp only
      refine le_trans (pyRound2_mono (y := (n : ℚ)) ?_) (pyRound2_nat n).le
      rw [div_le_iff₀ hNq]; linarith
    · rw [hrow]
      simp only
      split_ifs with h0
      · exact le_refl _
      · have hnn : (0 : ℚ) ≤ (xs.map (fun x => (x.deals : ℚ))).sum / (xs.map (fun x => (x.optimalDeals : ℚ))).sum * 10000 :=
          mul_nonneg (div_nonneg s0 (s0.trans s1)) (by norm_num)
        rw [pyInt, if_pos hnn]
        have : (0 : ℚ) ≤ (⌊(xs.map (fun x => (x.deals : ℚ))).sum / (xs.map (fun x => (x.optimalDeals : ℚ))).sum * 10000⌋ : ℤ) := by
          exact_mod_cast Int.floor_nonneg.2 hnn
        linarith
    · rw [hrow]
      simp only
      split_ifs with h0
      · norm_num
      · have h0' : (xs.map (fun x => (x.optimalDeals : ℚ))).sum ≠ 0 := by
          rw [← c1]; exact_mod_cast h0
        have hpos : 0 < (xs.map (fun x => (x.optimalDeals : ℚ))).sum := lt_of_le_of_ne (s0.trans s1) h0'.symm
        have hnn : (0 : ℚ) ≤ (xs.map (fun x => (x.deals : ℚ))).sum / (xs.map (fun x => (x.optimalDeals : ℚ))).sum * 10000 :=
          mul_nonneg (div_nonneg s0 (s0.trans s1)) (by norm_num)
        rw [pyInt, if_pos hnn]
        have h1 := Int.floor_le ((xs.map (fun x => (x.deals : ℚ))).sum / (xs.map (fun x => (x.optimalDeals : ℚ))).sum * 10000)
        have h2 : (xs.map (fun x => (x.deals : ℚ))).sum / (xs.map (fun x => (x.optimalDeals : ℚ))).sum ≤ 1 := by
          rw [div_le_one hpos]; exact s1
        linarith
    · rw [hrow]
      simp only
      rw [← r0]
      exact pyRound2_mono (div_nonneg s5 hNq.le)
    · rw [hrow]; exact sub s4
    · rw [hrow]
      simp only
      split_ifs with h0
      · exact le_refl _
      · rw [← r0]
        exact pyRound2_mono (mul_nonneg (div_nonneg s5 (s5.trans s4)) (by norm_num))
    · rw [hrow]
      simp only
      split_ifs with h0
      · norm_num
      · have hpos : 0 < (xs.map (fun x => x.optimalGain)).sum := lt_of_le_of_ne (s5.trans s4) (Ne.symm h0)
        have : (100 : ℚ) = pyRound2 100 := by
          have := pyRound2_nat 100
          push_cast at this; exact this.symm
        refine le_trans (pyRound2_mono (y := 100) ?_) this.ge
        have h2 : (xs.map (fun x => x.gain)).sum / (xs.map (fun x => x.optimalGain)).sum ≤ 1 := by
          rw [div_le_one hpos]; exact s4
        linarith
    · rw [hrow]; exact sub s6
    · rw [hrow]
      simp only
      split_ifs with h0
      · exact le_refl _
      · have hpos : 0 < (xs.map (fun x => x.optimalGain)).sum := lt_of_le_of_ne (s5.trans s4) (Ne.symm h0)
        refine pyRound2_mono ?_
        have := (div_le_div_iff_of_pos_right hpos).2 s6
        linarith
  · intro hE
    have : (xs.map (fun x => x.marketGain)) = (xs.map (fun x => x.gain)) := List.map_congr_left hE
    rw [hrow, this]
    exact ⟨rfl, rfl⟩
  · intro k hk hall hG
    have hkq : (0 : ℚ) < k := by exact_mod_cast hk
    have hne : (xs.map (fun x => x.optimalGain)).sum ≠ 0 := by
      intro h0
      rw [hrow] at hG
      simp only [h0, zero_div, r0, lt_irrefl] at hG
    have hpos : 0 < (xs.map (fun x => x.optimalGain)).sum := lt_of_le_of_ne (s5.trans s4) hne.symm
    have s7 : (1 - 1 / (k : ℚ)) * (xs.map (fun x => x.optimalGain)).sum ≤ (xs.map (fun x => x.gain)).sum := by
      rw [← List.sum_map_mul_left]
      refine sum_le fun x hx => ?_
      have h1 := hall x hx
      have h2 := (hxs x hx).gain_ge (by omega)
      refine le_trans (mul_le_mul_of_nonneg_right ?_ ((hxs x hx).gain_nonneg.trans (hxs x hx).gain_le)) h2
      have : (1 : ℚ) / x.optimalDeals ≤ 1 / k := one_div_le_one_div_of_le hkq (by exact_mod_cast h1)
      linarith
    have h8 : (1 - 1 / (k : ℚ)) ≤ (xs.map (fun x => x.gain)).sum / (xs.map (fun x => x.optimalGain)).sum := by
      rw [le_div_iff₀ hpos]; exact s7
    have h9 := abs_le.1 (pyRound2_rounded ((xs.map (fun x => x.gain)).sum / (xs.map (fun x => x.optimalGain)).sum * 100)).1
    rw [hrow]
    simp only [hne, if_false]
    linarith [h9.1]

theorem usable_of_drawn {r : List ℕ} (hall : ∀ x ∈ r, 0 < x) (hr : r ≠ []) {n : ℕ} {ranges : List (ℚ × ℚ)} {m : Market} (hl : r.length ≤ ranges.length)
    (hrange : ∀ x ∈ ranges, 1 / 2 - MAX_VALUE ≤ x.1 ∧ x.1 ≤ x.2 ∧ (r.sum : ℚ) * (x.2 + 1 / 2) < MAX_VALUE)
    (hm : Drawn r n ranges m) : Usable r n (n * r.sum) m := by
  obtain ⟨h1, h2⟩ := hm
  have hb : ∀ c ∈ m.categories, ∀ v ∈ c.values, ∃ x ∈ ranges, x.1 - 1 / 2 ≤ v ∧ v ≤ x.2 + 1 / 2 := by
    intro c hc v hv
    obtain ⟨i, hi, rfl⟩ := List.getElem_of_mem hc
    refine ⟨ranges.getD i 0, ?_, ((h2 i hi).2 v hv).2⟩
    unfold Market.numCategories at h1
    rw [List.getD_eq_getElem?_getD, List.getElem?_eq_getElem (show i < ranges.length by omega)]
    exact List.getElem_mem _
  have hlen : 0 < r.length := List.length_pos_iff.2 hr
  have hc0 : 0 < m.categories.length := by unfold Market.numCategories at h1; omega
  refine ⟨h1.symm, ⟨0, hc0, ?_⟩, fun c hc v hv => ?_, fun c hc v hv => ?_, ?_⟩
  · rw [(h2 0 hc0).1]
    have h6 : 0 < r.getD 0 0 := by
      rw [List.getD_eq_getElem?_getD, List.getElem?_eq_getElem hlen]
      exact hall _ (List.getElem_mem _)
    rw [Nat.add_mul]
    omega
  · obtain ⟨x, hx, h3, h4⟩ := hb c hc v hv
    linarith [(hrange x hx).1]
  · obtain ⟨x, hx, h3, h4⟩ := hb c hc v hv
    exact lt_of_le_of_lt (mul_le_mul_of_nonneg_left h4 (by positivity)) (hrange x hx).2.2
  · have : m.valueLists.map List.length = r.map (fun x => n * x) := by
      refine List.ext_getElem (by simpa [Market.valueLists, Market.numCategories] using h1) fun i hi hi' => ?_
      have hi2 : i < m.categories.length := by simpa [Market.valueLists] using hi
      have hi3 : i < r.length := by simpa using hi'
      have h3 := (h2 i hi2).1
      rw [List.getD_eq_getElem?_getD, List.getElem?_eq_getElem hi3] at h3
      simpa [Market.valueLists, AgentCategory.size] using h3
    unfold Market.numAgents
    rw [this, List.sum_map_mul_left]
    simp

theorem rows_total {A : AuctionFunction} {r : List ℕ} {ranges : List (ℚ × ℚ)} {N : ℕ} (hN : N ≠ 0) {random : ℕ → ℕ → ℕ → ℕ → ℚ}
    (i : ℕ) (ns : List ℕ)
    (h : ∀ n ∈ ns, ∀ i j, ∃ m, randomMarket r n ranges (random i j) = .ok m ∧ ∃ x, Measured A r m x) :
    ∃ table, rows A r ranges N random i ns = .ok (some table) := by
  induction ns generalizing i with
  | nil => exact ⟨[], rfl⟩
  | cons n ns ih =>
    obtain ⟨rest, hrest⟩ := ih (i + 1) (fun n' hn' => h n' (by simp [hn']))
    have hit : ∀ N j s, ∃ s', iterations A r n ranges (random i) N j s = .ok (some s') := by
      intro N
      induction N with
      | zero => intro j s; exact ⟨s, rfl⟩
      | succ N ihN =>
        intro j s
        obtain ⟨m, hm, x, hx⟩ := h n (by simp) i j
        obtain ⟨s', hs'⟩ := ihN (j + 1) (s.add x)
        refine ⟨s', ?_⟩
        have ha := (addMarket_iff (s := s)).2 ⟨x, hx, rfl⟩
        unfold iterations
        simp only [hm, ha, bind, Except.bind, hs']
    obtain ⟨s, hs⟩ := hit N 0 ⟨0, 0, 0, 0, 0⟩
    obtain ⟨row, hrow⟩ := mkRow_total (n := n) hN s
    refine ⟨row :: rest, ?_⟩
    unfold rows
    simp only [hs, hrow, hrest, bind, Except.bind]

theorem experiment_of_fine {A : AuctionFunction} {r : List ℕ} {ranges : List (ℚ × ℚ)} {ns : List ℕ} {N : ℕ}
    {random : ℕ → ℕ → ℕ → ℕ → ℚ} (hs : Sensible r ranges ns N random) (E : Measurement → Prop)
    (hfine : ∀ n ∈ ns, ∀ m, Usable r n (n * r.sum) m → ∃ x, Measured A r m x ∧ Fine n x ∧ E x) :
    ∃ table, experiment A r ranges ns N random = .ok (some table) ∧ ∃ hl : table.length = ns.length, ∀ i (hi : i < ns.length),
      AsPredicted table[i] ∧
      ((∀ x, E x → x.marketGain = x.gain) →
        table[i].meanAuctionMarketGft = table[i].meanAuctionTotalGft ∧ table[i].marketGftRatio = table[i].totalGftRatio) ∧
      ∀ k, 0 < k → AtLeast k r ranges ns[i] N (random i) → 0 < table[i].meanOptimalGft →
        (1 - 1 / (k : ℚ)) * 100 - 1 / 200 ≤ table[i].totalGftRatio := by
  have hm : ∀ n ∈ ns, ∀ i j, ∃ m, randomMarket r n ranges (random i j) = .ok m ∧ ∃ x, Measured A r m x ∧ Fine n x ∧ E x := by
    intro n hn i j
    obtain ⟨m, h1, h2⟩ := random_market (n := n) (random := random i j) hs.recipe hs.enough (fun x hx => (hs.range x hx).2.1)
      (fun c a => hs.unit i j c a)
    exact ⟨m, h1, hfine n hn m (usable_of_drawn hs.positive hs.recipe hs.enough hs.range h2)⟩
  obtain ⟨table, htab⟩ := rows_total (A := A) (r := r) (ranges := ranges) (random := random) hs.some.ne' 0 ns
    (fun n hn i j => by obtain ⟨m, h1, x, h2, -⟩ := hm n hn i j; exact ⟨m, h1, x, h2⟩)
  obtain ⟨hl, hall⟩ := (rows_iff 0 ns table).1 htab
  refine ⟨table, htab, hl, fun i hi => ?_⟩
  obtain ⟨s, hsi, hrow⟩ := hall i hi
  obtain ⟨xs, hx, hmx, rfl⟩ := (iterations_iff _ _ _ _).1 hsi
  have hxs : ∀ x ∈ xs, (Fine ns[i] x ∧ E x) ∧ ∃ j < N, ∃ m, randomMarket r ns[i] ranges (random i j) = .ok m ∧ Measured A r m x := by
    intro x hxm
    obtain ⟨j, hj, rfl⟩ := List.getElem_of_mem hxm
    obtain ⟨m, h1, h2⟩ := hmx j hj
    simp only [Nat.zero_add] at h1
    obtain ⟨m', h1', y, h2', h3⟩ := hm ns[i] (List.getElem_mem hi) i j
    rw [h1] at h1'
    obtain rfl := Except.ok.inj h1'
    obtain rfl := measured_unique h2 h2'
    exact ⟨h3, j, by omega, m, h1, h2⟩
  obtain ⟨a1, a2, a3⟩ := row_as_predicted hx (fun x hxm => (hxs x hxm).1.1) hrow
  refine ⟨a1, fun hE => a2 fun x hxm => hE x (hxs x hxm).1.2, fun k hk hat hG => a3 k hk (fun x hxm => ?_) hG⟩
  obtain ⟨-, j, hj, m, h1, opt, rem, t, ho, -, e1, -⟩ := hxs x hxm
  rw [e1]
  exact hat j hj m opt rem h1 ho

/-- **C66**. The experiment on the ascending auction: whatever the generator returns, it fills the table and every row is as theory
predicts; what the traders gain is the whole gain (the auction is strongly budget balanced); and if every optimal trade has at least
`k` deals, the ratio of the gains is at least `1 - 1/k`, up to the rounding of the table. -/
theorem experiment_ascending {r : List ℕ} {ranges : List (ℚ × ℚ)} {ns : List ℕ} {N fuel : ℕ} {random : ℕ → ℕ → ℕ → ℕ → ℚ}
    (hs : Sensible r ranges ns N random) (hf : ∀ n ∈ ns, n * r.sum < fuel) :
    ∃ table, experiment (fun m r => auction m r fuel) r ranges ns N random = .ok (some table) ∧
      ∃ hl : table.length = ns.length, ∀ i (hi : i < ns.length),
      AsPredicted table[i] ∧ table[i].meanAuctionMarketGft = table[i].meanAuctionTotalGft ∧
      table[i].marketGftRatio = table[i].totalGftRatio ∧
      ∀ k, 0 < k → AtLeast k r ranges ns[i] N (random i) → 0 < table[i].meanOptimalGft →
        (1 - 1 / (k : ℚ)) * 100 - 1 / 200 ≤ table[i].totalGftRatio := by
  obtain ⟨table, h1, hl, h2⟩ := experiment_of_fine (A := fun m r => auction m r fuel) hs (fun x => x.marketGain = x.gain)
    (fun n hn m hm => ascending_fine hs.positive hs.recipe hm (hs.agents n hn) (hf n hn))
  refine ⟨table, h1, hl, fun i hi => ?_⟩
  obtain ⟨a, b, c⟩ := h2 i hi
  exact ⟨a, (b fun _ h => h).1, (b fun _ h => h).2, c⟩

/-- **C66**. The same for trade reduction by external competition. -/
theorem experiment_trade_reduction {r : List ℕ} {ranges : List (ℚ × ℚ)} {ns : List ℕ} {N : ℕ} {random : ℕ → ℕ → ℕ → ℕ → ℚ}
    (hs : Sensible r ranges ns N random) :
    ∃ table, experiment (fun m r => (tradeReduction m r).map some) r ranges ns N random = .ok (some table) ∧
      ∃ hl : table.length = ns.length, ∀ i (hi : i < ns.length),
      AsPredicted table[i] ∧ table[i].meanAuctionMarketGft = table[i].meanAuctionTotalGft ∧
      table[i].marketGftRatio = table[i].totalGftRatio ∧
      ∀ k, 0 < k → AtLeast k r ranges ns[i] N (random i) → 0 < table[i].meanOptimalGft →
        (1 - 1 / (k : ℚ)) * 100 - 1 / 200 ≤ table[i].totalGftRatio := by
  obtain ⟨table, h1, hl, h2⟩ := experiment_of_fine (A := fun m r => (tradeReduction m r).map some) hs (fun x => x.marketGain = x.gain)
    (fun n hn m hm => trade_reduction_fine hs.positive hs.recipe hm (hs.agents n hn))
  refine ⟨table, h1, hl, fun i hi => ?_⟩
  obtain ⟨a, b, c⟩ := h2 i hi
  exact ⟨a, (b fun _ h => h).1, (b fun _ h => h).2, c⟩

/-- **C66**. McAfee's protocol, with two categories or without its price heuristic: as predicted, with the same bound on the ratio of
the gains; the traders may get less than the whole gain. -/
theorem experiment_mcafee {c : ℕ} {b : Bool} (hcase : b = false ∨ c = 2) {ranges : List (ℚ × ℚ)} {ns : List ℕ} {N : ℕ}
    {random : ℕ → ℕ → ℕ → ℕ → ℚ} (hs : Sensible (List.replicate c 1) ranges ns N random) :
    ∃ table, experiment (fun m r => (mcafeeTradeReduction m r b).map some) (List.replicate c 1) ranges ns N random = .ok (some table) ∧
      ∃ hl : table.length = ns.length, ∀ i (hi : i < ns.length), AsPredicted table[i] ∧
      ∀ k, 0 < k → AtLeast k (List.replicate c 1) ranges ns[i] N (random i) → 0 < table[i].meanOptimalGft →
        (1 - 1 / (k : ℚ)) * 100 - 1 / 200 ≤ table[i].totalGftRatio := by
  have hc : 0 < c := by
    rcases Nat.eq_zero_or_pos c with h | h
    · exact absurd (by rw [h]; rfl) hs.recipe
    · exact h
  obtain ⟨table, h1, hl, h2⟩ := experiment_of_fine (A := fun m r => (mcafeeTradeReduction m r b).map some) hs (fun _ => True)
    (fun n hn m hm => by obtain ⟨x, h1, h2⟩ := mcafee_fine hc hcase hm; exact ⟨x, h1, h2, trivial⟩)
  exact ⟨table, h1, hl, fun i hi => ⟨(h2 i hi).1, (h2 i hi).2.2⟩⟩

/-! ## What the table does not say -/

/-- Two iterations with three buyers and three sellers: one valuable deal that every auction loses, and three deals of gain 1. -/
def badDraw : ℕ → ℕ → ℕ → ℕ → ℚ := fun _ j c a =>
  (((([[[500, 499, 499], [-1, -1000, -1000]], [[10, 10, 10], [-9, -9, -9]]] : List (List (List ℚ))).getD j []).getD c []).getD a 0
    - (if c = 0 then 1 else -1000)) / 999

/-- The ratio of the gains over the ratio predicted from the MEAN number of optimal deals `k` (`experiment.py:20-22`). -/
def shortOf (t : Py (Option (List Row))) : Option (ℚ × ℚ) :=
  match t with
  | .ok (some [row]) => some (row.meanOptimalCount, row.totalGftRatio)
  | _ => none

/-- **C66**. The claim at the top of `experiment.py`, that the ratio of the gains is at least `1 - 1/k` for the mean `k` of the row, does not
hold: with `k = 2` the ratio can be 0.4%, for each of the three auctions. (The bound holds for the smallest `k` of the row.) -/
theorem experiment_mean_bound_fails :
    shortOf (experiment (fun m r => auction m r 100) [1, 1] [(1, 1000), (-1000, -1)] [3] 2 badDraw) = some (2, 2 / 5) ∧
    shortOf (experiment (fun m r => (tradeReduction m r).map some) [1, 1] [(1, 1000), (-1000, -1)] [3] 2 badDraw) = some (2, 2 / 5) ∧
    shortOf (experiment (fun m r => (mcafeeTradeReduction m r).map some) [1, 1] [(1, 1000), (-1000, -1)] [3] 2 badDraw)
      = some (2, 2 / 5) := by
  decide +kernel

/-- **C65**. No iterations: `ZeroDivisionError`, unless there is no row. -/
theorem experiment_no_iterations (A : AuctionFunction) (r : List ℕ) (ranges : List (ℚ × ℚ)) (n : ℕ) (ns : List ℕ)
    (random : ℕ → ℕ → ℕ → ℕ → ℚ) : experiment A r ranges (n :: ns) 0 random = .error .zeroDivisionError := by
  simp [experiment, rows, iterations, mkRow, pyDiv, bind, Except.bind]

/-- **C65**. A recipe with a zero: the category has no agents, and the experiment breaks with `ZeroDivisionError` when the auction makes
a deal. -/
theorem experiment_zero_entry :
    experiment (fun m r => auction m r 100) [1, 1, 0] [(1, 1000), (-1000, -1), (-1000, -1)] [3] 2 badDraw
      = .error .zeroDivisionError := by
  decide +kernel

/-- The hypotheses are met by the parameters of `mcafee_experiment.py`. -/
example : Sensible [1, 1] [(1, 1000), (-1000, -1)] [2, 3, 4, 5, 10] 500 (fun _ _ _ _ => 1 / 3) := by
  refine ⟨by simp, ?_, ?_, ?_, ?_, ?_, ?_⟩ <;> norm_num [MAX_VALUE]

/-- The bad draws are sensible too. -/
example : ∀ j < 2, ∀ c < 2, ∀ a < 3, 0 ≤ badDraw 0 j c a ∧ badDraw 0 j c a ≤ 1 := by
  decide +kernel

end Auctions.Props
