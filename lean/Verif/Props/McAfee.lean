import Verif.Proofs.McAfee
import Verif.Props.AscendingGain
import Verif.Props.AscendingTruthful

set_option autoImplicit false

/-! # C23–C25, C46, C47: McAfee's protocol -/

namespace Auctions.Props

open Auctions Spec McAfee Ascending

theorem getD_lt {l : List ℚ} {i : ℕ} (h : i < l.length) : l.getD i 0 = l[i] := by simp [h]

theorem good_price {c : ℚ} {l : List ℚ} (h : isPriceGoodForPs c l = true) :
    ∀ x ∈ l, c * (if x < 0 then -1 else 1) ≤ x := by
  induction l with
  | nil => simp
  | cons y l ih =>
    simp only [isPriceGoodForPs] at h
    split at h
    · simp at h
    · split at h
      · simp at h
      · rename_i h1 h2
        intro x hx
        rcases List.mem_cons.1 hx with rfl | hx
        · by_cases hx0 : x < 0
          · simp only [hx0, if_true]
            have : ¬ (-c > x) := fun hh => h2 ⟨le_of_lt hx0, hh⟩
            linarith
          · simp only [hx0, if_false]
            have : ¬ (c > x) := fun hh => h1 ⟨by linarith, hh⟩
            linarith
        · exact ih h x hx

theorem blk_ones_getD {m : Market} {r : List ℕ} (hr : r = List.replicate m.numCategories 1) {j i : ℕ}
    (hav : Avail m.sorted r j) (hi : i < m.numCategories) :
    (blk m.sorted r j).getD i 0 = (vAt m.sorted i).getD j 0 ∧ j < (vAt m.sorted i).length := by
  have hi' : i < m.sorted.length := by rw [m.sorted_length]; exact hi
  constructor
  · rw [blk_ones (by rw [m.sorted_length]; exact hr) hav]
    simp [hi']
  · have := hav i hi'
    rw [hr] at this
    simp [rAt, hi] at this
    omega

/-- **C23**. Every agent of the trade returned by McAfee's protocol (with or without the price heuristic) has a value at least
the price of its category. -/
theorem mcafee_individually_rational {m : Market} {r : List ℕ} {h : Bool} {t : TradeWithSinglePrice}
    (ht : mcafeeTradeReduction m r h = .ok t) :
    ∃ p, t.prices = some p ∧ p.length = m.numCategories ∧
      ∀ i, ∀ v ∈ (t.categories.map AgentCategory.values).getD i [], p.getD i 0 ≤ v := by
  obtain ⟨hr, hcat⟩ := mcafee_ok_inv ht
  obtain ⟨k, d, p, hk, -, hres, he⟩ := mcafee_eq hr hcat h
  rw [he] at ht
  simp only [Except.ok.injEq] at ht
  subst ht
  have hmem : ∀ i v, v ∈ ((mkMarket m.sorted (fun _ => d)).categories.map AgentCategory.values).getD i [] →
      i < m.numCategories ∧ v ∈ (vAt m.sorted i).take d := by
    intro i v hv
    rw [getD_values, vAt_mkMarket] at hv
    refine ⟨?_, hv⟩
    by_contra hi
    rw [vAt_of_ge (by rw [m.sorted_length]; omega)] at hv
    simp at hv
  have hge : ∀ i v j, v ∈ (vAt m.sorted i).take d → d ≤ j + 1 → j < (vAt m.sorted i).length →
      (vAt m.sorted i).getD j 0 ≤ v := by
    intro i v j hv hd hj
    obtain ⟨n, hn, rfl⟩ := List.getElem_of_mem hv
    simp only [List.length_take, lt_min_iff] at hn
    simp only [List.getElem_take]
    rw [getD_lt hj]
    apply (sorted_vAt m i).getElem_ge; omega
  refine ⟨p, rfl, ?_, ?_⟩
  · cases hres with
    | none h0 => simp
    | full h0 h1 h2 => simp
    | reduced h0 h1 =>
      rw [blk_ones_length (by rw [m.sorted_length]; exact hr) (hk.taken (k - 1) (by omega)).1, m.sorted_length]
  · intro i v hv
    obtain ⟨hi, hv'⟩ := hmem i v hv
    clear hv
    rename' hv' => hv
    cases hres with
    | none h0 => simp at hv
    | full h0 h1 h2 =>
      obtain ⟨hb, hlt⟩ := blk_ones_getD hr (hk.taken (k - 1) (by omega)).1 hi
      have hbl : (blk m.sorted r (k - 1)).length = m.numCategories := by
        rw [blk_ones_length (by rw [m.sorted_length]; exact hr) (hk.taken (k - 1) (by omega)).1, m.sorted_length]
      have hp := good_price h2 ((blk m.sorted r (k - 1)).getD i 0) (by
        rw [getD_lt (by omega)]; exact List.getElem_mem _)
      have hpi : ((List.range m.numCategories).map
        (fun i => candidate m r k * (if (blk m.sorted r (k - 1)).getD i 0 < 0 then -1 else 1))).getD i 0
          = candidate m r k * (if (blk m.sorted r (k - 1)).getD i 0 < 0 then -1 else 1) := by simp [hi]
      rw [hpi]
      refine le_trans hp ?_
      rw [hb]
      exact hge i v (k - 1) hv (by omega) hlt
    | reduced h0 h1 =>
      obtain ⟨hb, hlt⟩ := blk_ones_getD hr (hk.taken (k - 1) (by omega)).1 hi
      rw [hb]
      exact hge i v (k - 1) hv (by omega) hlt

/-- **C24**, number of deals and identity of the traders. McAfee's protocol makes `k` or `k-1` deals, `k` being the number of deals
of the optimal trade (`k-1`, or 0 when `k = 0`, without the heuristic). In each category the traders are the same number of agents,
namely the highest ones. -/
theorem mcafee_deals {m : Market} {r : List ℕ} {h : Bool} {t : TradeWithSinglePrice} {opt : TradeWithMaterialBalance}
    {rem : Market} (ht : mcafeeTradeReduction m r h = .ok t) (hopt : m.optimalTrade r = .ok (opt, rem)) :
    t.numOfDeals ≤ opt.numOfDeals ∧ opt.numOfDeals ≤ t.numOfDeals + 1 ∧
    (h = false → t.numOfDeals = opt.numOfDeals - 1) ∧
    t.categories.map AgentCategory.name = m.categories.map AgentCategory.name ∧
    ∀ i < m.numCategories, SortedDesc ((t.categories.map AgentCategory.values).getD i []) ∧
      IsTop t.numOfDeals ((t.categories.map AgentCategory.values).getD i []) (m.valueLists.getD i []) := by
  obtain ⟨hr, hcat⟩ := mcafee_ok_inv ht
  obtain ⟨k, d, p, hk, ho, hres, he⟩ := mcafee_eq hr hcat h
  rw [he] at ht
  rw [ho] at hopt
  simp only [Except.ok.injEq, Prod.mk.injEq] at ht hopt
  obtain ⟨rfl, rfl⟩ := hopt
  subst ht
  have hnum : TradeWithMaterialBalance.numOfDeals ⟨((List.range k).map (blk m.sorted r)).reverse⟩ = k := by
    simp [TradeWithMaterialBalance.numOfDeals]
  rw [hnum]
  simp only [TradeWithSinglePrice.numOfDeals]
  have hd : d ≤ k ∧ k ≤ d + 1 ∧ (h = false → d = k - 1) := by
    cases hres with
    | none h0 => subst h0; simp
    | full h0 h1 h2 => exact ⟨le_refl _, by omega, fun hh => by simp [hh] at h1⟩
    | reduced h0 h1 => exact ⟨by omega, by omega, fun _ => rfl⟩
  refine ⟨hd.1, hd.2.1, hd.2.2, ?_, ?_⟩
  · unfold mkMarket Market.sorted
    apply List.ext_getElem <;> simp [AgentCategory.clone, AgentCategory.init]
  · intro i hi
    rw [getD_values, vAt_mkMarket]
    refine ⟨(sorted_vAt m i).take d, ?_⟩
    have hlen : d ≤ (vAt m.sorted i).length := by
      rcases Nat.eq_zero_or_pos k with h0 | h0
      · omega
      · have := (blk_ones_getD hr (hk.taken (k - 1) (by omega)).1 hi).2
        omega
    have := AgentCategory.isTop_take (sorted_vAt m i) hlen
    rw [vAt_sorted] at this ⊢
    rw [sortDesc_coe] at this
    exact this.1

theorem mcafee_trade_gain {m : Market} {r : List ℕ} (hr : r = List.replicate m.numCategories 1) {d : ℕ} {p : List ℚ}
    (hpl : p.length = m.numCategories) (hd : ∀ i < m.numCategories, d ≤ (vAt m.sorted i).length) :
    TradeWithSinglePrice.gainFromTrade ⟨(mkMarket m.sorted (fun _ => d)).categories, r, some p, d⟩ true
      = .ok (∑ j ∈ Finset.range d, (blk m.sorted r j).sum) := by
  rcases Nat.eq_zero_or_pos d with hd0 | hd0
  · subst hd0; rfl
  have hl : r.length = m.sorted.length := by rw [m.sorted_length, hr]; simp
  have hsz : ∀ i < m.sorted.length, (vAt (mkMarket m.sorted (fun _ => d)).categories i).length = d := by
    intro i hi
    rw [vAt_mkMarket, List.length_take]
    exact min_eq_left (hd i (by rw [← m.sorted_length]; exact hi))
  have hne : ∀ c ∈ (mkMarket m.sorted (fun _ => d)).categories, c.values ≠ [] := by
    intro c hc
    obtain ⟨i, hi, rfl⟩ := List.getElem_of_mem hc
    have hi' := hi
    rw [mkMarket_length] at hi
    have := hsz i hi
    rw [vAt_eq_getElem hi'] at this
    intro hnil
    rw [hnil] at this
    simp at this; omega
  have hd0' : d ≠ 0 := by omega
  unfold TradeWithSinglePrice.gainFromTrade
  simp only [hd0', if_false]
  rw [gftLoop_eq _ true rfl _ 0 (by simp [mkMarket_length, hl]) (by simp [mkMarket_length, hpl, m.sorted_length]) hne]
  simp only [Except.ok.injEq, mkMarket_length, zero_add, if_true, sub_zero]
  simp only [blk_sum hl]
  rw [Finset.sum_comm]
  refine Finset.sum_congr rfl fun i hi => ?_
  have hi := Finset.mem_range.1 hi
  have h1 : rAt r i = 1 := by rw [hr]; simp [rAt, (show i < m.numCategories by rw [← m.sorted_length]; exact hi)]
  rw [hsz i hi, vAt_mkMarket, h1, seg_sums]
  have : (d : ℚ) ≠ 0 := by exact_mod_cast hd0'
  simp [this]

theorem prefix_average {f : ℕ → ℚ} {k : ℕ} (hf : ∀ j j', j ≤ j' → j' < k → f j' ≤ f j) (hk : 0 < k) :
    (1 - 1 / (k : ℚ)) * ∑ j ∈ Finset.range k, f j ≤ ∑ j ∈ Finset.range (k - 1), f j := by
  obtain ⟨n, rfl⟩ : ∃ n, k = n + 1 := ⟨k - 1, by omega⟩
  simp only [Nat.add_sub_cancel]
  rw [Finset.sum_range_succ]
  have h1 : (n : ℚ) * f n ≤ ∑ j ∈ Finset.range n, f j := by
    have : ∑ j ∈ Finset.range n, f n ≤ ∑ j ∈ Finset.range n, f j :=
      Finset.sum_le_sum fun j hj => hf j n (le_of_lt (Finset.mem_range.1 hj)) (by omega)
    simpa using this
  have hpos : (0 : ℚ) < (n : ℚ) + 1 := by positivity
  have : (1 - 1 / ((n + 1 : ℕ) : ℚ)) = n / (n + 1) := by push_cast; field_simp; ring
  rw [this, div_mul_eq_mul_div, div_le_iff₀ hpos]
  nlinarith

/-- **C24**, gain. `gain_from_trade()` of the trade returned by McAfee's protocol is defined, at most the gain of the optimal trade, and at
least `(1 - 1/k)` of it, `k > 0` being the number of optimal deals. -/
theorem mcafee_gain {m : Market} {r : List ℕ} {h : Bool} {t : TradeWithSinglePrice} {opt : TradeWithMaterialBalance}
    {rem : Market} (ht : mcafeeTradeReduction m r h = .ok t) (hopt : m.optimalTrade r = .ok (opt, rem)) :
    ∃ g, t.gainFromTrade = .ok g ∧ g ≤ opt.gainFromTrade ∧
      (0 < opt.numOfDeals → (1 - 1 / (opt.numOfDeals : ℚ)) * opt.gainFromTrade ≤ g) := by
  obtain ⟨hr, hcat⟩ := mcafee_ok_inv ht
  obtain ⟨p', hp', hpl', -⟩ := mcafee_individually_rational ht
  obtain ⟨k, d, p, hk, ho, hres, he⟩ := mcafee_eq hr hcat h
  rw [he] at ht
  rw [ho] at hopt
  simp only [Except.ok.injEq, Prod.mk.injEq] at ht hopt
  obtain ⟨rfl, rfl⟩ := hopt
  subst ht
  obtain rfl : p = p' := by simpa using hp'
  have hl : r.length = m.numCategories := by rw [hr]; simp
  have hnum : TradeWithMaterialBalance.numOfDeals ⟨((List.range k).map (blk m.sorted r)).reverse⟩ = k := by
    simp [TradeWithMaterialBalance.numOfDeals]
  have hd : d = k ∨ d = k - 1 := by
    cases hres with
    | none h0 => left; exact h0.symm
    | full h0 h1 h2 => left; rfl
    | reduced h0 h1 => right; rfl
  have hlen : ∀ i < m.numCategories, d ≤ (vAt m.sorted i).length := by
    intro i hi
    rcases Nat.eq_zero_or_pos k with h0 | h0
    · omega
    · have := (blk_ones_getD hr (hk.taken (k - 1) (by omega)).1 hi).2
      omega
  have hnn : ∀ j < k, 0 ≤ (blk m.sorted r j).sum := fun j hj => by
    have := (hk.taken j hj).2
    unfold Good at this; push Not at this; exact this.1
  refine ⟨_, mcafee_trade_gain hr hpl' hlen, ?_, ?_⟩
  · rw [gain_blks]
    refine Finset.sum_le_sum_of_subset_of_nonneg (fun j hj => ?_) (fun j hj _ => hnn j (Finset.mem_range.1 hj))
    rw [Finset.mem_range] at hj ⊢
    omega
  · rw [hnum, gain_blks]
    intro hk0
    have hanti : ∀ j j', j ≤ j' → j' < k → (blk m.sorted r j').sum ≤ (blk m.sorted r j).sum :=
      fun j j' hj hj' => blk_antitone hl hj (hk.taken j' hj').1
    have hav := prefix_average hanti hk0
    rcases hd with rfl | rfl
    · refine le_trans hav ?_
      exact Finset.sum_le_sum_of_subset_of_nonneg (fun j hj => by rw [Finset.mem_range] at hj ⊢; omega)
        (fun j hj _ => hnn j (Finset.mem_range.1 hj))
    · exact hav

/-- **C25**. Without the heuristic, or in a market with two categories, the prices of McAfee's protocol have a non-negative sum: the auctioneer
never pays. -/
theorem mcafee_no_deficit {m : Market} {r : List ℕ} {h : Bool} {t : TradeWithSinglePrice}
    (ht : mcafeeTradeReduction m r h = .ok t) (hcase : h = false ∨ m.numCategories = 2) :
    ∃ p, t.prices = some p ∧ 0 ≤ recipeSum r p := by
  obtain ⟨hr, hcat⟩ := mcafee_ok_inv ht
  obtain ⟨k, d, p, hk, ho, hres, he⟩ := mcafee_eq hr hcat h
  rw [he] at ht
  simp only [Except.ok.injEq] at ht
  subst ht
  refine ⟨p, rfl, ?_⟩
  have hsum : ∀ q : List ℚ, q.length = m.numCategories → recipeSum r q = q.sum := by
    intro q hq
    rw [hr, ← hq]
    clear hr hq hres he
    induction q with
    | nil => simp
    | cons x q ih => rw [List.length_cons, List.replicate_succ, recipeSum_cons, ih]; simp
  have hlast : 0 < k → 0 ≤ (blk m.sorted r (k - 1)).sum ∧ (blk m.sorted r (k - 1)).length = m.numCategories := by
    intro h0
    have hh := hk.taken (k - 1) (by omega)
    refine ⟨?_, by rw [blk_ones_length (by rw [m.sorted_length]; exact hr) hh.1, m.sorted_length]⟩
    have := hh.2
    unfold Good at this; push Not at this; exact this.1
  cases hres with
  | none h0 => rw [hsum _ (by simp)]; simp
  | reduced h0 h1 => rw [hsum _ (hlast h0).2]; exact (hlast h0).1
  | full h0 h1 h2 =>
    rcases hcase with hc | hc
    · simp [hc] at h1
    · rw [hsum _ (by simp), hc]
      obtain ⟨hs, hl⟩ := hlast h0
      have hcand : 0 ≤ candidate m r k := by
        unfold candidate
        refine div_nonneg (List.sum_nonneg ?_) (by positivity)
        intro x hx
        obtain ⟨y, -, rfl⟩ := List.mem_map.1 hx
        exact abs_nonneg y
      generalize blk m.sorted r (k - 1) = q at *
      rw [hc] at hl
      obtain ⟨x, y, rfl⟩ := List.length_eq_two.1 hl
      simp only [List.sum_cons, List.sum_nil, add_zero] at hs
      simp only [List.range_succ, List.range_zero, List.nil_append, List.cons_append, List.map_cons, List.map_nil, List.sum_cons,
        List.sum_nil, add_zero, List.getD_cons_zero, List.getD_cons_succ]
      by_cases hx : x < 0 <;> by_cases hy : y < 0 <;> simp only [hx, hy, if_true, if_false] <;> linarith

/-- **C25**, the limit of the guarantee: with three categories and the heuristic, the auctioneer can run a deficit on a trade that
takes place. -/
theorem mcafee_deficit_witness :
    ∃ t p, mcafeeTradeReduction ⟨[⟨"buyer", [9, 4]⟩, ⟨"seller", [-1, -3]⟩, ⟨"mediator", [-1, -2]⟩]⟩ [1, 1, 1] true = .ok t ∧
      0 < t.numOfDeals ∧ t.prices = some p ∧ recipeSum [1, 1, 1] p < 0 := by
  refine ⟨⟨[⟨"buyer", [9]⟩, ⟨"seller", [-1]⟩, ⟨"mediator", [-1]⟩], [1, 1, 1], some [3, -3, -3], 1⟩, [3, -3, -3], ?_⟩
  decide +kernel

theorem greedy_unique {m : Market} {r : List ℕ} {n : ℕ} {z : Bool} {k k' : ℕ} (h : GreedyStop m r n z k)
    (h' : GreedyStop m r n z k') : k = k' := by
  have key : ∀ a b, GreedyStop m r n z a → GreedyStop m r n z b → ¬ a < b := by
    intro a b ha hb hlt
    have := hb.le_max
    rcases ha.stop (by omega) with h1 | h1
    · exact h1 (hb.taken a hlt).1
    · exact h1 (hb.taken a hlt).2
  have := key k k' h h'
  have := key k' k h' h
  omega

theorem blk_congr {cs ct : List AgentCategory} {r : List ℕ} (hr : r = List.replicate cs.length 1) (hl : ct.length = cs.length)
    {j₀ j : ℕ} (hj : j₀ ≤ j) (hd : ∀ i, (vAt ct i).drop j₀ = (vAt cs i).drop j₀) (hav : Avail cs r j) (hav' : Avail ct r j) :
    blk ct r j = blk cs r j := by
  rw [blk_ones hr hav, blk_ones (by rw [hl]; exact hr) hav', hl]
  apply List.map_congr_left
  intro i _
  have h1 : ∀ V : List ℚ, V.getD j 0 = (V.drop j₀).getD (j - j₀) 0 := by
    intro V; simp only [List.getD, List.getElem?_drop]; rw [show j₀ + (j - j₀) = j by omega]
  rw [h1, hd, ← h1]

/-- **C46**. Without the heuristic McAfee's protocol is truthful: an agent with true value `v` gets from reporting `v` at least the utility
it gets from any other report `b`, and never a negative utility. -/
theorem mcafee_truthful {m : Market} {r : List ℕ} {i : ℕ} {v b : ℚ} {tT tB : TradeWithSinglePrice}
    (hT : mcafeeTradeReduction (withAgent m i v) r false = .ok tT)
    (hB : mcafeeTradeReduction (withAgent m i b) r false = .ok tB) :
    utility tB i v b ≤ utility tT i v v ∧ 0 ≤ utility tT i v v := by
  have hir := mcafee_individually_rational hT
  obtain ⟨hr, hcat⟩ := mcafee_ok_inv hT
  obtain ⟨hrB, hcatB⟩ := mcafee_ok_inv hB
  set mT := withAgent m i v with hmT
  set mB := withAgent m i b with hmB
  have hn : mT.numCategories = mB.numCategories := by rw [hmT, hmB, withAgent_length, withAgent_length]
  have hnm : mB.numCategories = m.numCategories := withAgent_length ..
  obtain ⟨kT, dT, pT, hkT, -, hresT, heT⟩ := mcafee_eq hr hcat false
  obtain ⟨kB, dB, pB, hkB, -, hresB, heB⟩ := mcafee_eq hrB hcatB false
  rw [heT] at hT
  rw [heB] at hB
  simp only [Except.ok.injEq] at hT hB
  subst hT hB
  have hnonneg : 0 ≤ utility ⟨(mkMarket mT.sorted (fun _ => dT)).categories, r, some pT, dT⟩ i v v := by
    rw [utility_outcome]
    split_ifs with hmem
    · obtain ⟨p, hp, -, hle⟩ := hir
      obtain rfl : pT = p := by simpa using hp
      have := hle i v (by rw [getD_values, vAt_mkMarket]; exact hmem)
      refine mul_nonneg (div_nonneg ?_ ?_) (by linarith)
      · exact_mod_cast Nat.zero_le _
      · exact_mod_cast Nat.zero_le _
    · exact le_refl _
  refine ⟨?_, hnonneg⟩
  by_cases hpos : utility ⟨(mkMarket mB.sorted (fun _ => dB)).categories, r, some pB, dB⟩ i v b ≤ 0
  · exact le_trans hpos hnonneg
  apply le_of_eq
  rw [utility_outcome] at hpos
  by_cases hmem : b ∈ (vAt mB.sorted i).take dB
  swap
  · simp [hmem] at hpos
  rw [if_pos hmem] at hpos
  have hpv : pB.getD i 0 < v := by
    by_contra hge
    refine hpos (mul_nonpos_of_nonneg_of_nonpos (div_nonneg ?_ ?_) (by linarith))
    · exact_mod_cast Nat.zero_le _
    · exact_mod_cast Nat.zero_le _
  have hi : i < mB.sorted.length := by
    by_contra hge
    rw [vAt_of_ge (by omega)] at hmem
    simp at hmem
  have hi' : i < m.numCategories := by rw [mB.sorted_length] at hi; omega
  -- the misreporting run is a reduction
  obtain ⟨hk0, rfl, rfl⟩ : 0 < kB ∧ dB = kB - 1 ∧ pB = blk mB.sorted r (kB - 1) := by
    cases hresB with
    | none h0 => simp at hmem
    | full h0 h1 h2 => simp at h1
    | reduced h0 h1 => exact ⟨h0, rfl, rfl⟩
  have hd0 : 0 < kB - 1 := by
    rcases Nat.eq_zero_or_pos (kB - 1) with h0 | h0
    · rw [h0] at hmem; simp at hmem
    · exact h0
  have havB := (hkB.taken (kB - 1) (by omega)).1
  obtain ⟨hpB, hltB⟩ := blk_ones_getD hrB havB (show i < mB.numCategories by omega)
  rw [hpB, getD_lt hltB] at hpv
  set X := vAt m.categories i with hX
  have hVB : vAt mB.sorted i = sortDesc (b :: X) := by rw [vAt_sorted, vAt_withAgent_eq m b hi']
  have hVT : vAt mT.sorted i = sortDesc (v :: X) := by rw [vAt_sorted, vAt_withAgent_eq m v hi']
  have hoth : ∀ j, j ≠ i → vAt mT.sorted j = vAt mB.sorted j := by
    intro j hj
    rw [vAt_sorted, vAt_sorted, vAt_withAgent_ne m v hj, vAt_withAgent_ne m b hj]
  have hsi : kB - 1 ≤ X.length + 1 := by rw [hVB] at hltB; simp at hltB; omega
  have hmem' := hmem
  rw [hVB] at hmem'
  obtain ⟨hX1, hX2⟩ := drop_report hsi hmem'
  have hXdrop : (sortDesc X).drop (kB - 1 - 1) = (sortDesc (b :: X)).drop (kB - 1) := by
    conv_lhs => rw [hX1]
    rw [List.drop_append_of_le_length (by omega), List.drop_of_length_le (by omega), List.nil_append]
  obtain ⟨hT1, hT2⟩ := add_report (v := v) hd0 hsi (fun x hx => by
    rw [hXdrop, ← hVB] at hx
    obtain ⟨n, hn', rfl⟩ := List.getElem_of_mem hx
    refine le_trans ?_ hpv.le
    simp only [List.getElem_drop]
    apply (sorted_vAt mB i).getElem_ge; omega)
  rw [hXdrop] at hT2
  have hdrop : ∀ j, (vAt mT.sorted j).drop (kB - 1) = (vAt mB.sorted j).drop (kB - 1) := by
    intro j
    by_cases hj : j = i
    · subst hj; rw [hVT, hVB, hT2]
    · rw [hoth j hj]
  have hsz : ∀ j, (vAt mT.sorted j).length = (vAt mB.sorted j).length := by
    intro j
    by_cases hj : j = i
    · subst hj; rw [hVT, hVB]; simp
    · rw [hoth j hj]
  have hcl : mT.sorted.length = mB.sorted.length := by rw [mT.sorted_length, mB.sorted_length, hn]
  have havT : ∀ t, Avail mT.sorted r t ↔ Avail mB.sorted r t := by
    intro t; unfold Avail; rw [hcl]; simp only [hsz]
  have hrB' : r = List.replicate mB.sorted.length 1 := by rw [mB.sorted_length]; exact hrB
  have hblk : ∀ t, kB - 1 ≤ t → Avail mB.sorted r t → blk mT.sorted r t = blk mB.sorted r t := fun t ht hav =>
    blk_congr hrB' hcl ht hdrop hav ((havT t).2 hav)
  have hstop : GreedyStop mT r 2000000 true kB := by
    refine ⟨hkB.le_max, fun t ht => ?_, fun hlt => ?_⟩
    · have hav := (havT t).2 (hkB.taken t ht).1
      refine ⟨hav, ?_⟩
      have h1 := blk_antitone (m := mT) (r := r) (by rw [hr]; simp) (show t ≤ kB - 1 by omega)
        ((havT (kB - 1)).2 havB)
      rw [hblk (kB - 1) (le_refl _) havB] at h1
      have h2 := (hkB.taken (kB - 1) (by omega)).2
      unfold Good at h2 ⊢
      push Not at h2 ⊢
      exact ⟨by linarith [h2.1], fun _ => by simp⟩
    · rcases hkB.stop hlt with h1 | h1
      · exact Or.inl (fun hh => h1 ((havT kB).1 hh))
      · by_cases hav : Avail mB.sorted r kB
        · right
          rw [hblk kB (by omega) hav]
          exact h1
        · exact Or.inl (fun hh => hav ((havT kB).1 hh))
  obtain rfl := greedy_unique hkT hstop
  obtain ⟨rfl, rfl⟩ : dT = kT - 1 ∧ pT = blk mT.sorted r (kT - 1) := by
    cases hresT with
    | none h0 => omega
    | full h0 h1 h2 => simp at h1
    | reduced h0 h1 => exact ⟨rfl, rfl⟩
  rw [utility_outcome, utility_outcome, if_pos hmem, hblk (kT - 1) (le_refl _) havB]
  have hvm : v ∈ (vAt mT.sorted i).take (kT - 1) := by rw [hVT, hT1, mem_sortDesc]; simp
  rw [if_pos hvm, List.length_take, List.length_take, hsz]

/-- **C47**. With the heuristic and three categories McAfee's protocol is not truthful: a buyer with true value 5 does not trade when
it reports 5, and trades with a positive utility when it reports 6. -/
theorem mcafee_heuristic_not_truthful :
    ∃ (m : Market) (tT tB : TradeWithSinglePrice),
      mcafeeTradeReduction (withAgent m 0 5) [1, 1, 1] true = .ok tT ∧
      mcafeeTradeReduction (withAgent m 0 6) [1, 1, 1] true = .ok tB ∧
      utility tT 0 5 5 = 0 ∧ 0 < utility tB 0 5 6 := by
  refine ⟨⟨[⟨"buyer", [4]⟩, ⟨"seller", [-3, -3]⟩, ⟨"mediator", [-3, -3]⟩]⟩,
    ⟨[⟨"buyer", []⟩, ⟨"seller", []⟩, ⟨"mediator", []⟩], [1, 1, 1], some [0, 0, 0], 0⟩,
    ⟨[⟨"buyer", [6]⟩, ⟨"seller", [-3]⟩, ⟨"mediator", [-3]⟩], [1, 1, 1], some [10/3, -10/3, -10/3], 1⟩, ?_⟩
  decide +kernel

/-- Non-vacuity of C46: a buyer with value 8 trades and gains when it tells the truth. -/
example :
    let m : Market := ⟨[⟨"buyer", [9, 7, 4]⟩, ⟨"seller", [-1, -2, -3, -6]⟩]⟩
    ∃ tT tB, mcafeeTradeReduction (withAgent m 0 8) [1, 1] false = .ok tT ∧
      mcafeeTradeReduction (withAgent m 0 5) [1, 1] false = .ok tB ∧ 0 < utility tT 0 8 8 ∧ utility tB 0 8 5 = 0 := by
  refine ⟨⟨[⟨"buyer", [9, 8]⟩, ⟨"seller", [-1, -2]⟩], [1, 1], some [7, -3], 2⟩,
    ⟨[⟨"buyer", [9, 7]⟩, ⟨"seller", [-1, -2]⟩], [1, 1], some [5, -3], 2⟩, ?_⟩
  decide +kernel

/-- Non-vacuity of C23–C25: a market with three optimal deals; the heuristic price 5 is accepted, so all three trade; without it, two. -/
example :
    mcafeeTradeReduction ⟨[⟨"buyer", [9, 8, 7, 4]⟩, ⟨"seller", [-1, -2, -3, -6]⟩]⟩ [1, 1] true
      = .ok ⟨[⟨"buyer", [9, 8, 7]⟩, ⟨"seller", [-1, -2, -3]⟩], [1, 1], some [5, -5], 3⟩ ∧
    mcafeeTradeReduction ⟨[⟨"buyer", [9, 8, 7, 4]⟩, ⟨"seller", [-1, -2, -3, -6]⟩]⟩ [1, 1] false
      = .ok ⟨[⟨"buyer", [9, 8]⟩, ⟨"seller", [-1, -2]⟩], [1, 1], some [7, -3], 2⟩ := by
  decide +kernel

end Auctions.Props
