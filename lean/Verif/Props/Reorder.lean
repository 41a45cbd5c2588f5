import Verif.Props.Ascending
import Verif.Props.McAfee
import Verif.Props.TradeReduction
import Verif.Proofs.Reorder

set_option autoImplicit false

/-!
# C85 — the order of the categories
-/

namespace Auctions.Props

open Auctions Spec Ascending Auctions.TradeReduction McAfee

/-- **C85**, optimal trade. With the categories in another order the deals are the same, with their agents in another order, and the same agents are left. -/
theorem optimal_reordered {m m' : Market} {r r' : List ℕ} (h : Reordered m r m' r') {N : ℕ} {z : Bool} {opt opt' : TradeWithMaterialBalance} {rem rem' : Market}
    (ho : m.optimalTrade r N z = .ok (opt, rem)) (ho' : m'.optimalTrade r' N z = .ok (opt', rem')) :
    opt'.numOfDeals = opt.numOfDeals ∧ opt'.gainFromTrade = opt.gainFromTrade ∧ List.Forall₂ List.Perm opt'.procurementSets opt.procurementSets ∧
      Reordered rem r rem' r' := by
  obtain ⟨h1, h2⟩ := optimalTrade_ok_inv ho
  obtain ⟨h1', h2'⟩ := optimalTrade_ok_inv ho'
  obtain ⟨k, hk, he⟩ := optimalTrade_eq h1 h2 N z
  obtain ⟨k', hk', he'⟩ := optimalTrade_eq h1' h2' N z
  obtain rfl : k' = k := greedy_unique (h.greedy hk') hk
  rw [he] at ho
  rw [he'] at ho'
  simp only [Except.ok.injEq, Prod.mk.injEq] at ho ho'
  obtain ⟨rfl, rfl⟩ := ho
  obtain ⟨rfl, rfl⟩ := ho'
  have hall : ∀ l : List ℕ, List.Forall₂ List.Perm (l.map (Auctions.blk m'.sorted r')) (l.map (Auctions.blk m.sorted r)) := by
    intro l
    induction l with
    | nil => exact .nil
    | cons x l ih => exact .cons (h.blk x) ih
  refine ⟨by simp [TradeWithMaterialBalance.numOfDeals], ?_, ?_, ?_, ?_, ?_⟩
  · unfold TradeWithMaterialBalance.gainFromTrade
    congr 1
    rw [← List.map_reverse, ← List.map_reverse, List.map_map, List.map_map]
    exact List.map_congr_left fun t _ => (h.blk t).sum_eq
  · simp only [← List.map_reverse]
    exact hall _
  · simp only
    rw [dropBlocks_length (by rw [m.sorted_length]; exact h.fits), m.sorted_length]
    exact h.fits
  · simp only
    rw [dropBlocks_length (by rw [m'.sorted_length]; exact h.fits'), m'.sorted_length]
    exact h.fits'
  · simp only
    rw [dropBlocks_zip, dropBlocks_zip]
    exact h.sorted.map _

/-- **C85**, ascending auction. With the categories in another order the number of deals changes by at most one. -/
theorem ascending_reordered {m m' : Market} {r r' : List ℕ} (h : Reordered m r m' r') {f₁ f₂ N₁ N₂ : ℕ} {t t' : TradeWithSinglePrice}
    (hv : ∀ c ∈ m.categories, ∀ v ∈ c.values, -MAX_VALUE ≤ v)
    (ht : auction m r f₁ N₁ = .ok (some t)) (ht' : auction m' r' f₂ N₂ = .ok (some t')) :
    t.numOfDeals ≤ t'.numOfDeals + 1 ∧ t'.numOfDeals ≤ t.numOfDeals + 1 := by
  obtain ⟨h1, h2, -⟩ := auction_ok_inv ht
  obtain ⟨h1', h2', -⟩ := auction_ok_inv ht'
  obtain ⟨k, hk, he⟩ := optimalTrade_eq h1 h2 (max m.numAgents m'.numAgents) true
  obtain ⟨k', hk', he'⟩ := optimalTrade_eq h1' h2' (max m.numAgents m'.numAgents) true
  obtain ⟨hd, -⟩ := optimal_reordered h he he'
  obtain ⟨a1, a2⟩ := ascending_loses_at_most_one_deal ht he (le_max_left _ _)
  obtain ⟨b1, b2⟩ := ascending_loses_at_most_one_deal ht' he' (le_max_right _ _)
  have a2 := a2 hv
  have b2 := b2 (fun c hc => hv c (h.categories.mem_iff.1 hc))
  omega

/-- **C85**, trade reduction. With the categories in another order the number of deals changes by at most one. -/
theorem trade_reduction_reordered {m m' : Market} {r r' : List ℕ} (h : Reordered m r m' r') {t t' : TradeWithSinglePrice} (hpos : ∃ x ∈ r, 0 < x)
    (hv : ∀ c ∈ m.categories, ∀ v ∈ c.values, -MAX_VALUE ≤ v) (hN : m.numAgents ≤ 2000000)
    (ht : tradeReduction m r = .ok t) (ht' : tradeReduction m' r' = .ok t') :
    t.numOfDeals ≤ t'.numOfDeals + 1 ∧ t'.numOfDeals ≤ t.numOfDeals + 1 := by
  obtain ⟨h1, h2⟩ := tr_ok_inv ht
  obtain ⟨h1', h2'⟩ := tr_ok_inv ht'
  obtain ⟨k, hk, he⟩ := optimalTrade_eq h1 h2 2000000 true
  obtain ⟨k', hk', he'⟩ := optimalTrade_eq h1' h2' 2000000 true
  obtain ⟨hd, -⟩ := optimal_reordered h he he'
  have hr : r'.Perm r := by
    have := h.same.map Prod.snd
    rwa [List.map_snd_zip (by rw [h.fits']), List.map_snd_zip (by rw [h.fits])] at this
  have hN' : m'.numAgents ≤ 2000000 := by
    have e : m'.numAgents = m.numAgents := by
      unfold Market.numAgents Market.valueLists
      exact ((h.categories.map _).map _).sum_eq
    rw [e]; exact hN
  obtain ⟨x, hx, hx0⟩ := hpos
  obtain ⟨a1, a2⟩ := trade_reduction_loses_at_most_one_deal ⟨x, hx, hx0⟩ hv hN ht he he
  obtain ⟨b1, b2⟩ := trade_reduction_loses_at_most_one_deal ⟨x, hr.mem_iff.2 hx, hx0⟩ (fun c hc => hv c (h.categories.mem_iff.1 hc)) hN' ht' he' he'
  omega

theorem blk_ones_map {m : Market} {r : List ℕ} (hr : r = List.replicate m.numCategories 1) {j : ℕ} (hav : Avail m.sorted r j) :
    Auctions.blk m.sorted r j = m.sorted.map (fun c => c.values.getD j 0) := by
  rw [blk_ones (by rw [m.sorted_length]; exact hr) hav]
  apply List.ext_getElem
  · simp
  · intro i h1 h2
    simp only [List.length_map, List.length_range] at h1
    simp only [List.getElem_map, List.getElem_range, vAt_eq_getElem h1]

/-- The average that McAfee's heuristic uses does not depend on the order. -/
theorem candidate_reordered {m m' : Market} {r r' : List ℕ} (h : Reordered m r m' r') (hr : r = List.replicate m.numCategories 1)
    (hr' : r' = List.replicate m'.numCategories 1) (k : ℕ) : candidate m' r' k = candidate m r k := by
  have e : ∀ (c : Market) (a : List ℕ), a = List.replicate c.numCategories 1 → (padEmpty ⟨dropBlocks c.sorted a k⟩).categories.zip a =
      (c.sorted.zip a).map (fun x => ((fun c : AgentCategory => if c.size = 0 then c.append (-MAX_VALUE) else c) { x.1 with values := x.1.values.drop (k * x.2) }, x.2)) := by
    intro c a _
    have := dropBlocks_zip c.sorted a k
    have h2 : ∀ (l : List AgentCategory) (f : AgentCategory → AgentCategory), (l.map f).zip a = (l.zip a).map (fun x => (f x.1, x.2)) := by
      intro l f
      rw [List.zip_map_left]
      rfl
    unfold padEmpty
    rw [h2, this, List.map_map]
    rfl
  unfold candidate
  congr 1
  · refine List.Perm.sum_eq (List.Perm.map _ ?_)
    rw [blk_flatMap, blk_flatMap, e m' r' hr', e m r hr]
    exact (h.sorted.map _).flatMap_right _
  · exact_mod_cast h.length

theorem isPriceGoodForPs_perm {p : ℚ} {l l' : List ℚ} (h : l'.Perm l) : isPriceGoodForPs p l' = isPriceGoodForPs p l := by
  have key : ∀ l : List ℚ, isPriceGoodForPs p l = true ↔ ∀ x ∈ l, ¬ (x ≥ 0 ∧ p > x) ∧ ¬ (x ≤ 0 ∧ -p > x) := by
    intro l
    induction l with
    | nil => simp [isPriceGoodForPs]
    | cons x l ih =>
      rw [List.forall_mem_cons, ← ih]
      by_cases h1 : x ≥ 0 ∧ p > x
      · simp [isPriceGoodForPs, h1]
      · by_cases h2 : x ≤ 0 ∧ -p > x
        · simp [isPriceGoodForPs, h1, h2]
        · simp [isPriceGoodForPs, h1, h2]
  rw [Bool.eq_iff_iff, key, key]
  exact ⟨fun h1 x hx => h1 x (h.mem_iff.2 hx), fun h1 x hx => h1 x (h.mem_iff.1 hx)⟩

/-- **C85**, McAfee's protocol. With the categories in another order the number of deals is the same, and so are the traders and the price of every category. -/
theorem mcafee_reordered {m m' : Market} {r r' : List ℕ} (h : Reordered m r m' r') {b : Bool} {t t' : TradeWithSinglePrice}
    (ht : mcafeeTradeReduction m r b = .ok t) (ht' : mcafeeTradeReduction m' r' b = .ok t') :
    t'.numOfDeals = t.numOfDeals ∧ ∃ p p', t.prices = some p ∧ t'.prices = some p' ∧ p.length = t.categories.length ∧ p'.length = t'.categories.length ∧
      (t'.categories.zip p').Perm (t.categories.zip p) := by
  obtain ⟨hr, hcat⟩ := mcafee_ok_inv ht
  obtain ⟨hr', hcat'⟩ := mcafee_ok_inv ht'
  obtain ⟨k, d, p, hk, -, hres, he⟩ := mcafee_eq hr hcat b
  obtain ⟨k', d', p', hk', -, hres', he'⟩ := mcafee_eq hr' hcat' b
  obtain rfl : k' = k := greedy_unique (h.greedy hk') hk
  rw [he] at ht
  rw [he'] at ht'
  simp only [Except.ok.injEq] at ht ht'
  subst ht ht'
  have hsp : m'.sorted.Perm m.sorted := h.categories.map _
  -- everything follows from the prices being a function of the category
  have fin : ∀ (d : ℕ) (g : AgentCategory → ℚ), d' = d → p = m.sorted.map g → p' = m'.sorted.map g →
      d' = d ∧ ∃ q q', some p = some q ∧ some p' = some q' ∧ q.length = (mkMarket m.sorted (fun _ => d)).categories.length ∧
        q'.length = (mkMarket m'.sorted (fun _ => d')).categories.length ∧
        ((mkMarket m'.sorted (fun _ => d')).categories.zip q').Perm ((mkMarket m.sorted (fun _ => d)).categories.zip q) := by
    rintro d g rfl rfl rfl
    refine ⟨rfl, _, _, rfl, rfl, by simp [mkMarket_length], by simp [mkMarket_length], ?_⟩
    rw [← segCats_zero, ← segCats_zero]
    unfold segCats
    rw [List.zip_map', List.zip_map']
    exact hsp.map _
  have hblk := h.blk (k' - 1)
  have hgood : isPriceGoodForPs (candidate m' r' k') (Auctions.blk m'.sorted r' (k' - 1)) = isPriceGoodForPs (candidate m r k') (Auctions.blk m.sorted r (k' - 1)) := by
    rw [candidate_reordered h hr hr' k']
    exact isPriceGoodForPs_perm hblk
  have hm : 0 < k' → Auctions.blk m.sorted r (k' - 1) = m.sorted.map (fun c => c.values.getD (k' - 1) 0) :=
    fun h0 => blk_ones_map hr (hk.taken (k' - 1) (by omega)).1
  have hm' : 0 < k' → Auctions.blk m'.sorted r' (k' - 1) = m'.sorted.map (fun c => c.values.getD (k' - 1) 0) :=
    fun h0 => blk_ones_map hr' (hk'.taken (k' - 1) (by omega)).1
  have hfull : ∀ (c : Market) (x : ℚ), (List.range c.numCategories).map (fun i => x * (if (c.sorted.map (fun c => c.values.getD (k' - 1) 0)).getD i 0 < 0 then -1 else 1)) =
      c.sorted.map (fun c => x * (if c.values.getD (k' - 1) 0 < 0 then -1 else 1)) := by
    intro c x
    apply List.ext_getElem
    · simp [c.sorted_length]
    · intro i h1 h2
      simp only [List.length_map] at h2
      simp [h2]
  cases hres with
  | none h0 =>
    cases hres' with
    | none _ =>
      refine fin 0 (fun _ => 0) rfl ?_ ?_
      · rw [List.map_const', m.sorted_length]
      · rw [List.map_const', m'.sorted_length]
    | full h1 _ _ => omega
    | reduced h1 _ => omega
  | full h0 hb hg =>
    cases hres' with
    | none _ => omega
    | full _ _ _ =>
      refine fin _ (fun c => candidate m r d * (if c.values.getD (d - 1) 0 < 0 then -1 else 1)) rfl ?_ ?_
      · rw [hm h0, hfull]
      · rw [hm' h0, candidate_reordered h hr hr', hfull]
    | reduced _ hbad => rw [hgood, hg] at hbad; simp [hb] at hbad
  | reduced h0 hbad =>
    cases hres' with
    | none _ => omega
    | full _ hb hg => rw [hgood, hbad hb] at hg; simp at hg
    | reduced _ _ => exact fin (k' - 1) (fun c => c.values.getD (k' - 1) 0) rfl (hm h0) (hm' h0)

/-- **C85**, negative result (and non-vacuity): a buyer with value 18 and two sellers with values -5 and -6. If the buyers are the first category, there is one deal, at the price 6; if
the sellers are the first category, there is none. So the word `at most one` is needed in `ascending_reordered` and `trade_reduction_reordered`. -/
theorem order_matters :
    let m : Market := ⟨[⟨"buyer", [18]⟩, ⟨"seller", [-5, -6]⟩]⟩
    let m' : Market := ⟨[⟨"seller", [-5, -6]⟩, ⟨"buyer", [18]⟩]⟩
    let t : TradeWithSinglePrice := ⟨[⟨"buyer", [18]⟩, ⟨"seller", [-5]⟩], [1, 1], some [6, -6], 1⟩
    let t' : TradeWithSinglePrice := ⟨[⟨"seller", []⟩, ⟨"buyer", [18]⟩], [1, 1], some [-5, 5], 0⟩
    Reordered m [1, 1] m' [1, 1] ∧ auction m [1, 1] 30 = .ok (some t) ∧ auction m' [1, 1] 30 = .ok (some t') ∧
    tradeReduction m [1, 1] = .ok t ∧ tradeReduction m' [1, 1] = .ok t' := by
  exact ⟨⟨rfl, rfl, by decide +kernel⟩, by decide +kernel, by decide +kernel, by decide +kernel, by decide +kernel⟩

/-- Non-vacuity of `mcafee_reordered` and `optimal_reordered`. -/
example :
    let m : Market := ⟨[⟨"buyer", [18, 17, 2]⟩, ⟨"seller", [-5, -6, -10]⟩, ⟨"x", [-5, -4, -10]⟩]⟩
    let m' : Market := ⟨[⟨"x", [-5, -4, -10]⟩, ⟨"buyer", [18, 17, 2]⟩, ⟨"seller", [-5, -6, -10]⟩]⟩
    Reordered m [1, 1, 1] m' [1, 1, 1] ∧
    m.optimalTrade [1, 1, 1] = .ok (⟨[[17, -6, -5], [18, -5, -4]]⟩, ⟨[⟨"buyer", [2]⟩, ⟨"seller", [-10]⟩, ⟨"x", [-10]⟩]⟩) ∧
    m'.optimalTrade [1, 1, 1] = .ok (⟨[[-5, 17, -6], [-4, 18, -5]]⟩, ⟨[⟨"x", [-10]⟩, ⟨"buyer", [2]⟩, ⟨"seller", [-10]⟩]⟩) ∧
    mcafeeTradeReduction m [1, 1, 1] = .ok ⟨[⟨"buyer", [18, 17]⟩, ⟨"seller", [-5, -6]⟩, ⟨"x", [-4, -5]⟩], [1, 1, 1], some [22/3, -22/3, -22/3], 2⟩ ∧
    mcafeeTradeReduction m' [1, 1, 1] = .ok ⟨[⟨"x", [-4, -5]⟩, ⟨"buyer", [18, 17]⟩, ⟨"seller", [-5, -6]⟩], [1, 1, 1], some [-22/3, 22/3, -22/3], 2⟩ := by
  exact ⟨⟨rfl, rfl, by decide +kernel⟩, by decide +kernel, by decide +kernel, by decide +kernel, by decide +kernel⟩

end Auctions.Props
