import Verif.Props.McAfee
import Mathlib.Tactic.IntervalCases

set_option autoImplicit false

/-! # C60: McAfee's protocol with the price heuristic in two-sided markets -/

namespace Auctions.Spec

/-- A two-sided market: two categories, the values of the category `buyer` are non-negative and below half of the bound `MAX_VALUE`, the values
of the other category are negative. -/
structure TwoSided (m : Market) (buyer : ℕ) : Prop where
  two : m.numCategories = 2
  index : buyer < 2
  buyers : ∀ x ∈ m.valueLists.getD buyer [], 0 ≤ x ∧ 2 * x < MAX_VALUE
  sellers : ∀ x ∈ m.valueLists.getD (1 - buyer) [], x < 0

end Auctions.Spec

namespace Auctions.Props

open Auctions Spec McAfee Ascending

theorem blk_getD {m : Market} {r : List ℕ} (hr : r = List.replicate m.numCategories 1) {j : ℕ} (hav : Avail m.sorted r j) :
    blk m.sorted r j = (List.range m.numCategories).map (fun i => (vAt m.sorted i).getD j 0) := by
  rw [blk_ones (by rw [m.sorted_length]; exact hr) hav, m.sorted_length]

theorem candidate_closed {m : Market} {r : List ℕ} (hr : r = List.replicate m.numCategories 1) (k : ℕ) :
    candidate m r k = ((List.range m.numCategories).map (fun i => |(vAt m.sorted i).getD k (-MAX_VALUE)|)).sum / m.numCategories := by
  have hl : r.length = m.sorted.length := by rw [m.sorted_length, hr]; simp
  have hlen : (padEmpty ⟨dropBlocks m.sorted r k⟩).categories.length = m.numCategories := by
    rw [padEmpty_length, dropBlocks_length hl, m.sorted_length]
  have hr' : r = List.replicate (padEmpty ⟨dropBlocks m.sorted r k⟩).categories.length 1 := by rw [hlen]; exact hr
  have hav : Avail (padEmpty ⟨dropBlocks m.sorted r k⟩).categories r 0 :=
    padEmpty_avail (by rw [dropBlocks_length hl, m.sorted_length]; exact hr)
  unfold candidate
  rw [blk_ones hr' hav, hlen, List.map_map]
  congr 2
  apply List.map_congr_left
  intro i hi
  have hi : i < m.numCategories := by simpa using hi
  simp only [Function.comp_apply]
  congr 1
  have hi' : i < (dropBlocks m.sorted r k).length := by rw [dropBlocks_length hl, m.sorted_length]; exact hi
  have h1 : vAt (dropBlocks m.sorted r k) i = (vAt m.sorted i).drop k := by
    rw [vAt_dropBlocks hl]
    congr 1
    rw [hr]; simp [rAt, hi]
  rw [vAt_eq_getElem hi'] at h1
  rw [vAt_eq_getElem (by rw [padEmpty_length]; exact hi')]
  simp only [padEmpty, List.getElem_map]
  generalize (dropBlocks m.sorted r k)[i] = c at *
  by_cases hc : c.values = []
  · have : (vAt m.sorted i).length ≤ k := by
      rw [hc] at h1; exact List.drop_eq_nil_iff.1 h1.symm
    rw [if_pos (by simp [AgentCategory.size, hc])]
    simp [AgentCategory.append, hc, sortDesc, this]
  · have : k < (vAt m.sorted i).length := by
      by_contra hge
      rw [List.drop_of_length_le (by omega)] at h1
      exact hc h1
    rw [if_neg (by simp [AgentCategory.size, hc]), h1]
    simp [List.getD, List.getElem?_drop, this]

theorem good_iff {c : ℚ} {l : List ℚ} :
    isPriceGoodForPs c l = true ↔ ∀ x ∈ l, ¬ (x ≥ 0 ∧ c > x) ∧ ¬ (x ≤ 0 ∧ -c > x) := by
  induction l with
  | nil => simp [isPriceGoodForPs]
  | cons y l ih =>
    rw [isPriceGoodForPs]
    split_ifs with h1 h2
    · simp only [Bool.false_eq_true, false_iff]
      intro h; exact (h y (by simp)).1 h1
    · simp only [Bool.false_eq_true, false_iff]
      intro h; exact (h y (by simp)).2 h2
    · rw [ih, List.forall_mem_cons]
      exact ⟨fun h => ⟨⟨h1, h2⟩, h⟩, fun h => h.2⟩

/-- Two markets that agree on everything but the highest `j₀` agents of each category, of which there are as many. -/
structure SameBelow (mT mB : Market) (j₀ : ℕ) : Prop where
  num : mT.numCategories = mB.numCategories
  drop : ∀ j, (vAt mT.sorted j).drop j₀ = (vAt mB.sorted j).drop j₀
  size : ∀ j, (vAt mT.sorted j).length = (vAt mB.sorted j).length

theorem SameBelow.avail {mT mB : Market} {j₀ : ℕ} (h : SameBelow mT mB j₀) (r : List ℕ) (t : ℕ) :
    Avail mT.sorted r t ↔ Avail mB.sorted r t := by
  unfold Avail; rw [mT.sorted_length, mB.sorted_length, h.num]; simp only [h.size]

theorem SameBelow.blk {mT mB : Market} {j₀ : ℕ} (h : SameBelow mT mB j₀) {r : List ℕ} (hr : r = List.replicate mB.numCategories 1)
    {t : ℕ} (ht : j₀ ≤ t) (hav : Avail mB.sorted r t) : blk mT.sorted r t = blk mB.sorted r t :=
  blk_congr (by rw [mB.sorted_length]; exact hr) (by rw [mT.sorted_length, mB.sorted_length, h.num]) ht h.drop hav ((h.avail r t).2 hav)

theorem SameBelow.getD {mT mB : Market} {j₀ : ℕ} (h : SameBelow mT mB j₀) (j : ℕ) {t : ℕ} (ht : j₀ ≤ t) (d : ℚ) :
    (vAt mT.sorted j).getD t d = (vAt mB.sorted j).getD t d := by
  have h1 : ∀ V : List ℚ, V.getD t d = (V.drop j₀).getD (t - j₀) d := by
    intro V; simp only [List.getD, List.getElem?_drop]; rw [show j₀ + (t - j₀) = t by omega]
  rw [h1, h.drop, ← h1]

theorem SameBelow.candidate {mT mB : Market} {j₀ : ℕ} (h : SameBelow mT mB j₀) {r : List ℕ} (hr : r = List.replicate mB.numCategories 1)
    {t : ℕ} (ht : j₀ ≤ t) : candidate mT r t = candidate mB r t := by
  rw [candidate_closed (by rw [h.num]; exact hr), candidate_closed hr, h.num]
  congr 2
  apply List.map_congr_left
  intro i _
  rw [h.getD i ht]

theorem SameBelow.stop {mT mB : Market} {j₀ : ℕ} (h : SameBelow mT mB j₀) {r : List ℕ} (hr : r = List.replicate mB.numCategories 1)
    {k : ℕ} (hk0 : 0 < k) (hjk : j₀ ≤ k) (hk : GreedyStop mB r 2000000 true k) (hlast : 0 ≤ (Auctions.blk mT.sorted r (k - 1)).sum) :
    GreedyStop mT r 2000000 true k := by
  refine ⟨hk.le_max, fun t ht => ?_, fun hlt => ?_⟩
  · refine ⟨(h.avail r t).2 (hk.taken t ht).1, ?_⟩
    have h1 := blk_antitone (m := mT) (r := r) (by rw [hr, h.num]; simp) (show t ≤ k - 1 by omega)
      ((h.avail r (k - 1)).2 (hk.taken (k - 1) (by omega)).1)
    unfold Good
    push Not
    exact ⟨by linarith, fun _ => by simp⟩
  · rcases hk.stop hlt with h1 | h1
    · exact Or.inl (fun hh => h1 ((h.avail r k).1 hh))
    · by_cases hav : Avail mB.sorted r k
      · right; rw [h.blk hr hjk hav]; exact h1
      · exact Or.inl (fun hh => hav ((h.avail r k).1 hh))

/-- If an agent whose report `b` is among the highest `d` of its category has a true value that is at least the values below these, then
reporting it changes nothing below them. -/
theorem same_below {m : Market} {i : ℕ} {v b : ℚ} (hi : i < m.numCategories) {d : ℕ} (hd0 : 0 < d)
    (hd : d ≤ (vAt (withAgent m i b).sorted i).length)
    (hmem : b ∈ (vAt (withAgent m i b).sorted i).take d) (hv : ∀ x ∈ (vAt (withAgent m i b).sorted i).drop d, x ≤ v) :
    SameBelow (withAgent m i v) (withAgent m i b) d ∧ v ∈ (vAt (withAgent m i v).sorted i).take d ∧
    ∀ q, q ≤ v → (∀ x ∈ (vAt (withAgent m i b).sorted i).take d, q ≤ x) → ∀ x ∈ (vAt (withAgent m i v).sorted i).take d, q ≤ x := by
  set X := vAt m.categories i with hX
  have hVB : vAt (withAgent m i b).sorted i = sortDesc (b :: X) := by rw [vAt_sorted, vAt_withAgent_eq m b hi]
  have hVT : vAt (withAgent m i v).sorted i = sortDesc (v :: X) := by rw [vAt_sorted, vAt_withAgent_eq m v hi]
  have hoth : ∀ j, j ≠ i → vAt (withAgent m i v).sorted j = vAt (withAgent m i b).sorted j := by
    intro j hj
    rw [vAt_sorted, vAt_sorted, vAt_withAgent_ne m v hj, vAt_withAgent_ne m b hj]
  have hsi : d ≤ X.length + 1 := by rw [hVB] at hd; simpa using hd
  rw [hVB] at hmem hv
  obtain ⟨hX1, hX2⟩ := drop_report hsi hmem
  have hXdrop : (sortDesc X).drop (d - 1) = (sortDesc (b :: X)).drop d := by
    conv_lhs => rw [hX1]
    rw [List.drop_append_of_le_length (by omega), List.drop_of_length_le (by omega), List.nil_append]
  have hXtake : (sortDesc X).take (d - 1) = ((sortDesc (b :: X)).take d).erase b := by
    conv_lhs => rw [hX1]
    rw [List.take_append_of_le_length (by omega), List.take_of_length_le (by omega)]
  obtain ⟨hT1, hT2⟩ := add_report (v := v) hd0 hsi (by rw [hXdrop]; exact hv)
  rw [hXdrop] at hT2
  refine ⟨⟨by rw [withAgent_length, withAgent_length], fun j => ?_, fun j => ?_⟩, ?_, ?_⟩
  · by_cases hj : j = i
    · subst hj; rw [hVT, hVB, hT2]
    · rw [hoth j hj]
  · by_cases hj : j = i
    · subst hj; rw [hVT, hVB]; simp
    · rw [hoth j hj]
  · rw [hVT, hT1, mem_sortDesc]; simp
  · intro q hq hle x hx
    rw [hVT, hT1, mem_sortDesc, List.mem_cons, hXtake] at hx
    rcases hx with rfl | hx
    · exact hq
    · exact hle x (by rw [hVB]; exact List.mem_of_mem_erase hx)

/-- The values of the blocks in a two-sided market. -/
theorem two_sided_blk {m : Market} {r : List ℕ} {β i o : ℕ} (hs : TwoSided m β) (hio : (i = 0 ∧ o = 1) ∨ (i = 1 ∧ o = 0))
    (hr : r = List.replicate m.numCategories 1) {j : ℕ} (hav : Avail m.sorted r j) :
    (blk m.sorted r j).sum = (vAt m.sorted i).getD j 0 + (vAt m.sorted o).getD j 0 ∧
    (∀ P : ℚ → Prop, (∀ x ∈ blk m.sorted r j, P x) ↔ P ((vAt m.sorted i).getD j 0) ∧ P ((vAt m.sorted o).getD j 0)) := by
  rw [blk_getD hr hav, hs.two]
  rcases hio with ⟨rfl, rfl⟩ | ⟨rfl, rfl⟩
  · simp [List.range_succ]
  · refine ⟨by simp [List.range_succ, add_comm], fun P => by simp [List.range_succ, and_comm]⟩

theorem two_sided_candidate {m : Market} {r : List ℕ} {β i o : ℕ} (hs : TwoSided m β) (hio : (i = 0 ∧ o = 1) ∨ (i = 1 ∧ o = 0))
    (hr : r = List.replicate m.numCategories 1) (k : ℕ) :
    candidate m r k = (|(vAt m.sorted i).getD k (-MAX_VALUE)| + |(vAt m.sorted o).getD k (-MAX_VALUE)|) / 2 := by
  rw [candidate_closed hr, hs.two]
  rcases hio with ⟨rfl, rfl⟩ | ⟨rfl, rfl⟩
  · simp [List.range_succ]
  · simp [List.range_succ, add_comm]

theorem two_sided_mem {m : Market} {β : ℕ} (hs : TwoSided m β) :
    (∀ x ∈ vAt m.sorted β, 0 ≤ x ∧ 2 * x < MAX_VALUE) ∧ ∀ x ∈ vAt m.sorted (1 - β), x < 0 := by
  refine ⟨fun x hx => hs.buyers x ?_, fun x hx => hs.sellers x ?_⟩ <;>
  · rw [vAt_sorted, mem_sortDesc] at hx; exact hx

theorem getD_mem {l : List ℚ} {j : ℕ} (d : ℚ) (h : j < l.length) : l.getD j d ∈ l := by
  simp [h]

/-- The price that the heuristic sets for a category is at least the value of the best agent of the category that does not trade. -/
theorem candidate_ge_next {m : Market} {r : List ℕ} {β i o : ℕ} (hs : TwoSided m β) (hio : (i = 0 ∧ o = 1) ∨ (i = 1 ∧ o = 0))
    (hr : r = List.replicate m.numCategories 1) {k : ℕ} (hk0 : 0 < k) (hk : GreedyStop m r 2000000 true k)
    (hsize : (vAt m.sorted i).length ≤ 2000000)
    (hgood : isPriceGoodForPs (candidate m r k) (blk m.sorted r (k - 1)) = true) (hki : k < (vAt m.sorted i).length) :
    (vAt m.sorted i).getD k 0 ≤ candidate m r k * (if (vAt m.sorted i).getD (k - 1) 0 < 0 then -1 else 1) := by
  obtain ⟨hbuy, hsell⟩ := two_sided_mem hs
  have hav := (hk.taken (k - 1) (by omega)).1
  have hin : i < m.numCategories ∧ o < m.numCategories := by rw [hs.two]; omega
  obtain ⟨-, hi1⟩ := blk_ones_getD hr hav hin.1
  obtain ⟨-, ho1⟩ := blk_ones_getD hr hav hin.2
  rw [good_iff, (two_sided_blk hs hio hr hav).2] at hgood
  obtain ⟨hg1, hg2⟩ := hgood
  have hstop := hk.stop (by omega)
  have hgk : ∀ d, (vAt m.sorted i).getD k d = (vAt m.sorted i)[k] := by intro d; simp [hki]
  have hmk : (vAt m.sorted i)[k] ∈ vAt m.sorted i := List.getElem_mem hki
  have hm1 := getD_mem 0 hi1
  have hm2 := getD_mem 0 ho1
  have hmax : (0 : ℚ) < MAX_VALUE := by unfold MAX_VALUE; norm_num
  rw [two_sided_candidate hs hio hr] at hg1 hg2 ⊢
  simp only [hgk] at hg1 hg2 ⊢
  generalize (vAt m.sorted i)[k] = x at *
  by_cases hko : k < (vAt m.sorted o).length
  · -- both categories have agents left
    have hav' : Avail m.sorted r k := by
      intro j hj
      have : rAt r j = 1 := by rw [hr]; simp [rAt, (show j < m.numCategories by rw [← m.sorted_length]; exact hj)]
      rw [this]
      rw [m.sorted_length, hs.two] at hj
      rcases hio with ⟨rfl, rfl⟩ | ⟨rfl, rfl⟩ <;> interval_cases j <;> omega
    have hneg : x + (vAt m.sorted o)[k] < 0 := by
      rcases hstop with h1 | h1
      · exact absurd hav' h1
      · rw [(two_sided_blk hs hio hr hav').1, hgk] at h1
        unfold Good at h1
        simp only [Bool.true_eq_false, and_false, or_false, not_not] at h1
        simpa [hko] using h1
    have hgo : (vAt m.sorted o).getD k (-MAX_VALUE) = (vAt m.sorted o)[k] := by simp [hko]
    have hmo : (vAt m.sorted o)[k] ∈ vAt m.sorted o := List.getElem_mem hko
    simp only [hgo] at hg1 hg2 ⊢
    generalize (vAt m.sorted o)[k] = y at *
    rcases eq_or_ne i β with rfl | hiβ
    · have ho : o = 1 - i := by omega
      subst ho
      have h1 := hbuy _ hmk
      have h2 := hsell _ hmo
      have h3 := (hbuy _ hm1).1
      rw [if_neg (by linarith), abs_of_nonneg h1.1, abs_of_neg h2]
      linarith
    · have hi' : i = 1 - β := by have := hs.index; omega
      have ho : o = β := by have := hs.index; omega
      subst hi'; subst ho
      have h1 := hsell _ hmk
      have h2 := hbuy _ hmo
      have h3 := hsell _ hm1
      rw [if_pos h3, abs_of_neg h1, abs_of_nonneg h2.1]
      linarith
  · have hgo : (vAt m.sorted o).getD k (-MAX_VALUE) = -MAX_VALUE := by simp [not_lt.1 hko]
    simp only [hgo, abs_neg, abs_of_pos hmax] at hg1 hg2 ⊢
    rcases eq_or_ne i β with rfl | hiβ
    · have h1 := hbuy _ hmk
      have h3 := (hbuy _ hm1).1
      rw [if_neg (by linarith), abs_of_nonneg h1.1]
      linarith
    · exfalso
      have ho : o = β := by have := hs.index; omega
      subst ho
      have h2 := hbuy _ hm2
      have h3 : (0 : ℚ) ≤ |x| := abs_nonneg x
      refine hg2.1 ⟨h2.1, ?_⟩
      linarith

/-- **C60**. In a two-sided market, McAfee's protocol with the price heuristic (as without it, C46) is truthful: an agent with true value `v`
gets from reporting `v` at least the utility it gets from any other report `b`, and never a negative utility. -/
theorem mcafee_heuristic_truthful {m : Market} {r : List ℕ} {β i : ℕ} {v b : ℚ} {h : Bool} {tT tB : TradeWithSinglePrice}
    (hsT : TwoSided (withAgent m i v) β) (hsB : TwoSided (withAgent m i b) β) (hsize : (m.valueLists.getD i []).length < 2000000)
    (hT : mcafeeTradeReduction (withAgent m i v) r h = .ok tT)
    (hB : mcafeeTradeReduction (withAgent m i b) r h = .ok tB) :
    utility tB i v b ≤ utility tT i v v ∧ 0 ≤ utility tT i v v := by
  have hir := mcafee_individually_rational hT
  have hirB := mcafee_individually_rational hB
  obtain ⟨hr, hcat⟩ := mcafee_ok_inv hT
  obtain ⟨hrB, hcatB⟩ := mcafee_ok_inv hB
  have hnm : (withAgent m i b).numCategories = m.numCategories := withAgent_length ..
  obtain ⟨kT, dT, pT, hkT, -, hresT, heT⟩ := mcafee_eq hr hcat h
  obtain ⟨kB, dB, pB, hkB, -, hresB, heB⟩ := mcafee_eq hrB hcatB h
  rw [heT] at hT
  rw [heB] at hB
  simp only [Except.ok.injEq] at hT hB
  subst hT hB
  have hnonneg : 0 ≤ utility ⟨(mkMarket (withAgent m i v).sorted (fun _ => dT)).categories, r, some pT, dT⟩ i v v := by
    rw [utility_outcome]
    split_ifs with hmem
    · obtain ⟨p, hp, -, hle⟩ := hir
      obtain rfl : pT = p := by simpa using hp
      have := hle i v (by rw [getD_values, vAt_mkMarket]; exact hmem)
      refine mul_nonneg (div_nonneg ?_ ?_) (by linarith)
      · exact_mod_cast Nat.zero_le _
      · exact_mod_cast Nat.zero_le _
    · exact le_refl _
  refine ⟨?_, hnonneg⟩
  by_cases hpos : utility ⟨(mkMarket (withAgent m i b).sorted (fun _ => dB)).categories, r, some pB, dB⟩ i v b ≤ 0
  · exact le_trans hpos hnonneg
  apply le_of_eq
  rw [utility_outcome] at hpos
  by_cases hmem : b ∈ (vAt (withAgent m i b).sorted i).take dB
  swap
  · simp [hmem] at hpos
  rw [if_pos hmem] at hpos
  have hpv : pB.getD i 0 < v := by
    by_contra hge
    refine hpos (mul_nonpos_of_nonneg_of_nonpos (div_nonneg ?_ ?_) (by linarith))
    · exact_mod_cast Nat.zero_le _
    · exact_mod_cast Nat.zero_le _
  have hi : i < (withAgent m i b).sorted.length := by
    by_contra hge
    rw [vAt_of_ge (by omega)] at hmem
    simp at hmem
  have hi' : i < m.numCategories := by rw [Market.sorted_length] at hi; omega
  have hi2 : i < 2 := by rw [← hsB.two, hnm]; exact hi'
  have hio : (i = 0 ∧ 1 - i = 1) ∨ (i = 1 ∧ 1 - i = 0) := by omega
  have hrle : ∀ x ∈ (vAt (withAgent m i b).sorted i).take dB, pB.getD i 0 ≤ x := by
    obtain ⟨p, hp, -, hle⟩ := hirB
    obtain rfl : pB = p := by simpa using hp
    intro x hx
    exact hle i x (by rw [getD_values, vAt_mkMarket]; exact hx)
  have hsame : ∀ {d} {p : List ℚ}, SameBelow (withAgent m i v) (withAgent m i b) dB → v ∈ (vAt (withAgent m i v).sorted i).take dB →
      d = dB → p.getD i 0 = pB.getD i 0 →
      utility ⟨(mkMarket (withAgent m i b).sorted (fun _ => dB)).categories, r, some pB, dB⟩ i v b
        = utility ⟨(mkMarket (withAgent m i v).sorted (fun _ => d)).categories, r, some p, d⟩ i v v := by
    intro d p hsb hvm hd hp
    subst hd
    rw [utility_outcome, utility_outcome, if_pos hmem, if_pos hvm, List.length_take, List.length_take, hsb.size, hp]
  have hk0 : 0 < kB := by
    cases hresB with
    | none h0 => simp at hmem
    | full h0 h1 h2 => exact h0
    | reduced h0 h1 => exact h0
  have havB := (hkB.taken (kB - 1) (by omega)).1
  obtain ⟨hpB, hltB⟩ := blk_ones_getD hrB havB (show i < (withAgent m i b).numCategories by omega)
  have hd0 : 0 < dB := by
    rcases Nat.eq_zero_or_pos dB with h0 | h0
    · rw [h0] at hmem; simp at hmem
    · exact h0
  have hlast := (hkB.taken (kB - 1) (by omega)).2
  unfold Good at hlast
  simp only [Bool.true_eq_false, and_false, or_false, not_lt] at hlast
  have hlenV : (vAt (withAgent m i b).sorted i).length ≤ 2000000 := by
    rw [vAt_sorted, vAt_withAgent_eq m b hi']
    have : (vAt m.categories i).length < 2000000 := hsize
    simpa using this
  cases hresB with
  | none h0 => omega
  | reduced h0 h1 =>
    rw [hpB, getD_lt hltB] at hpv
    obtain ⟨hsb, hvm, -⟩ := same_below hi' (v := v) hd0 (by omega) hmem (by
      intro x hx
      obtain ⟨n, hn', rfl⟩ := List.getElem_of_mem hx
      refine le_trans ?_ hpv.le
      simp only [List.getElem_drop]
      apply (sorted_vAt (withAgent m i b) i).getElem_ge; omega)
    have hblk := hsb.blk hrB (le_refl _) havB
    have hstop := hsb.stop hrB h0 (by omega) hkB (by rw [hblk]; exact hlast)
    obtain rfl := greedy_unique hkT hstop
    have hc := hsb.candidate hrB (t := kT) (by omega)
    cases hresT with
    | none h2 => omega
    | full h2 h3 h4 => rw [hblk, hc, h1 h3] at h4; simp at h4
    | reduced h2 h3 => exact hsame hsb hvm rfl (by rw [hblk])
  | full h0 h1 h2 =>
    have hq : ((List.range (withAgent m i b).numCategories).map (fun j => candidate (withAgent m i b) r kB *
        (if (blk (withAgent m i b).sorted r (kB - 1)).getD j 0 < 0 then -1 else 1))).getD i 0
          = candidate (withAgent m i b) r kB * (if (vAt (withAgent m i b).sorted i).getD (kB - 1) 0 < 0 then -1 else 1) := by
      rw [← hpB]; simp [hnm, hi']
    rw [hq] at hpv
    simp only [hq] at hrle
    obtain ⟨hsb, hvm, hge⟩ := same_below hi' (v := v) hd0 (by omega) hmem (by
      intro x hx
      obtain ⟨n, hn', rfl⟩ := List.getElem_of_mem hx
      rw [List.length_drop] at hn'
      have := candidate_ge_next hsB hio hrB hk0 hkB hlenV h2 (by omega)
      refine le_trans ?_ (this.trans hpv.le)
      rw [getD_lt (by omega)]
      simp only [List.getElem_drop]
      apply (sorted_vAt (withAgent m i b) i).getElem_ge; omega)
    have hoth : vAt (withAgent m i v).sorted (1 - i) = vAt (withAgent m i b).sorted (1 - i) := by
      rw [vAt_sorted, vAt_sorted, vAt_withAgent_ne m v (by omega), vAt_withAgent_ne m b (by omega)]
    have havT := (hsb.avail r (kB - 1)).2 havB
    obtain ⟨hpT, hltT⟩ := blk_ones_getD hr havT (show i < (withAgent m i v).numCategories by rw [hsb.num]; omega)
    obtain ⟨-, hltO⟩ := blk_ones_getD hrB havB (show 1 - i < (withAgent m i b).numCategories by rw [hsB.two]; omega)
    have hTge := hge _ hpv.le hrle ((vAt (withAgent m i v).sorted i).getD (kB - 1) 0) (by
      rw [getD_lt hltT, List.mem_take_iff_getElem]
      exact ⟨kB - 1, by omega, rfl⟩)
    have hmT := getD_mem 0 hltT
    have hmB := getD_mem 0 hltB
    have hmO := getD_mem 0 hltO
    have hc := hsb.candidate hrB (t := kB) (le_refl _)
    have hcn : 0 ≤ candidate (withAgent m i b) r kB := by
      rw [two_sided_candidate hsB hio hrB]
      have := abs_nonneg ((vAt (withAgent m i b).sorted i).getD kB (-MAX_VALUE))
      have := abs_nonneg ((vAt (withAgent m i b).sorted (1 - i)).getD kB (-MAX_VALUE))
      linarith
    have hgood := h2
    rw [good_iff, (two_sided_blk hsB hio hrB havB).2] at hgood
    have hgoodT : isPriceGoodForPs (candidate (withAgent m i v) r kB) (blk (withAgent m i v).sorted r (kB - 1)) = true := by
      rw [good_iff, (two_sided_blk hsT hio hr havT).2, hc, hoth]
      refine ⟨?_, hgood.2⟩
      rcases eq_or_ne i β with rfl | hiβ
      · have h3 := ((two_sided_mem hsB).1 _ hmB).1
        have h4 := ((two_sided_mem hsT).1 _ hmT).1
        rw [if_neg (by linarith)] at hTge
        exact ⟨fun hh => by linarith [hh.2], fun hh => by linarith [hh.2]⟩
      · have hi3 : i = 1 - β := by have := hsB.index; omega
        subst hi3
        have h3 := (two_sided_mem hsB).2 _ hmB
        have h4 := (two_sided_mem hsT).2 _ hmT
        rw [if_pos h3] at hTge
        exact ⟨fun hh => by linarith [hh.1], fun hh => by linarith [hh.2]⟩
    have hsgn : ((vAt (withAgent m i v).sorted i).getD (kB - 1) 0 < 0) ↔ ((vAt (withAgent m i b).sorted i).getD (kB - 1) 0 < 0) := by
      rcases eq_or_ne i β with rfl | hiβ
      · have h3 := ((two_sided_mem hsB).1 _ hmB).1
        have h4 := ((two_sided_mem hsT).1 _ hmT).1
        exact ⟨fun hh => by linarith, fun hh => by linarith⟩
      · have hi3 : i = 1 - β := by have := hsB.index; omega
        subst hi3
        exact ⟨fun _ => (two_sided_mem hsB).2 _ hmB, fun _ => (two_sided_mem hsT).2 _ hmT⟩
    have hlastT : 0 ≤ (blk (withAgent m i v).sorted r (kB - 1)).sum := by
      rw [(two_sided_blk hsT hio hr havT).1, hoth]
      have h3 := hgood.2
      rcases eq_or_ne i β with rfl | hiβ
      · have h4 := ((two_sided_mem hsB).1 _ hmB).1
        have h5 := (two_sided_mem hsB).2 _ hmO
        rw [if_neg (by linarith)] at hTge
        have := h3.2
        push Not at this
        have := this h5.le
        linarith
      · have hi3 : i = 1 - β := by have := hsB.index; omega
        have hi4 : 1 - i = β := by have := hsB.index; omega
        subst hi3
        simp only [hi4] at h3 hmO ⊢
        have h4 := (two_sided_mem hsB).2 _ hmB
        have h5 := ((two_sided_mem hsB).1 _ hmO).1
        rw [if_pos h4] at hTge
        have := h3.1
        push Not at this
        have := this h5
        linarith
    have hstop := hsb.stop hrB h0 (le_refl _) hkB hlastT
    obtain rfl := greedy_unique hkT hstop
    cases hresT with
    | none h3 => omega
    | reduced h3 h4 => rw [h4 h1] at hgoodT; simp at hgoodT
    | full h3 h4 h5 =>
      refine hsame hsb hvm rfl ?_
      rw [hq]
      have : i < (withAgent m i v).numCategories := by rw [hsb.num]; omega
      simp only [List.getD_eq_getElem?_getD, List.getElem?_map, List.getElem?_range this, Option.map_some, Option.getD_some]
      rw [← List.getD_eq_getElem?_getD, ← List.getD_eq_getElem?_getD, hpT, hc]
      congr 1
      exact if_congr hsgn rfl rfl

/-- **C60**, the limit of the guarantee: a seller whose value is exactly 0 is taken for a buyer by the price heuristic, and then it can gain by
pretending a cost. Buyers 10, 10, 2, another seller with value 0 and one with value -4: reporting 0 gives utility 0, reporting -1 gives
utility 3. -/
theorem mcafee_heuristic_zero_seller :
    ∃ (m : Market) (tT tB : TradeWithSinglePrice), m.valueLists = [[10, 10, 2], [0, -4]] ∧
      mcafeeTradeReduction (withAgent m 1 0) [1, 1] true = .ok tT ∧
      mcafeeTradeReduction (withAgent m 1 (-1)) [1, 1] true = .ok tB ∧
      utility tT 1 0 0 = 0 ∧ utility tB 1 0 (-1) = 3 := by
  refine ⟨⟨[⟨"buyer", [10, 10, 2]⟩, ⟨"seller", [0, -4]⟩]⟩,
    ⟨[⟨"buyer", [10]⟩, ⟨"seller", [0]⟩], [1, 1], some [10, 0], 1⟩,
    ⟨[⟨"buyer", [10, 10]⟩, ⟨"seller", [0, -1]⟩], [1, 1], some [3, -3], 2⟩, ?_⟩
  decide +kernel

/-- Non-vacuity of C60: a seller with value -3 trades and gains at the heuristic price 5 when it tells the truth, and loses this gain when it
reports -6. -/
example :
    let m : Market := ⟨[⟨"buyer", [9, 8, 7, 4]⟩, ⟨"seller", [-1, -2, -6]⟩]⟩
    TwoSided (withAgent m 1 (-3)) 0 ∧ TwoSided (withAgent m 1 (-6)) 0 ∧ (m.valueLists.getD 1 []).length < 2000000 ∧
    ∃ tT tB, mcafeeTradeReduction (withAgent m 1 (-3)) [1, 1] true = .ok tT ∧
      mcafeeTradeReduction (withAgent m 1 (-6)) [1, 1] true = .ok tB ∧ utility tT 1 (-3) (-3) = 2 ∧ utility tB 1 (-3) (-6) = 0 := by
  refine ⟨⟨rfl, by decide, by decide +kernel, by decide +kernel⟩, ⟨rfl, by decide, by decide +kernel, by decide +kernel⟩, by decide, 
    ⟨[⟨"buyer", [9, 8, 7]⟩, ⟨"seller", [-1, -2, -3]⟩], [1, 1], some [5, -5], 3⟩,
    ⟨[⟨"buyer", [9, 8]⟩, ⟨"seller", [-1, -2]⟩], [1, 1], some [7, -6], 2⟩, ?_⟩
  decide +kernel

end Auctions.Props
