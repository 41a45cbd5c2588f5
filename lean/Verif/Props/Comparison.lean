import Verif.Proofs.Comparison
import Verif.Props.Errors
import Verif.Props.AscendingTruthful

set_option autoImplicit false

/-!
# C67, C68: the two strongly budget balanced auctions compared
-/

namespace Auctions.Props

open Auctions Spec Ascending TradeReduction Comparison

/-- **C67**. The ascending auction and trade reduction by external competition make the same number of deals, on every market and for every recipe
(values at least `-MAX_VALUE`, at most 2000000 agents). -/
theorem sbb_same_number_of_deals {m : Market} {r : List ℕ} {fuel N : ℕ} {t t' : TradeWithSinglePrice}
    (hval : ∀ c ∈ m.categories, ∀ v ∈ c.values, -MAX_VALUE ≤ v) (hN : m.numAgents ≤ 2000000)
    (ht : tradeReduction m r = .ok t) (ht' : auction m r fuel N = .ok (some t')) : t'.numOfDeals = t.numOfDeals := by
  obtain ⟨h, hcat, hpos⟩ := auction_ok_inv ht'
  have h' : r.length = m.sorted.length := by rw [m.sorted_length]; exact h
  have hne := rel_ne_nil h hpos
  have hv : ∀ i < m.sorted.length, ∀ v ∈ vAt m.sorted i, -MAX_VALUE ≤ v := by
    intro i hi v hv
    have hi' : i < m.categories.length := by rw [m.sorted_length] at hi; exact hi
    rw [vAt_sorted, mem_sortDesc, vAt_eq_getElem hi'] at hv
    exact hval _ (List.getElem_mem hi') v hv
  obtain ⟨k, hk, hopt, hres⟩ := tr_outcome hpos hval ht
  have hasc := ascending_loses_at_most_one_deal ht' hopt hN
  have hnum : TradeWithMaterialBalance.numOfDeals ⟨((List.range k).map (blk m.sorted r)).reverse⟩ = k := by
    simp [TradeWithMaterialBalance.numOfDeals]
  rw [hnum] at hasc
  have hdk' := hasc.2 hval
  obtain ⟨n, s, p', d', hp, he, rfl, hle', hmax'⟩ := outcome_of_ok ht'
  have hinv := (hp.inv h' hne).1
  have hstrict := touched_strict hne hp
  have hdk : d' ≤ k := hdk'
  show d' = _
  rcases hres with ⟨q, rfl, hc⟩ | ⟨a, p, d, rfl, hT, hmax⟩
  · show d' = 0
    rcases hc with hc | hc
    · omega
    · have hk0 : k = 0 := by
        by_contra hk0
        have h1 := hk.taken 0 (by omega)
        exact hc (pass_of_good h1.2 (clockSum_ge_blk h' h1.1 (fun l => by simp)))
      omega
  · show d' = d
    obtain ⟨i, hi, hri, hai, hpass, -, j, L, hsuf, hcount⟩ := hT.pivot
    obtain ⟨f, hf, hfmin, hcases⟩ := suffix_cases hsuf
    have hfl : f < m.sorted.length := by
      by_contra hge
      rw [show rAt r f = 0 by simp [rAt, List.getD_eq_getElem?_getD, List.getElem?_eq_none (show r.length ≤ f by omega)]] at hf
      omega
    have hfrel : f ∈ rel m.sorted r := relevant_mem.2 ⟨hfl, hf⟩
    have hnn : 0 ≤ clockSum m.sorted r (Function.update a i (a i - 1)) := by
      rcases hpass with h1 | ⟨-, h1⟩ <;> linarith
    refine le_antisymm ?_ ?_
    · -- the ascending auction makes no more deals
      by_contra hlt
      have hsd : ∀ l < m.sorted.length, (d + 1) * rAt r l ≤ s l := fun l hl =>
        le_trans (Nat.mul_le_mul_right _ (by omega)) (hle' l hl)
      rcases hT.outside with ⟨K, hkK, -, -, haK⟩ | ⟨hnp, -⟩
      · have := hmax K (fun i _ => (haK i).ge)
        omega
      · have hneg : clockSum m.sorted r a < 0 := by
          by_contra hge
          rcases lt_or_eq_of_le (not_lt.1 hge) with h1 | h1
          · exact hnp (Or.inl h1)
          · exact hnp (Or.inr ⟨rfl, h1.symm⟩)
        obtain ⟨c, hc, hend⟩ := he
        obtain ⟨hcrel, hcmax⟩ := mainOf_ok hne hc
        obtain ⟨hcl, hcp⟩ := relevant_mem.1 hcrel
        have hsc : 0 < s c := lt_of_lt_of_le (Nat.mul_pos (by omega) hcp) (hsd c hcl)
        have hge0 : 0 ≤ clockSum m.sorted r (Function.update s c (s c - 1)) := by
          rcases hend with ⟨h0, -⟩ | ⟨-, h1, -⟩
          · omega
          · exact h1
        -- the state of trade reduction is below the state after the last raise
        have hbelow : ∀ l < m.sorted.length, a l ≤ Function.update s c (s c - 1) l := by
          intro l hl
          have hal : a l ≤ (d + 1) * rAt r l := hT.leD l
          by_cases hlc : l = c
          · subst hlc
            rw [Function.update_self]
            by_contra hcon
            have hsl := hsd l hl
            have hseq : s l = (d + 1) * rAt r l := by omega
            have hal' : a l = (d + 1) * rAt r l := by omega
            -- all ratios are equal, so the chosen category is the first one
            have hfl' : l = f := by
              by_contra hlf
              have hfl2 : f < l := lt_of_le_of_ne (hfmin l hcp) (Ne.symm hlf)
              have h1 := mainOf_first hne hc f hfrel hfl2
              have h2 := Nat.mul_le_mul_right (rAt r l) (hsd f hfl)
              rw [hseq] at h1
              have : (d + 1) * rAt r f * rAt r l = (d + 1) * rAt r l * rAt r f := by ring
              omega
            subst hfl'
            rcases hcases with ⟨-, hall⟩ | ⟨hlt2, hall⟩
            · have : ∀ x < m.sorted.length, (d + 1) * rAt r x ≤ a x := by
                intro x hx
                have h1 := hcount l
                have h2 := hcount x
                rw [hall] at h1 h2
                have h3 : (j + 1) * rAt r l = (d + 1) * rAt r l := by rw [← hal', ← h1]; ring
                have h4 : j + 1 = d + 1 := Nat.eq_of_mul_eq_mul_right hcp h3
                rw [← h2, ← h4]; exact le_of_eq (by ring)
              have := hmax (d + 1) this
              omega
            · have h1 := hcount l
              have h5 : (d + 1) * rAt r l < (j + 1) * rAt r l := by
                rw [← hal', ← h1]
                have : (j + 1) * rAt r l = j * rAt r l + rAt r l := by ring
                omega
              have h6 : d + 1 < j + 1 := Nat.lt_of_mul_lt_mul_right h5
              have : ∀ x < m.sorted.length, j * rAt r x ≤ a x := fun x _ => by rw [← hcount x]; omega
              have := hmax j this
              omega
          · rw [Function.update_of_ne hlc]
            exact le_trans hal (hsd l hl)
        have := clockSum_antitone h' hv hbelow
        linarith
    · -- nor fewer
      by_contra hlt
      have hex : ∃ l < m.sorted.length, s l < d * rAt r l := by
        by_contra hcon
        push Not at hcon
        have := hmax' d hcon
        omega
      obtain ⟨l, hl, hsl⟩ := hex
      have hlr : 0 < rAt r l := by
        rcases Nat.eq_zero_or_pos (rAt r l) with h0 | h0
        · rw [h0] at hsl; omega
        · exact h0
      have hlrel : l ∈ rel m.sorted r := relevant_mem.2 ⟨hl, hlr⟩
      have hlen : s l < (vAt m.sorted l).length := lt_of_lt_of_le hsl (le_trans (hT.dle l hl) (hT.alen l))
      have hall : ∀ x < m.sorted.length, 0 < rAt r x → s x ≤ d * rAt r x := by
        intro x hx hxr
        have h1 := hinv.touched l hlrel x (relevant_mem.2 ⟨hx, hxr⟩) hlen
        refine Nat.le_of_mul_le_mul_right (c := rAt r l) ?_ hlr
        calc s x * rAt r l ≤ (s l + 1) * rAt r x := h1
          _ ≤ (d * rAt r l) * rAt r x := Nat.mul_le_mul_right _ (by omega)
          _ = d * rAt r x * rAt r l := by ring
      have hfirst : s f + 1 ≤ d * rAt r f := by
        rcases eq_or_lt_of_le (hfmin l hlr) with hfe | hfl2
        · rw [hfe]; omega
        · have h1 := hstrict l hlrel f hfrel hfl2 hlen
          refine Nat.lt_of_mul_lt_mul_right (a := rAt r l) ?_
          calc s f * rAt r l < (s l + 1) * rAt r f := h1
            _ ≤ (d * rAt r l) * rAt r f := Nat.mul_le_mul_right _ (by omega)
            _ = d * rAt r f * rAt r l := by ring
      -- compare the clocks of the categories in use
      have hcmp : clockSum m.sorted r (Function.update a i (a i - 1)) ≤ clockSum m.sorted r s := by
        rw [clockSum_eq h', clockSum_eq h']
        refine Finset.sum_le_sum fun x hx => ?_
        have hx' := Finset.mem_range.1 hx
        rcases Nat.eq_zero_or_pos (rAt r x) with h0 | h0
        · simp [h0]
        · refine mul_le_mul_of_nonneg_left (clock_antitone (sorted_vAt m x) (hv x hx') ?_) (by positivity)
          have hdx := hT.dle x hx'
          by_cases hxi : x = i
          · subst hxi
            rw [Function.update_self]
            rcases hcases with ⟨rfl, -⟩ | ⟨hlt2, -⟩
            · omega
            · -- proper suffix: the number of deals is `j`
              have hjd : d ≤ j := by
                have h1 := hT.dle f hfl
                rw [← hcount f] at h1
                have h2 : d * rAt r f < (j + 1) * rAt r f := by
                  have : (j + 1) * rAt r f = j * rAt r f + rAt r f := by ring
                  omega
                have := Nat.lt_of_mul_lt_mul_right h2
                omega
              have h3 := hcount x
              rw [List.count_cons_self] at h3
              have h4 := Nat.mul_le_mul_right (rAt r x) hjd
              have h5 := hall x hx' h0
              omega
          · rw [Function.update_of_ne hxi]
            exact le_trans (hall x hx' h0) hdx
      have := hinv.neg
      linarith

/-- The state in which trade reduction stops is a state in which the ascending auction stops, with the same prices, when every count before the
last one is 1 and the number of agents of every category is a multiple of its count. -/
theorem reduction_state_reached {m : Market} {r : List ℕ} {k : ℕ} {a : ℕ → ℕ} {p : List ℚ} {d : ℕ} (h : r.length = m.numCategories)
    (hposr : ∀ l < r.length, 0 < rAt r l) (hone : ∀ l, l + 1 < r.length → rAt r l = 1)
    (hdvd : ∀ l < r.length, rAt r l ∣ (vAt m.sorted l).length)
    (hv : ∀ i < m.sorted.length, ∀ v ∈ vAt m.sorted i, -MAX_VALUE ≤ v)
    (hv' : ∀ i < m.sorted.length, ∀ v ∈ vAt m.sorted i, (r.sum : ℚ) * v < MAX_VALUE) (hN : m.numAgents ≤ 2000000)
    (hk : GreedyStop m r 2000000 true k) (hT : TRTrade m r true k a p d) :
    (∃ n, Path m.sorted r n a) ∧ Ending m.sorted r a p := by
  have h' : r.length = m.sorted.length := by rw [m.sorted_length]; exact h
  obtain ⟨i, hi, hri, hai, hpass, hprice, j, L, hsuf, hcount⟩ := hT.pivot
  have hpos : ∃ x ∈ r, 0 < x := ⟨rAt r i, by rw [rAt_eq_getElem (by omega)]; exact List.getElem_mem _, hri⟩
  have hne := rel_ne_nil h hpos
  obtain ⟨hc1, hc2, hc3, hc4⟩ := suffix_counts hsuf
  set y := (i :: L).count i with hy
  have ha1 : ∀ l < i, a l = j * rAt r l := fun l hl => by rw [← hcount l, hc1 l hl]; rfl
  have ha2 : ∀ l, i < l → a l = (j + 1) * rAt r l := fun l hl => by rw [← hcount l, hc2 l hl]; ring
  have ha3 : a i = j * rAt r i + y := by rw [← hcount i]
  have hrel : ∀ l, l ∈ rel m.sorted r ↔ l < m.sorted.length := fun l =>
    ⟨fun hl => (relevant_mem.1 hl).1, fun hl => relevant_mem.2 ⟨hl, hposr l (by omega)⟩⟩
  have hnn : 0 ≤ clockSum m.sorted r (Function.update a i (a i - 1)) := by
    rcases hpass with h1 | ⟨-, h1⟩ <;> linarith
  -- the sum of the clocks is negative
  have hneg : clockSum m.sorted r a < 0 := by
    rcases hT.outside with ⟨K, hkK, hKav, hKall, haK⟩ | ⟨hnp, -⟩
    · by_cases hav : Avail m.sorted r k
      · have hK := hKav hav
        have hstop := (hk.stopped h hN hpos).resolve_left (fun hn => hn hav)
        have hb : (blk m.sorted r k).sum < 0 := by
          by_contra hge
          refine hstop ?_
          unfold Good
          rw [not_or]
          exact ⟨hge, by simp⟩
        refine lt_of_le_of_lt (clockSum_le_blk h' hv hav (fun l _ => ?_)) hb
        rw [haK, hK]
      · have hK : K = k := by
          by_contra hne'
          exact hav (hKall k (by omega))
        unfold Avail at hav
        push Not at hav
        obtain ⟨e, he, hlt⟩ := hav
        have hre := hposr e (by omega)
        refine clockSum_exhausted h' hv' he hre ?_
        obtain ⟨q, hq⟩ := hdvd e (by omega)
        rw [haK, hK, hq]
        rw [hq, Nat.mul_comm (rAt r e)] at hlt
        have := Nat.lt_of_mul_lt_mul_right hlt
        rw [Nat.mul_comm (rAt r e)]
        exact Nat.mul_le_mul_right _ (by omega)
    · by_contra hge
      rcases lt_or_eq_of_le (not_lt.1 hge) with h1 | h1
      · exact hnp (Or.inl h1)
      · exact hnp (Or.inr ⟨rfl, h1.symm⟩)
  constructor
  · refine reach h' hne hv hneg ?_ _ 0 _ Path.start hT.alen rfl
    intro s c has hsl hc hsc
    obtain ⟨hcrel, hcmax⟩ := mainOf_ok hne hc
    have hcfirst := mainOf_first hne hc
    have hcl := (hrel c).1 hcrel
    have hrc := hposr c (by omega)
    have hout : ∀ l, m.sorted.length ≤ l → s l = a l := by
      intro l hl
      have h1 := hsl l
      have h2 := has l
      have h3 : (vAt m.sorted l).length = 0 := by
        unfold vAt
        rw [List.getD_eq_getElem?_getD, List.getElem?_eq_none (by simpa using hl)]
        rfl
      omega
    rcases lt_trichotomy c i with hci | hci | hci
    · exfalso
      have h1 := hcmax i ((hrel i).2 hi)
      rw [hsc, ha1 c hci] at h1
      have h2 : s i * rAt r c ≤ j * rAt r i * rAt r c := by
        calc s i * rAt r c ≤ j * rAt r c * rAt r i := h1
          _ = j * rAt r i * rAt r c := by ring
      have h3 := Nat.le_of_mul_le_mul_right h2 hrc
      have h4 := has i
      omega
    · subst hci
      funext l
      by_cases hl : l < m.sorted.length
      · refine le_antisymm ?_ (has l)
        rcases lt_trichotomy l c with hlc | hlc | hlc
        · have h1 := hcfirst l ((hrel l).2 hl) hlc
          have hrl := hone l (by omega)
          rw [hsc, ha3, hrl] at h1
          have h2 : s l * rAt r c < (j + 1) * rAt r c := by
            have : (j + 1) * rAt r c = j * rAt r c + rAt r c := by ring
            omega
          have h3 := Nat.lt_of_mul_lt_mul_right h2
          rw [ha1 l hlc, hrl]
          omega
        · subst hlc; exact hsc.le
        · have h1 := hcmax l ((hrel l).2 hl)
          have hrc1 := hone c (by omega)
          rw [hsc, ha3, hrc1] at h1
          have hy1 : y = 1 := by omega
          rw [ha2 l hlc]
          rw [hy1] at h1
          simpa using h1
      · exact hout l (by omega)
    · exfalso
      have h1 := hcfirst i ((hrel i).2 hi) hci
      rw [hsc, ha2 c hci] at h1
      have h2 : s i * rAt r c < (j + 1) * rAt r i * rAt r c := by
        calc s i * rAt r c < (j + 1) * rAt r c * rAt r i := h1
          _ = (j + 1) * rAt r i * rAt r c := by ring
      have h3 := Nat.lt_of_mul_lt_mul_right h2
      have hri1 := hone i (by omega)
      have h4 := has i
      rw [hri1] at h3 ha3
      omega
  · refine ⟨i, mainOf_of ((hrel i).2 hi) (fun l hl => ?_) (fun l hl hli => ?_), Or.inr ⟨by omega, hnn, ?_⟩⟩
    · rcases lt_trichotomy l i with hli | hli | hli
      · rw [ha1 l hli, ha3]
        have : j * rAt r l * rAt r i = j * rAt r i * rAt r l := by ring
        rw [this]
        exact Nat.mul_le_mul_right _ (by omega)
      · subst hli; exact le_refl _
      · have hl' := (hrel l).1 hl
        have hri1 := hone i (by omega)
        have hy1 : y = 1 := by omega
        rw [ha2 l hli, ha3, hri1, hy1]
        simp
    · have hrl := hposr l (by have := (hrel l).1 hl; omega)
      rw [ha1 l hli, ha3]
      have : j * rAt r l * rAt r i = j * rAt r i * rAt r l := by ring
      rw [this]
      exact Nat.mul_lt_mul_of_pos_right (by omega) hrl
    · -- the prices
      have hml : (mkPrices m.sorted a).length = m.sorted.length := by simp [mkPrices]
      have hri' : (rAt r i : ℚ) ≠ 0 := by exact_mod_cast hri.ne'
      have hbal : p.getD i 0 = balPrice m.sorted r a i := by
        have hb := hT.bal
        rw [recipeSum_eq_sum h' hT.plen, ← Finset.add_sum_erase _ _ (Finset.mem_range.2 hi)] at hb
        have hcs := clockSum_eq h' (s := a)
        rw [← Finset.add_sum_erase _ _ (Finset.mem_range.2 hi)] at hcs
        have heq : ∑ x ∈ (Finset.range m.sorted.length).erase i, (rAt r x : ℚ) * p.getD x 0
            = ∑ x ∈ (Finset.range m.sorted.length).erase i, (rAt r x : ℚ) * clock (vAt m.sorted x) (a x) :=
          Finset.sum_congr rfl fun x hx => by
            rw [hprice x (Finset.mem_range.1 (Finset.mem_of_mem_erase hx)) (Finset.ne_of_mem_erase hx)]
        rw [heq] at hb
        unfold balPrice
        rw [eq_div_iff hri', hcs]
        linarith
      refine List.ext_getElem (by rw [List.length_set, hml, hT.plen]) fun l h1 h2 => ?_
      rw [hT.plen] at h1
      rw [List.getElem_set]
      split_ifs with hil
      · subst hil
        rw [← hbal, List.getD_eq_getElem?_getD, List.getElem?_eq_getElem (by rw [hT.plen]; exact hi)]
        rfl
      · have := hprice l h1 (Ne.symm hil)
        rw [List.getD_eq_getElem?_getD, List.getElem?_eq_getElem (by rw [hT.plen]; exact h1)] at this
        simp only [Option.getD_some] at this
        rw [this]
        simp [mkPrices]

/-- **C68**. When the recipe is `(1,…,1,x)` and the size of every category is a multiple of its count — in particular for every recipe of
ones —, the ascending auction and trade reduction by external competition give the same outcome: the same agents, prices and number of deals, or no
deal in both. -/
theorem sbb_same_outcome {m : Market} {c x : ℕ} {fuel N : ℕ} {t t' : TradeWithSinglePrice} (hx : 0 < x)
    (hdvd : ∀ i (hi : i < m.categories.length), (List.replicate c 1 ++ [x]).getD i 0 ∣ m.categories[i].size)
    (hlow : ∀ c ∈ m.categories, ∀ v ∈ c.values, -MAX_VALUE ≤ v) (hhigh : ∀ cat ∈ m.categories, ∀ v ∈ cat.values, ((c + x : ℕ) : ℚ) * v < MAX_VALUE)
    (hN : m.numAgents ≤ 2000000) (ht : tradeReduction m (List.replicate c 1 ++ [x]) = .ok t)
    (ht' : auction m (List.replicate c 1 ++ [x]) fuel N = .ok (some t')) :
    t' = t ∨ (t.numOfDeals = 0 ∧ t'.numOfDeals = 0) := by
  have hnum := sbb_same_number_of_deals hlow hN ht ht'
  set r := List.replicate c 1 ++ [x] with hr
  obtain ⟨h, hcat, hpos⟩ := auction_ok_inv ht'
  have h' : r.length = m.sorted.length := by rw [m.sorted_length]; exact h
  have hlen : r.length = c + 1 := by simp [hr]
  have hone : ∀ l, l + 1 < r.length → rAt r l = 1 := by
    intro l hl
    rw [rAt_eq_getElem (by omega)]
    simp only [hr]
    rw [List.getElem_append_left (by simp; omega)]
    simp
  have hlast : rAt r c = x := by
    rw [rAt_eq_getElem (by omega)]
    simp [hr]
  have hposr : ∀ l < r.length, 0 < rAt r l := by
    intro l hl
    rcases Nat.lt_or_ge (l + 1) r.length with h1 | h1
    · rw [hone l h1]; exact one_pos
    · rw [show l = c by omega, hlast]; exact hx
  have hvm : ∀ i < m.sorted.length, ∀ v ∈ vAt m.sorted i, ∃ cat ∈ m.categories, v ∈ cat.values := by
    intro i hi v hv
    have hi' : i < m.categories.length := by rw [m.sorted_length] at hi; exact hi
    rw [vAt_sorted, mem_sortDesc, vAt_eq_getElem hi'] at hv
    exact ⟨_, List.getElem_mem hi', hv⟩
  have hsum : r.sum = c + x := by simp [hr]
  obtain ⟨k, hk, hopt, hres⟩ := tr_outcome hpos hlow ht
  rcases hres with ⟨q, rfl, hc⟩ | ⟨a, p, d, rfl, hT, hmax⟩
  · exact Or.inr ⟨rfl, hnum⟩
  · left
    have hdv : ∀ l < r.length, rAt r l ∣ (vAt m.sorted l).length := by
      intro l hl
      have hl' : l < m.categories.length := by unfold Market.numCategories at h; omega
      have := hdvd l hl'
      rw [vAt_sorted, sortDesc_length, vAt_eq_getElem hl']
      exact this
    obtain ⟨⟨n, hp⟩, he⟩ := reduction_state_reached h hposr hone hdv
      (fun i hi v hv => by obtain ⟨cat, h1, h2⟩ := hvm i hi v hv; exact hlow cat h1 v h2)
      (fun i hi v hv => by obtain ⟨cat, h1, h2⟩ := hvm i hi v hv; rw [hsum]; exact hhigh cat h1 v h2) hN hk hT
    obtain ⟨d', h1, h2, h3⟩ := auction_of_ending h hcat hpos hp he
    have hd : d' = d := le_antisymm (hmax d' h1) (h2 d hT.dle)
    subst hd
    obtain ⟨n', h5⟩ := auction_mono ht'
    have h4 := h3 (n + 1 + n') N (by omega)
    have h5 := h5 (n + 1 + n') N (by omega)
    rw [h4] at h5
    exact (Option.some.inj (Except.ok.inj h5)).symm

end Auctions.Props
