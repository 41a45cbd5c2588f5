import Verif.Model.McAfee
import Verif.Proofs.Ascending
import Verif.Proofs.AscendingOutcome

set_option autoImplicit false

/-! # Closed form of `mcafeeTradeReduction` -/

namespace Auctions

open Spec Ascending

namespace McAfee

/-- Categories holding, of each category, the agents of ranks `j, …, k-1`. -/
def segCats (cs : List AgentCategory) (j k : ℕ) : List AgentCategory :=
  cs.map (fun c => { c with values := (c.values.take k).drop j })

theorem segCats_zero (cs : List AgentCategory) (k : ℕ) : segCats cs 0 k = (mkMarket cs (fun _ => k)).categories := by
  simp only [segCats, mkMarket, List.drop_zero]
  rw [List.mapIdx_eq_zipIdx_map]
  apply List.ext_getElem <;> simp

theorem segCats_full (m : Market) (k : ℕ) : m.emptyAgentCategories = segCats m.sorted k k := by
  simp only [Market.emptyAgentCategories, segCats, Market.sorted, List.map_map]
  apply List.map_congr_left
  intro c _
  simp [AgentCategory.clone, AgentCategory.init, sortDesc]

theorem append_seg {V : List ℚ} (hV : SortedDesc V) {j k : ℕ} (hj : j < k) (hk : k ≤ V.length) :
    sortDesc ((V.take k).drop (j + 1) ++ seg V 1 j) = (V.take k).drop j := by
  refine eq_of_perm_of_sorted ((sortDesc_perm _).trans ?_) (sortDesc_sorted _) ((hV.take k).drop j)
  have hlt : j < (V.take k).length := by simp; omega
  rw [List.drop_eq_getElem_cons hlt]
  have : seg V 1 j = [V[j]] := by
    simp [seg, List.take_one_drop_eq_of_lt_length (show j < V.length by omega)]
  rw [this]
  simp only [List.getElem_take]
  exact List.perm_append_comm

theorem appendEach_blk {cs : List AgentCategory} (hs : ∀ c ∈ cs, SortedDesc c.values) {j k : ℕ} (hj : j < k)
    (hk : ∀ c ∈ cs, k ≤ c.values.length) {r : List ℕ} (hr : r = List.replicate cs.length 1) :
    appendEach (segCats cs (j + 1) k) (blk cs r j) = .ok (segCats cs j k) := by
  induction cs generalizing r with
  | nil => subst hr; rfl
  | cons c cs ih =>
    rw [List.length_cons, List.replicate_succ] at hr
    subst hr
    have h1 := append_seg (hs c (by simp)) hj (hk c (by simp))
    have hlt : j < c.values.length := by have := hk c (by simp); omega
    have hseg : seg c.values 1 j = [c.values[j]] := by
      simp [seg, List.take_one_drop_eq_of_lt_length hlt]
    have h2 := ih (fun c hc => hs c (by simp [hc])) (fun c hc => hk c (by simp [hc])) rfl
    rw [hseg] at h1
    simp only [segCats, List.map_cons, blk, hseg, List.cons_append, List.nil_append, appendEach]
    rw [show cs.map (fun c => { c with values := (c.values.take k).drop (j + 1) }) = segCats cs (j + 1) k from rfl, h2]
    simp only [bind, Except.bind, AgentCategory.append, h1]
    rfl

theorem appendAll_append (l l' : List (List ℚ)) (tr : List AgentCategory) :
    appendAll tr (l ++ l') = (appendAll tr l).bind (fun tr' => appendAll tr' l') := by
  induction l generalizing tr with
  | nil => rfl
  | cons x l ih =>
    simp only [List.cons_append, appendAll, bind, Except.bind]
    cases appendEach tr x with
    | error e => rfl
    | ok v => exact ih v

theorem appendAll_blks {cs : List AgentCategory} (hs : ∀ c ∈ cs, SortedDesc c.values) {j k : ℕ} (hj : j ≤ k)
    (hk : ∀ c ∈ cs, k ≤ c.values.length) {r : List ℕ} (hr : r = List.replicate cs.length 1) :
    appendAll (segCats cs j k) ((List.range j).map (blk cs r)).reverse = .ok (segCats cs 0 k) := by
  induction j with
  | zero => rfl
  | succ j ih =>
    rw [List.range_succ, List.map_append, List.reverse_append]
    simp only [List.map_cons, List.map_nil, List.reverse_cons, List.reverse_nil, List.nil_append, List.cons_append,
      appendAll, appendEach_blk hs (show j < k by omega) hk hr, bind, Except.bind]
    exact ih (by omega)

theorem blk_ones {cs : List AgentCategory} {r : List ℕ} (hr : r = List.replicate cs.length 1) {j : ℕ}
    (hav : Avail cs r j) : blk cs r j = (List.range cs.length).map (fun i => (vAt cs i).getD j 0) := by
  induction cs generalizing r with
  | nil => subst hr; rfl
  | cons c cs ih =>
    rw [List.length_cons, List.replicate_succ] at hr
    subst hr
    have h0 := hav 0 (by simp)
    have hlt : j < c.values.length := by simpa using h0
    have hseg : seg c.values 1 j = [c.values[j]] := by
      simp [seg, List.take_one_drop_eq_of_lt_length hlt]
    rw [blk, hseg, ih rfl hav.tail, List.length_cons, List.range_succ_eq_map]
    simp [hlt]

theorem padEmpty_length (m : Market) : (padEmpty m).categories.length = m.categories.length := by simp [padEmpty]

theorem padEmpty_avail {m : Market} {r : List ℕ} (hr : r = List.replicate m.categories.length 1) :
    Avail (padEmpty m).categories r 0 := by
  intro i hi
  rw [padEmpty_length] at hi
  have : 0 < (vAt (padEmpty m).categories i).length := by
    rw [vAt_eq_getElem (by rw [padEmpty_length]; exact hi)]
    simp only [padEmpty, List.getElem_map]
    split
    · simp [AgentCategory.append]
    · rename_i h; simp only [AgentCategory.size] at h; omega
  subst hr
  simp [rAt, hi]; omega

theorem blk_ones_length {cs : List AgentCategory} {r : List ℕ} (hr : r = List.replicate cs.length 1) {j : ℕ}
    (hav : Avail cs r j) : (blk cs r j).length = cs.length := by simp [blk_ones hr hav]

theorem recipe_ones {r : List ℕ} (h : r.any (fun x => x ≠ 1) = false) : r = List.replicate r.length 1 := by
  refine List.eq_replicate_iff.2 ⟨rfl, fun b hb => ?_⟩
  by_contra hne
  simp only [List.any_eq_false] at h
  exact h b hb (by simpa using hne)

theorem heuristicPrices_eq {c : ℚ} {last : List ℚ} {n : ℕ} (hl : last.length = n) :
    heuristicPrices c last n = .ok ((List.range n).map (fun i => c * (if last.getD i 0 < 0 then -1 else 1))) := by
  unfold heuristicPrices
  have : ∀ l : List ℕ, (∀ i ∈ l, i < last.length) → l.mapM (fun i => do
      let x ← pyGet last i
      (.ok (c * (if x < 0 then -1 else 1)) : Py ℚ)) = .ok (l.map (fun i => c * (if last.getD i 0 < 0 then -1 else 1))) := by
    intro l hl
    induction l with
    | nil => rfl
    | cons i l ih =>
      have hi := hl i (by simp)
      rw [List.mapM_cons, ih (fun j hj => hl j (by simp [hj]))]
      simp [pyGet, hi, bind, Except.bind, pure, Except.pure]
  exact this _ (fun i hi => by rw [hl]; simpa using hi)

/-- The candidate price of the heuristic: average absolute value in the first procurement-set that does not trade. -/
def candidate (m : Market) (r : List ℕ) (k : ℕ) : ℚ :=
  (((blk (padEmpty ⟨dropBlocks m.sorted r k⟩).categories r 0).map (fun x => |x|)).sum) / m.numCategories

/-- Possible outcomes of McAfee's protocol when `k` deals are optimal: `d` deals are made at prices `p`. -/
inductive Result (m : Market) (r : List ℕ) (h : Bool) (k : ℕ) : ℕ → List ℚ → Prop
  | none : k = 0 → Result m r h k 0 (List.replicate m.numCategories 0)
  | full : 0 < k → h = true → isPriceGoodForPs (candidate m r k) (blk m.sorted r (k - 1)) = true →
      Result m r h k k ((List.range m.numCategories).map
        (fun i => candidate m r k * (if (blk m.sorted r (k - 1)).getD i 0 < 0 then -1 else 1)))
  | reduced : 0 < k → (h = true → isPriceGoodForPs (candidate m r k) (blk m.sorted r (k - 1)) = false) →
      Result m r h k (k - 1) (blk m.sorted r (k - 1))

theorem candidate_eq {m : Market} {r : List ℕ} (hr : r = List.replicate m.numCategories 1) (hcat : m.categories ≠ [])
    (k : ℕ) : ∃ ps, (padEmpty ⟨dropBlocks m.sorted r k⟩).getHighestAgents r = .ok (some ps) ∧
      priceCandidate (some ps) = .ok (candidate m r k) := by
  have hl : r.length = m.sorted.length := by rw [m.sorted_length, hr]; simp
  have hlen : (padEmpty ⟨dropBlocks m.sorted r k⟩).categories.length = m.numCategories := by
    rw [padEmpty_length, dropBlocks_length hl, m.sorted_length]
  have hr' : r = List.replicate (padEmpty ⟨dropBlocks m.sorted r k⟩).categories.length 1 := by rw [hlen]; exact hr
  have hav : Avail (padEmpty ⟨dropBlocks m.sorted r k⟩).categories r 0 :=
    padEmpty_avail (by rw [dropBlocks_length hl, m.sorted_length]; exact hr)
  refine ⟨blk (padEmpty ⟨dropBlocks m.sorted r k⟩).categories r 0, ?_, ?_⟩
  · rcases getHighestAgentsLoop_eq (r := r) (cs := (padEmpty ⟨dropBlocks m.sorted r k⟩).categories)
      (by rw [hlen, hl, m.sorted_length]) with ⟨-, he⟩ | ⟨hn, -⟩
    · exact he
    · exact absurd hav hn
  · have hln := blk_ones_length hr' hav
    unfold priceCandidate pyDiv candidate
    simp only [hln, hlen]
    have : (m.numCategories : ℚ) ≠ 0 := by
      have : m.numCategories ≠ 0 := by simp [Market.numCategories, hcat]
      exact_mod_cast this
    rw [if_neg this]

theorem init_top {m : Market} {r : List ℕ} (hr : r = List.replicate m.numCategories 1) (hcat : m.categories ≠ [])
    {d : ℕ} (hd : ∀ c ∈ m.sorted, d ≤ c.values.length) (p : List ℚ) :
    TradeWithSinglePrice.init (segCats m.sorted 0 d) r (some p)
      = .ok ⟨(mkMarket m.sorted (fun _ => d)).categories, r, some p, d⟩ := by
  have hn : 0 < m.numCategories := List.length_pos_iff.2 hcat
  have hrA : ∀ i < m.numCategories, rAt r i = 1 := by intro i hi; subst hr; simp [rAt, hi]
  have hlen : (segCats m.sorted 0 d).length = m.numCategories := by simp [segCats, m.sorted_length]
  have hsz : ∀ i < m.numCategories, (vAt (segCats m.sorted 0 d) i).length = d := by
    intro i hi
    have hi' : i < m.sorted.length := by rw [m.sorted_length]; exact hi
    rw [segCats_zero, vAt_mkMarket, List.length_take, vAt_eq_getElem hi']
    exact min_eq_left (hd _ (List.getElem_mem hi'))
  rcases trade_init_spec (segCats m.sorted 0 d) r (some p) with ⟨h1, -⟩ | ⟨-, e, h1, h2, h3⟩
  · have := h1 0 (by omega)
    rw [hrA 0 hn] at this
    omega
  · rw [h1]
    have : e = d := by
      refine le_antisymm ?_ (h3 d (fun i hi => ?_))
      · have := h2 0 (by omega)
        rw [hrA 0 hn, hsz 0 hn] at this
        omega
      · rw [hlen] at hi
        rw [hrA i hi, hsz i hi]; omega
    rw [this, segCats_zero]

theorem mcafee_eq {m : Market} {r : List ℕ} (hr : r = List.replicate m.numCategories 1) (hcat : m.categories ≠ [])
    (h : Bool) :
    ∃ k d p, GreedyStop m r 2000000 true k ∧
      m.optimalTrade r = .ok (⟨((List.range k).map (blk m.sorted r)).reverse⟩, ⟨dropBlocks m.sorted r k⟩) ∧
      Result m r h k d p ∧
      mcafeeTradeReduction m r h = .ok ⟨(mkMarket m.sorted (fun _ => d)).categories, r, some p, d⟩ := by
  have hl : r.length = m.numCategories := by rw [hr]; simp
  have hr' : r = List.replicate m.sorted.length 1 := by rw [m.sorted_length]; exact hr
  obtain ⟨k, hk, he⟩ := optimalTrade_eq hl hcat 2000000 true
  have hrA : ∀ i < m.sorted.length, rAt r i = 1 := by intro i hi; rw [hr']; simp [rAt, hi]
  have hkl : ∀ c ∈ m.sorted, k ≤ c.values.length := by
    intro c hc
    obtain ⟨i, hi, rfl⟩ := List.getElem_of_mem hc
    rcases Nat.eq_zero_or_pos k with h0 | h0
    · omega
    · have := (hk.taken (k - 1) (by omega)).1 i hi
      rw [hrA i hi, vAt_eq_getElem hi] at this
      omega
  obtain ⟨ps, hps, hcand⟩ := candidate_eq hr hcat k
  have hany : (r.any (fun x => x ≠ 1)) = false := by
    rw [hr, List.any_eq_false]
    intro x hx
    simp [List.mem_replicate] at hx
    simp [hx.2]
  have hfront : mcafeeTradeReduction m r h = (match ((List.range k).map (blk m.sorted r)).reverse with
    | [] => TradeWithSinglePrice.init m.emptyAgentCategories r (some (List.replicate m.numCategories 0))
    | lastPositive :: others =>
      if h ∧ isPriceGoodForPs (if h then candidate m r k else 0) lastPositive then do
        let prices ← heuristicPrices (if h then candidate m r k else 0) lastPositive m.numCategories
        let traders' ← appendAll m.emptyAgentCategories (lastPositive :: others)
        TradeWithSinglePrice.init traders' r (some prices)
      else do
        let traders' ← appendAll m.emptyAgentCategories others
        TradeWithSinglePrice.init traders' r (some lastPositive)) := by
    unfold mcafeeTradeReduction
    simp only [hl, ne_eq, not_true_eq_false, if_false, hany, Bool.false_eq_true, he, bind, Except.bind, hps]
    cases h
    · simp
      rfl
    · simp [hcand]
      rfl
  rcases Nat.eq_zero_or_pos k with hk0 | hk0
  · subst hk0
    refine ⟨0, 0, _, hk, he, Result.none rfl, ?_⟩
    rw [hfront]
    simp only [List.range_zero, List.map_nil, List.reverse_nil]
    rw [segCats_full m 0]
    exact init_top hr hcat hkl _
  · have hsplit : ((List.range k).map (blk m.sorted r)).reverse
        = blk m.sorted r (k - 1) :: ((List.range (k - 1)).map (blk m.sorted r)).reverse := by
      obtain ⟨k', rfl⟩ : ∃ k', k = k' + 1 := ⟨k - 1, by omega⟩
      rw [List.range_succ]; simp
    by_cases hg : h = true ∧ isPriceGoodForPs (candidate m r k) (blk m.sorted r (k - 1)) = true
    · refine ⟨k, k, _, hk, he, Result.full hk0 hg.1 hg.2, ?_⟩
      rw [hfront, hsplit]
      simp only [hg.1, if_true, hg.2, and_self]
      have hbl : (blk m.sorted r (k - 1)).length = m.numCategories := by
        rw [blk_ones_length hr' (hk.taken (k - 1) (by omega)).1, m.sorted_length]
      rw [heuristicPrices_eq hbl, ← hsplit, segCats_full m k, appendAll_blks m.sorted_sorted (le_refl k) hkl hr']
      simp only [bind, Except.bind]
      exact init_top hr hcat hkl _
    · refine ⟨k, k - 1, _, hk, he, Result.reduced hk0 (fun hh => ?_), ?_⟩
      · cases hx : isPriceGoodForPs (candidate m r k) (blk m.sorted r (k - 1))
        · rfl
        · exact absurd ⟨hh, hx⟩ hg
      rw [hfront, hsplit]
      have hkl' : ∀ c ∈ m.sorted, k - 1 ≤ c.values.length := fun c hc => by have := hkl c hc; omega
      have hcond : ¬ (h = true ∧ isPriceGoodForPs (if h = true then candidate m r k else 0) (blk m.sorted r (k - 1)) = true) := by
        rintro ⟨h1, h2⟩
        rw [if_pos h1] at h2
        exact hg ⟨h1, h2⟩
      simp only [if_neg hcond]
      rw [segCats_full m (k - 1), appendAll_blks m.sorted_sorted (le_refl (k - 1)) hkl' hr']
      simp only [bind, Except.bind]
      exact init_top hr hcat hkl' _

theorem mcafee_ok_inv {m : Market} {r : List ℕ} {h : Bool} {t : TradeWithSinglePrice}
    (ht : mcafeeTradeReduction m r h = .ok t) : r = List.replicate m.numCategories 1 ∧ m.categories ≠ [] := by
  by_cases hl : r.length = m.numCategories
  swap
  · simp [mcafeeTradeReduction, hl] at ht
  by_cases ha : r.any (fun x => x ≠ 1) = true
  · simp only [mcafeeTradeReduction, hl, ha] at ht
    simp at ht
  · have hr := recipe_ones (r := r) (by simpa using ha)
    refine ⟨by rw [← hl]; exact hr, ?_⟩
    intro hnil
    simp only [mcafeeTradeReduction, hl, ha] at ht
    simp [Market.optimalTrade, hl, Market.clone, hnil, Market.init, bind, Except.bind] at ht

end McAfee

end Auctions
