import Verif.Proofs.Ascending
import Mathlib.Algebra.BigOperators.Ring.Finset

set_option autoImplicit false

/-! # Consequences of an outcome of the ascending auction -/

namespace Auctions

open Spec

namespace Ascending

theorem auction_ok_inv {m : Market} {r : List ℕ} {fuel N : ℕ} {t} (h : auction m r fuel N = .ok (some t)) :
    r.length = m.numCategories ∧ m.categories ≠ [] ∧ ∃ x ∈ r, 0 < x := by
  by_cases hl : r.length = m.numCategories
  swap
  · simp [auction, hl] at h
  by_cases hc : m.categories = []
  · have : m.optimalTrade r N = .error .valueError := by
      simp [Market.optimalTrade, hl, Market.clone, hc, Market.init, bind, Except.bind]
    simp [auction, hl, this, bind, Except.bind] at h
  refine ⟨hl, hc, ?_⟩
  by_contra hno
  push Not at hno
  have hrel : relevantCategoryIndices m r = [] := by
    unfold relevantCategoryIndices
    rw [List.filter_eq_nil_iff]
    intro i hi
    simp only [List.mem_range] at hi
    rw [recipeAt_eq, rAt_eq_getElem (by omega)]
    have := hno r[i] (List.getElem_mem _)
    simp only [gt_iff_lt, decide_eq_true_eq, not_lt]; omega
  obtain ⟨k, -, hk⟩ := optimalTrade_eq hl hc N true
  simp only [auction, hl, hk, bind, Except.bind, Market.clone_eq hc, hrel] at h
  cases fuel with
  | zero => simp [loop] at h
  | succ fuel => simp [loop, pyMaxBy, bind, Except.bind] at h

theorem outcome_of_ok {m : Market} {r : List ℕ} {fuel N : ℕ} {t} (h : auction m r fuel N = .ok (some t)) :
    Outcome m.sorted r t := by
  obtain ⟨h1, h2, h3⟩ := auction_ok_inv h
  rcases auction_spec h1 h2 h3 fuel N with ⟨h4, -⟩ | ⟨t', h4, h5⟩
  · rw [h] at h4; simp at h4
  · rw [h] at h4; simp only [Except.ok.injEq, Option.some.injEq] at h4; rw [h4]; exact h5

/-- An ending is either empty in all relevant categories or balanced. -/
theorem Ending.cases {cs : List AgentCategory} {r : List ℕ} (h : r.length = cs.length) (hne : rel cs r ≠ [])
    {n : ℕ} {s : ℕ → ℕ} (hp : Path cs r n s) {p : List ℚ} (he : Ending cs r s p) :
    p.length = cs.length ∧
    (((∀ i ∈ rel cs r, s i = 0) ∧ p = mkPrices cs s) ∨
    (∃ c ∈ rel cs r, s c ≠ 0 ∧ (∀ j ∈ rel cs r, s j * rAt r c ≤ s c * rAt r j) ∧ recipeSum r p = 0 ∧
      (∀ i, i < cs.length → i ≠ c → p.getD i 0 = clock (vAt cs i) (s i)) ∧
      clock (vAt cs c) (s c) < p.getD c 0 ∧ p.getD c 0 ≤ clock (vAt cs c) (s c - 1))) := by
  have hinv := (hp.inv h hne).1
  obtain ⟨c, hc, hend⟩ := he
  obtain ⟨hcm, harg⟩ := mainOf_ok hne hc
  obtain ⟨hcl, hcp⟩ := relevant_mem.1 hcm
  rcases hend with ⟨h0, rfl⟩ | ⟨h0, hge, rfl⟩
  · refine ⟨mkPrices_length _ _, Or.inl ⟨fun i hi => ?_, rfl⟩⟩
    have := harg i hi
    rw [h0, Nat.zero_mul] at this
    have := (Nat.mul_eq_zero.1 (Nat.le_zero.1 this))
    omega
  · refine ⟨by simp [mkPrices_length], Or.inr ⟨c, hcm, h0, harg, ?_, ?_, ?_, ?_⟩⟩
    · have hrg : r[c]? = some (rAt r c) := by
        rw [rAt_eq_getElem (by omega), List.getElem?_eq_getElem (by omega)]
      have hrc : (rAt r c : ℚ) ≠ 0 := by exact_mod_cast hcp.ne'
      rw [recipeSum_set hrg (mkPrices_get hcl)]
      unfold balPrice clockSum
      field_simp
      ring
    · intro i hi hic
      rw [← mkPrices_getD hi]
      simp [Ne.symm hic]
    all_goals
      have hset : ((mkPrices cs s).set c (balPrice cs r s c)).getD c 0 = balPrice cs r s c := by
        simp [mkPrices_length, hcl]
      have hrc : (0 : ℚ) < rAt r c := by exact_mod_cast hcp
      rw [hset]
      unfold balPrice
    · rw [lt_div_iff₀ hrc]
      have := hinv.neg
      linarith
    · rw [div_le_iff₀ hrc]
      rw [clockSum_update h hcl] at hge
      linarith

theorem clock_of_lt {V : List ℚ} {s : ℕ} (h : s < V.length) : clock V s = V[s] := by simp [clock, h]

theorem clock_of_ge {V : List ℚ} {s : ℕ} (h : V.length ≤ s) : clock V s = -MAX_VALUE := by simp [clock, h]

theorem clock_le_of_mem_take {V : List ℚ} (hV : SortedDesc V) (hb : ∀ v ∈ V, -MAX_VALUE ≤ v) {s : ℕ} {v : ℚ}
    (hv : v ∈ V.take s) : clock V s ≤ v := by
  by_cases hs : s < V.length
  · rw [clock_of_lt hs]
    obtain ⟨j, hj, rfl⟩ := List.getElem_of_mem hv
    simp only [List.getElem_take]
    simp only [List.length_take] at hj
    apply hV.getElem_ge; omega
  · rw [clock_of_ge (by omega)]
    exact hb v (List.mem_of_mem_take hv)

theorem le_clock_of_mem_drop {V : List ℚ} (hV : SortedDesc V) {s : ℕ} {v : ℚ} (hv : v ∈ V.drop s) : v ≤ clock V s := by
  obtain ⟨j, hj, rfl⟩ := List.getElem_of_mem hv
  simp only [List.length_drop] at hj
  rw [clock_of_lt (by omega)]
  simp only [List.getElem_drop]
  apply hV.getElem_ge; omega

/-- Prices separate the agents that remain from those that left. -/
theorem separation {cs : List AgentCategory} {r : List ℕ} (h : r.length = cs.length) (hne : rel cs r ≠ [])
    (hs : ∀ i, SortedDesc (vAt cs i)) {n : ℕ} {s : ℕ → ℕ} (hp : Path cs r n s) {p : List ℚ} (he : Ending cs r s p)
    {i : ℕ} (hi : i < cs.length) :
    (∀ v ∈ (vAt cs i).drop (s i), v ≤ p.getD i 0) ∧
    ((∀ v ∈ vAt cs i, -MAX_VALUE ≤ v) → ∀ v ∈ (vAt cs i).take (s i), p.getD i 0 ≤ v) := by
  have hinv := (hp.inv h hne).1
  rcases he.cases h hne hp with ⟨-, ⟨-, rfl⟩ | ⟨c, hcm, h0, -, -, hoth, hc1, hc2⟩⟩
  · rw [mkPrices_getD hi]
    exact ⟨fun v hv => le_clock_of_mem_drop (hs i) hv, fun hb v hv => clock_le_of_mem_take (hs i) hb hv⟩
  · by_cases hic : i = c
    · subst hic
      refine ⟨fun v hv => le_trans (le_clock_of_mem_drop (hs i) hv) hc1.le, fun hb v hv => le_trans hc2 ?_⟩
      have hlt : s i - 1 < (vAt cs i).length := by have := hinv.le i; omega
      rw [clock_of_lt hlt]
      obtain ⟨j, hj, rfl⟩ := List.getElem_of_mem hv
      simp only [List.getElem_take]
      simp only [List.length_take] at hj
      apply (hs i).getElem_ge; omega
    · rw [hoth i hi hic]
      exact ⟨fun v hv => le_clock_of_mem_drop (hs i) hv, fun hb v hv => clock_le_of_mem_take (hs i) hb hv⟩

theorem sorted_vAt (m : Market) (i : ℕ) : SortedDesc (vAt m.sorted i) := by rw [vAt_sorted]; exact sortDesc_sorted _

/-- If the sum of the clocks is below the value of block `k`, at least `k` deals remain. -/
theorem deals_lower_of {cs : List AgentCategory} {r : List ℕ} (h : r.length = cs.length)
    (hs : ∀ i, SortedDesc (vAt cs i)) {s : ℕ → ℕ}
    (htouched : ∀ i ∈ rel cs r, ∀ j ∈ rel cs r, s i < (vAt cs i).length → s j * rAt r i ≤ (s i + 1) * rAt r j) {d : ℕ}
    (hmax : ∀ e, (∀ i < cs.length, e * rAt r i ≤ s i) → e ≤ d) {k : ℕ}
    (hav : Avail cs r k) (hgood : clockSum cs r s < (blk cs r k).sum) : k ≤ d := by
  by_contra hlt
  have hlt : d < k := not_le.1 hlt
  have : ¬ ∀ i < cs.length, k * rAt r i ≤ s i := fun hh => by have := hmax k hh; omega
  push Not at this
  obtain ⟨i, hi, hsi⟩ := this
  have hrpos : 0 < rAt r i := by
    rcases Nat.eq_zero_or_pos (rAt r i) with h0 | h0
    · rw [h0] at hsi; omega
    · exact h0
  have him : i ∈ rel cs r := relevant_mem.2 ⟨hi, hrpos⟩
  have hlen : s i < (vAt cs i).length := by
    have := hav i hi
    have h1 : k * rAt r i ≤ (k + 1) * rAt r i := Nat.mul_le_mul_right _ (by omega)
    omega
  have hall : ∀ j ∈ rel cs r, s j ≤ k * rAt r j := by
    intro j hj
    have h1 := htouched i him j hj hlen
    have h2 : (s i + 1) * rAt r j ≤ k * rAt r i * rAt r j := Nat.mul_le_mul_right _ hsi
    have h3 : s j * rAt r i ≤ k * rAt r j * rAt r i := by
      calc s j * rAt r i ≤ _ := h1
        _ ≤ _ := h2
        _ = _ := by ring
    exact Nat.le_of_mul_le_mul_right h3 hrpos
  rw [clockSum_eq h, blk_sum h] at hgood
  have hle : ∑ i ∈ Finset.range cs.length, (seg (vAt cs i) (rAt r i) k).sum
      ≤ ∑ i ∈ Finset.range cs.length, (rAt r i : ℚ) * clock (vAt cs i) (s i) := by
    refine Finset.sum_le_sum fun j hj => ?_
    have hj' := Finset.mem_range.1 hj
    rcases Nat.eq_zero_or_pos (rAt r j) with h0 | h0
    · simp [h0, seg]
    · have hsj := hall j (relevant_mem.2 ⟨hj', h0⟩)
      have hlenj := hav j hj'
      have hk1 : (k + 1) * rAt r j = k * rAt r j + rAt r j := by ring
      have hsl : s j < (vAt cs j).length := by omega
      have hl := seg_length hlenj
      have hb : ∀ x ∈ seg (vAt cs j) (rAt r j) k, x ≤ clock (vAt cs j) (s j) := by
        intro x hx
        rw [clock_of_lt hsl]
        obtain ⟨t, ht, rfl⟩ := List.getElem_of_mem hx
        rw [seg_getElem]
        apply (hs j).getElem_ge; omega
      have := List.sum_le_card_nsmul _ _ hb
      rw [hl, nsmul_eq_mul] at this
      exact this
  linarith

/-- The clock loop never gets below all blocks of the optimal trade: at least `k - 1` deals remain. -/
theorem deals_lower {cs : List AgentCategory} {r : List ℕ} (h : r.length = cs.length)
    (hs : ∀ i, SortedDesc (vAt cs i)) {s : ℕ → ℕ} (hinv : Inv cs r s) {d : ℕ}
    (hmax : ∀ e, (∀ i < cs.length, e * rAt r i ≤ s i) → e ≤ d) {k : ℕ}
    (hav : Avail cs r k) (hgood : 0 ≤ (blk cs r k).sum) : k ≤ d :=
  deals_lower_of h hs hinv.touched hmax hav (hinv.neg.trans_le hgood)

/-- If the final prices are balanced, the remaining agents can only form blocks of non-negative gain. -/
theorem blocks_nonneg {cs : List AgentCategory} {r : List ℕ} (h : r.length = cs.length) {s : ℕ → ℕ} {p : List ℚ}
    (hpl : p.length = cs.length) (hbal : recipeSum r p = 0)
    (hir : ∀ i < cs.length, 0 < rAt r i → ∀ v ∈ (vAt cs i).take (s i), p.getD i 0 ≤ v)
    (hle : ∀ i, s i ≤ (vAt cs i).length) {j : ℕ} (hav : ∀ i < cs.length, (j + 1) * rAt r i ≤ s i) :
    0 ≤ (blk cs r j).sum := by
  rw [blk_sum h, ← hbal, recipeSum_eq_sum h hpl]
  refine Finset.sum_le_sum fun i hi => ?_
  have hi' := Finset.mem_range.1 hi
  rcases Nat.eq_zero_or_pos (rAt r i) with h0 | h0
  · simp [h0, seg]
  · have hl : (seg (vAt cs i) (rAt r i) j).length = rAt r i := seg_length (le_trans (hav i hi') (hle i))
    have hb : ∀ x ∈ seg (vAt cs i) (rAt r i) j, p.getD i 0 ≤ x := by
      intro x hx
      refine hir i hi' h0 x ?_
      obtain ⟨t, ht, rfl⟩ := List.getElem_of_mem hx
      rw [seg_getElem, List.mem_take_iff_getElem]
      have := hav i hi'
      have := hle i
      have hk1 : (j + 1) * rAt r i = j * rAt r i + rAt r i := by ring
      exact ⟨j * rAt r i + t, by omega, rfl⟩
    have := List.card_nsmul_le_sum _ _ hb
    rw [hl, nsmul_eq_mul] at this
    exact this

/-- Average of a prefix of a descending list. -/
theorem avg_prefix {l : List ℚ} (hl : SortedDesc l) {n : ℕ} (hn : n ≤ l.length) :
    (n : ℚ) * l.sum ≤ l.length * (l.take n).sum := by
  rcases Nat.lt_or_ge n l.length with hlt | hge
  · have h1 : ∀ v ∈ l.take n, l[n] ≤ v := by
      intro v hv
      obtain ⟨j, hj, rfl⟩ := List.getElem_of_mem hv
      simp only [List.getElem_take]
      simp only [List.length_take] at hj
      apply hl.getElem_ge; omega
    have h2 : ∀ v ∈ l.drop n, v ≤ l[n] := by
      intro v hv
      obtain ⟨j, hj, rfl⟩ := List.getElem_of_mem hv
      simp only [List.getElem_drop]
      apply hl.getElem_ge; omega
    have hT := List.card_nsmul_le_sum _ _ h1
    have hD := List.sum_le_card_nsmul _ _ h2
    rw [List.length_take, min_eq_left hn, nsmul_eq_mul] at hT
    rw [List.length_drop, nsmul_eq_mul, Nat.cast_sub hn] at hD
    have hsum : l.sum = (l.take n).sum + (l.drop n).sum := by rw [← List.sum_append, List.take_append_drop]
    have hn0 : (0 : ℚ) ≤ n := by exact_mod_cast Nat.zero_le n
    have hd0 : (0 : ℚ) ≤ (l.length : ℚ) - n := by
      have : (n : ℚ) ≤ l.length := by exact_mod_cast hn
      linarith
    have e1 := mul_le_mul_of_nonneg_left hD hn0
    have e2 := mul_le_mul_of_nonneg_left hT hd0
    rw [hsum]
    nlinarith
  · have : n = l.length := le_antisymm hn hge
    subst this
    simp

/-- With shifted values, no prefix beats the prefix of the agents above the price. -/
theorem prefix_shift {V : List ℚ} {s : ℕ} {p : ℚ} (hs : s ≤ V.length) (hk : ∀ v ∈ V.take s, p ≤ v)
    (hd : ∀ v ∈ V.drop s, v ≤ p) {n : ℕ} (hn : n ≤ V.length) :
    (V.take n).sum - n * p ≤ (V.take s).sum - s * p := by
  rcases le_total n s with hns | hns
  · have e : V.take s = V.take n ++ (V.take s).drop n := by
      conv_lhs => rw [← List.take_append_drop n (V.take s)]
      rw [List.take_take, min_eq_left hns]
    have h1 : ∀ v ∈ (V.take s).drop n, p ≤ v := fun v hv => hk v (List.mem_of_mem_drop hv)
    have h2 := List.card_nsmul_le_sum _ _ h1
    rw [List.length_drop, List.length_take, min_eq_left hs, nsmul_eq_mul, Nat.cast_sub hns] at h2
    rw [e, List.sum_append]
    linarith
  · have e : V.take n = V.take s ++ (V.drop s).take (n - s) := by
      conv_lhs => rw [show n = s + (n - s) by omega, List.take_add]
    have h1 : ∀ v ∈ (V.drop s).take (n - s), v ≤ p := fun v hv => hd v (List.mem_of_mem_take hv)
    have h2 := List.sum_le_card_nsmul _ _ h1
    rw [List.length_take, List.length_drop, min_eq_left (by omega), nsmul_eq_mul, Nat.cast_sub hns] at h2
    rw [e, List.sum_append]
    linarith

end Ascending

end Auctions
