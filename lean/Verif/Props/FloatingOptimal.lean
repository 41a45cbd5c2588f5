import Verif.Proofs.FloatingOptimal
import Verif.Props.FloatingDecimals

set_option autoImplicit false

/-!
# C103: the optimal trade in floating-point arithmetic, for arbitrary reports
-/

namespace Auctions.Props

open Auctions Auctions.Spec Auctions.Floating

/-- Whatever the rounding does, `optimal_trade` returns a trade. -/
theorem float_optimal_total (fl : ℚ → ℚ) {m : Market} {r : List ℕ} (hr : r.length = m.numCategories) (hm : m.categories ≠ []) (N : ℕ) (z : Bool) :
    ∃ t rem, Floating.optimalTrade fl m r N z = .ok (t, rem) := by
  obtain ⟨⟨t, rem⟩, h⟩ := optimalTrade_ok fl hr hm N z
  exact ⟨t, rem, h⟩

/-- Whatever the rounding does, the deals follow the recipe, and together with the remaining market they use exactly the agents of the market. -/
theorem float_optimal_conserves {fl : ℚ → ℚ} {m : Market} {r : List ℕ} {N : ℕ} {z : Bool} {t : TradeWithMaterialBalance} {rem : Market}
    (h : Floating.optimalTrade fl m r N z = .ok (t, rem)) :
    ∃ deals : List Deal, t.procurementSets = deals.map List.flatten ∧ (∀ d ∈ deals, Follows r d) ∧
      rem.categories.map AgentCategory.name = m.categories.map AgentCategory.name ∧
      ∀ i, used deals i + ((rem.valueLists.getD i [] : List ℚ) : Multiset ℚ) = ((m.valueLists.getD i [] : List ℚ) : Multiset ℚ) := by
  obtain ⟨hlen, hne⟩ := flOptimal_inv h
  obtain ⟨k, idx, hk, hperm, ho, rfl⟩ := flOptimal_eq h
  have h' : r.length = m.sorted.length := by rw [m.sorted_length]; exact hlen
  refine ⟨idx.map (blkDeal m.sorted r), ?_, ?_, ?_, ?_⟩
  · rw [ho, List.map_map]
    exact List.map_congr_left fun j _ => (blkDeal_flatten _ _ _).symm
  · intro d hd
    obtain ⟨j, hj, rfl⟩ := List.mem_map.1 hd
    exact blkDeal_follows h' (hk.taken j (List.mem_range.1 (hperm.mem_iff.1 hj))).1
  · rw [names_dropBlocks h']
    simp [Market.sorted, AgentCategory.clone, AgentCategory.init]
  · intro i
    have e : used (idx.map (blkDeal m.sorted r)) i = used ((List.range k).map (blkDeal m.sorted r)) i := by
      unfold used
      exact ((hperm.map _).map _).sum_eq
    rw [e, used_blks h']
    have h1 : (Market.valueLists ⟨dropBlocks m.sorted r k⟩).getD i [] = (vAt m.sorted i).drop (k * rAt r i) := vAt_dropBlocks h' k i
    rw [h1, Multiset.coe_add, List.take_append_drop, vAt_sorted, sortDesc_coe]
    rfl

/-- Whatever the rounding does: the deals have nonnegative computed gains, in ascending order. -/
theorem float_optimal_sorted {fl : ℚ → ℚ} {m : Market} {r : List ℕ} {N : ℕ} {z : Bool} {t : TradeWithMaterialBalance} {rem : Market}
    (h : Floating.optimalTrade fl m r N z = .ok (t, rem)) :
    (∀ ps ∈ t.procurementSets, 0 ≤ flSum fl ps ∧ (z = false → 0 < flSum fl ps)) ∧ t.procurementSets.Pairwise (fun a b => flSum fl a ≤ flSum fl b) := by
  obtain ⟨k, idx, hk, hperm, ho, rfl⟩ := flOptimal_eq h
  constructor
  · intro ps hps
    rw [ho] at hps
    obtain ⟨j, hj, rfl⟩ := List.mem_map.1 hps
    have := (hk.taken j (List.mem_range.1 (hperm.mem_iff.1 hj))).2
    unfold FlGood Good at this
    push Not at this
    exact ⟨this.1, fun hz => lt_of_le_of_ne this.1 fun h0 => this.2 h0.symm hz⟩
  · obtain ⟨hlen, hne⟩ := flOptimal_inv h
    unfold Floating.optimalTrade at h
    simp only [hlen, ne_eq, not_true_eq_false, if_false, bind, Except.bind, Market.clone_eq hne] at h
    cases hx : Floating.optimalTradeLoop fl r z N ⟨m.sorted⟩ [] with
    | error e => rw [hx] at h; simp at h
    | ok y =>
      rw [hx] at h
      simp only [Except.ok.injEq, Prod.mk.injEq] at h
      obtain ⟨rfl, -⟩ := h
      have : Std.Total (fun a b : List ℚ => flSum fl a ≤ flSum fl b) := ⟨fun a b => le_total _ _⟩
      have : IsTrans (List ℚ) (fun a b : List ℚ => flSum fl a ≤ flSum fl b) := ⟨fun a b c h1 h2 => le_trans h1 h2⟩
      exact List.pairwise_insertionSort (fun a b : List ℚ => flSum fl a ≤ flSum fl b) _

section
variable {fl : ℚ → ℚ} (hf : Rounding fl) {m : Market} {r : List ℕ} {M k : ℕ} (h : FloatReports m r M k) (hR : r.sum ≤ 2 ^ k)
include hf h hR

/-- No list of deals gains more than the returned trade, up to a small amount for every deal by which they differ. -/
theorem float_optimal_nearly {N : ℕ} {z : Bool} {t : TradeWithMaterialBalance} {rem : Market} (ht : Floating.optimalTrade fl m r N z = .ok (t, rem)) (hN : m.numAgents ≤ N)
    (hpos : ∃ x ∈ r, 0 < x) (deals : List Deal) (hd : Feasible m.valueLists r deals) :
    totalGain deals ≤ t.gainFromTrade + |(deals.length : ℚ) - t.numOfDeals| * (r.sum / 2 ^ k) := by
  obtain ⟨hlen, -⟩ := flOptimal_inv ht
  obtain ⟨j, idx, hk, hperm, ho, rfl⟩ := flOptimal_eq ht
  obtain ⟨hav, hle⟩ := feasible_bound hlen hd
  obtain ⟨e1, e2⟩ := gain_perm hperm ho
  rw [e1, e2]
  exact hle.trans (hk.sum_le hf h hR hlen hN hpos hav)

/-- A deal of the returned trade loses at most a small amount. -/
theorem float_optimal_deal {N : ℕ} {z : Bool} {t : TradeWithMaterialBalance} {rem : Market} (ht : Floating.optimalTrade fl m r N z = .ok (t, rem)) :
    ∀ ps ∈ t.procurementSets, -(r.sum / 2 ^ k : ℚ) ≤ ps.sum := by
  obtain ⟨hlen, -⟩ := flOptimal_inv ht
  obtain ⟨j, idx, hk, hperm, ho, rfl⟩ := flOptimal_eq ht
  intro ps hps
  rw [ho] at hps
  obtain ⟨i, hi, rfl⟩ := List.mem_map.1 hps
  obtain ⟨hav, hg⟩ := hk.taken i (List.mem_range.1 (hperm.mem_iff.1 hi))
  obtain ⟨h2, -⟩ := flSum_blk hf h hR hlen hav
  have h3 : 0 ≤ flSum fl (blk m.sorted r i) := by
    unfold FlGood Good at hg; push Not at hg; exact hg.1
  have := (abs_le.1 h2).2
  linarith

/-- A deal that is still possible in the remaining market gains at most a small amount. -/
theorem float_optimal_remaining {N : ℕ} {z : Bool} {t : TradeWithMaterialBalance} {rem : Market} (ht : Floating.optimalTrade fl m r N z = .ok (t, rem)) (hN : m.numAgents ≤ N)
    (hpos : ∃ x ∈ r, 0 < x) (d : Deal) (hd : Feasible rem.valueLists r [d]) : dealGain d ≤ r.sum / 2 ^ k := by
  obtain ⟨hlen, -⟩ := flOptimal_inv ht
  obtain ⟨j, idx, hk, hperm, ho, rfl⟩ := flOptimal_eq ht
  have h' : r.length = m.sorted.length := by rw [m.sorted_length]; exact hlen
  obtain ⟨hav, hle⟩ := feasible_bound (m := ⟨dropBlocks m.sorted r j⟩) (by simp [Market.numCategories, dropBlocks_length h', h']) hd
  have hav0 := hav 0 (by simp)
  simp only [List.length_singleton, Finset.range_one, Finset.sum_singleton] at hle
  rw [dropBlocks_sorted h'] at hav0 hle
  rw [blk_dropBlocks h'] at hle
  have hk' : ∀ i < m.sorted.length, j * rAt r i ≤ (vAt m.sorted i).length := by
    intro i hi
    cases j with
    | zero => simp
    | succ j => exact (hk.taken j (by omega)).1 i hi
  rw [avail_dropBlocks h' j hk'] at hav0
  have hg : flSum fl (blk m.sorted r j) ≤ 0 := by
    rcases hk.stop hN hpos with h1 | h1
    · exact absurd hav0 h1
    · rcases not_not.1 h1 with h5 | h5
      · exact h5.le
      · exact h5.1.le
  obtain ⟨h2, -⟩ := flSum_blk hf h hR hlen hav0
  have := (abs_le.1 h2).1
  simp only [totalGain, List.map_cons, List.map_nil, List.sum_cons, List.sum_nil, add_zero] at hle hle
  linarith

/-- The computed gain from trade is near to the gain: each deal adds a small error. `k'` is the number of digits of the sums over all deals. -/
theorem float_optimal_reported_gain {N k' : ℕ} {z : Bool} {t : TradeWithMaterialBalance} {rem : Market} (ht : Floating.optimalTrade fl m r N z = .ok (t, rem)) (hk' : k' ≤ k)
    (hdig : (t.numOfDeals * (M * r.sum) + 1) * 2 ^ k' ≤ 2 ^ 53) (hsmall : t.numOfDeals * (r.sum + 1) ≤ 2 ^ k') :
    |Floating.materialGain fl t - t.gainFromTrade| ≤ t.numOfDeals * (r.sum + 1) / 2 ^ k' := by
  obtain ⟨hlen, -⟩ := flOptimal_inv ht
  obtain ⟨j, idx, hk, hperm, ho, rfl⟩ := flOptimal_eq ht
  have hn : NearTo fl ((t.numOfDeals * (M * r.sum) + 1 : ℕ) : ℚ) (1 / 2 ^ k') := by
    intro q hq
    refine (float_near hf hq hdig ?_).le
    have h1 : 2 ^ k' ≤ 2 ^ 53 := (Nat.le_mul_of_pos_left _ (by omega)).trans hdig
    have := (Nat.pow_le_pow_iff_right (show 1 < 2 by omega)).1 h1
    omega
  have hpow : (2 : ℚ) ^ k' ≤ 2 ^ k := pow_le_pow_right₀ (by norm_num) hk'
  have hp' : (0 : ℚ) < 2 ^ k' := by positivity
  have hall : List.Forall₂ (fun x y : ℚ => |x - y| ≤ (r.sum : ℚ) / 2 ^ k' ∧ |y| ≤ (r.sum : ℚ) * M) (t.procurementSets.map (flSum fl)) (t.procurementSets.map List.sum) := by
    rw [List.forall₂_map_left_iff, List.forall₂_map_right_iff]
    refine List.forall₂_same.2 fun ps hps => ?_
    rw [ho] at hps
    obtain ⟨i, hi, rfl⟩ := List.mem_map.1 hps
    obtain ⟨h1, h2⟩ := flSum_blk hf h hR hlen (hk.taken i (List.mem_range.1 (hperm.mem_iff.1 hi))).1
    exact ⟨h1.trans (div_le_div_of_nonneg_left (by positivity) hp' hpow), h2⟩
  have hlen2 : (t.procurementSets.map (flSum fl)).length = t.numOfDeals := by simp [TradeWithMaterialBalance.numOfDeals]
  have hs : (t.numOfDeals : ℚ) * (r.sum / 2 ^ k' + 1 / 2 ^ k') ≤ 1 := by
    rw [← add_div, ← mul_div_assoc, div_le_one hp']
    exact_mod_cast hsmall
  have := flSum_near (by positivity) (by positivity) (by positivity) hn hall (s := 0) (s' := 0) (E := 0) (C := 0) (by simp) (by simp) (by
    rw [hlen2]
    simp only [Nat.cast_add, Nat.cast_mul, Nat.cast_one]
    nlinarith)
  rw [hlen2, zero_add, zero_add, ← add_div, ← mul_div_assoc] at this
  exact this

end

/-! ### Examples -/

/-- Deals of 0.6, -0.1 and -0.5 (as floats, they lose a bit). -/
def decimalDeals : Market := ⟨[⟨"buyer", [tenths 6, tenths 6]⟩, ⟨"seller", [tenths (-1), tenths (-1)]⟩, ⟨"mediator", [tenths (-5), tenths (-5)]⟩]⟩

theorem decimalDeals_float : FloatReports decimalDeals [1, 1, 1] 100000000 24 where
  float := by
    intro c hc v hv
    simp only [decimalDeals, List.mem_cons, List.not_mem_nil, or_false] at hc
    rcases hc with rfl | rfl | rfl <;> simp only [List.mem_cons, List.not_mem_nil, or_false] at hv <;> rcases hv with rfl | rfl <;> exact tenths_float _ (by norm_num)
  constant := le_rfl
  digits := by norm_num
  categories := by norm_num
  sizes := by decide +kernel

/-- The errors cannot be dropped: here every deal loses money (a bit), and Python's `optimal_trade` makes all of them. -/
theorem float_optimal_loses : ∃ (m : Market) (t : TradeWithMaterialBalance) (rem : Market), FloatReports m [1, 1, 1] 100000000 24 ∧
    Floating.optimalTrade nearestFloat m [1, 1, 1] = .ok (t, rem) ∧ t.numOfDeals = 2 ∧ t.gainFromTrade < 0 ∧
    m.optimalTrade [1, 1, 1] = .ok (⟨[]⟩, m) :=
  ⟨decimalDeals, ⟨[[tenths 6, tenths (-1), tenths (-5)], [tenths 6, tenths (-1), tenths (-5)]]⟩, ⟨[⟨"buyer", []⟩, ⟨"seller", []⟩, ⟨"mediator", []⟩]⟩, decimalDeals_float,
    by decide +kernel, rfl, by decide +kernel, by decide +kernel⟩

/-- The theorems above, for the example of C102. -/
example : ∃ t rem, Floating.optimalTrade nearestFloat decimalMarket [1, 1] 99 true = .ok (t, rem) ∧
    (∀ deals, Feasible decimalMarket.valueLists [1, 1] deals → totalGain deals ≤ t.gainFromTrade + |(deals.length : ℚ) - t.numOfDeals| * (2 / 2 ^ 25)) ∧
    (∀ d, Feasible rem.valueLists [1, 1] [d] → dealGain d ≤ 2 / 2 ^ 25) ∧ t.numOfDeals = 2 ∧ |Floating.materialGain nearestFloat t - t.gainFromTrade| ≤ 6 / 2 ^ 24 := by
  have ht : Floating.optimalTrade nearestFloat decimalMarket [1, 1] 99 true =
      .ok (⟨[[tenths 1359, tenths (-1003)], [tenths 1401, tenths (-907)]]⟩, ⟨[⟨"buyer", []⟩, ⟨"seller", []⟩]⟩) := by decide +kernel
  have hf := python_rounding.1
  refine ⟨_, _, ht, fun deals hd => ?_, fun d hd => ?_, rfl, ?_⟩
  · simpa using float_optimal_nearly hf decimalMarket_float (by norm_num) ht (by decide) ⟨1, by simp⟩ deals hd
  · simpa using float_optimal_remaining hf decimalMarket_float (by norm_num) ht (by decide) ⟨1, by simp⟩ d hd
  · have := float_optimal_reported_gain hf decimalMarket_float (by norm_num) ht (k' := 24) (by norm_num)
      (by simp only [TradeWithMaterialBalance.numOfDeals, List.length_cons, List.length_nil]; norm_num)
      (by simp only [TradeWithMaterialBalance.numOfDeals, List.length_cons, List.length_nil]; norm_num)
    refine this.trans (le_of_eq ?_)
    simp only [TradeWithMaterialBalance.numOfDeals, List.length_cons, List.length_nil]
    norm_num

end Auctions.Props
