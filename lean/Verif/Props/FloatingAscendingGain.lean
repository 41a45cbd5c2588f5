import Verif.Props.FloatingTrade

set_option autoImplicit false

/-!
# C113, for the trades of the ascending auction
-/

namespace Auctions.Props

open Auctions Auctions.Spec Auctions.Floating Auctions.Ascending

/-- The bounds of `FloatTrade` hold for the trade that the ascending auction returns: its prices are at most `M * sum(recipe) + 2`. -/
theorem float_ascending_trade {fl : ℚ → ℚ} (hf : Rounding fl) {m : Market} {r : List ℕ} {M k : ℕ} (h : FloatReports m r M k) {fuel N : ℕ} {t : TradeWithSinglePrice}
    (ht : Floating.ascendingAuction fl m r fuel N = .ok (some t)) {k' : ℕ} (hd : (2 * (M * r.sum + 2) * m.numAgents + 1) * 2 ^ k' ≤ 2 ^ 53)
    (hs : m.numAgents + 5 * m.numCategories ≤ 2 ^ k') : FloatTrade t (M * r.sum + 2) m.numAgents k' := by
  obtain ⟨hl, hcat, hpos⟩ := flAuction_inv ht
  have hl' : r.length = m.sorted.length := by rw [m.sorted_length]; exact hl
  have hne := rel_ne_nil hl hpos
  obtain ⟨n, s, p, d, hp, ⟨c, hc, hend⟩, rfl, hle, -⟩ := fl_outcome hf h ht
  have hcm := flMain_mem hne hc
  obtain ⟨hcl, hcp⟩ := relevant_mem.1 hcm
  have hsle := (hp.inv hne).1
  have hr1 : 1 ≤ r.sum := le_trans hcp (rAt_le_sum c)
  have hMr : (M : ℚ) ≤ M * r.sum := by
    have : M * 1 ≤ M * r.sum := Nat.mul_le_mul_left M hr1
    rw [mul_one] at this
    exact_mod_cast this
  have hu : (1 : ℚ) / 2 ^ k ≤ 1 := by
    rw [div_le_one (by positivity)]
    exact one_le_pow₀ (by norm_num)
  have hclock : ∀ (i j : ℕ), |clock (vAt m.sorted i) j| ≤ (M : ℚ) * r.sum + 2 := fun i j => (clock_bound (report_bound h) h.constant j i).2.trans (by linarith)
  have hprice : ∀ x ∈ mkPrices m.sorted s, |x| ≤ (M : ℚ) * r.sum + 2 := by
    intro x hx
    obtain ⟨i, hi, rfl⟩ := List.getElem_of_mem hx
    have hi' : i < m.sorted.length := by rw [mkPrices_length] at hi; exact hi
    have e := mkPrices_get (s := s) hi'
    rw [List.getElem?_eq_getElem hi, Option.some.injEq] at e
    rw [e]
    exact hclock i _
  have hcats : ∀ i a, (mkMarket m.sorted s).categories[i]? = some a → i < m.sorted.length ∧ a.values = (vAt m.sorted i).take (s i) := by
    intro i a ha
    have hi : i < m.sorted.length := by
      by_contra hge
      rw [List.getElem?_eq_none (by rw [mkMarket_length]; omega)] at ha
      simp at ha
    refine ⟨hi, ?_⟩
    rw [mkMarket_get hi, Option.some.injEq] at ha
    rw [← ha]
  refine ⟨?_, ?_, ?_, ?_, hd, ?_⟩
  · intro a ha v hv
    obtain ⟨i, hi, rfl⟩ := List.getElem_of_mem ha
    obtain ⟨-, e⟩ := hcats i _ (List.getElem?_eq_getElem hi)
    change v ∈ ((mkMarket m.sorted s).categories[i]).values at hv
    rw [e] at hv
    have := (report_bound h i v (List.mem_of_mem_take hv)).2
    simp only [Nat.cast_add, Nat.cast_mul, Nat.cast_ofNat]
    linarith
  · intro ps hps x hx
    simp only [Option.some.injEq] at hps
    subst hps
    simp only [Nat.cast_add, Nat.cast_mul, Nat.cast_ofNat]
    rcases hend with ⟨-, rfl⟩ | ⟨-, -, rfl⟩
    · exact hprice x hx
    · rcases List.mem_or_eq_of_mem_set hx with h1 | rfl
      · exact hprice x h1
      · obtain ⟨-, h2⟩ := flBalPrice_near hf hl' (report_bound h) h.constant h.digits h.categories hcl hcp s
        obtain ⟨-, -, h3⟩ := flOthers_near hf hl' (report_bound h) h.constant h.digits h.categories hcl s
        have hr' : (1 : ℚ) ≤ rAt r c := by exact_mod_cast hcp
        have h4 : |-flOthers fl m.sorted r s c / rAt r c| ≤ M * r.sum + 1 := by
          rw [abs_div, abs_neg, abs_of_nonneg (by linarith : (0 : ℚ) ≤ rAt r c)]
          exact (div_le_self (abs_nonneg _) hr').trans h3
        have e : flBalPrice fl m.sorted r s c = (flBalPrice fl m.sorted r s c - -flOthers fl m.sorted r s c / rAt r c) + -flOthers fl m.sorted r s c / rAt r c := by ring
        rw [e]
        refine (abs_add_le _ _).trans ?_
        linarith
  · intro i a c' hi hc'
    obtain ⟨h1, e⟩ := hcats i c' hc'
    rw [e, List.length_take, min_eq_left (hsle i), mul_comm]
    have h2 := hle i h1
    rw [rAt_eq_getElem (by omega)] at h2
    have hi : r[i]? = some a := hi
    rw [List.getElem?_eq_getElem (by omega), Option.some.injEq] at hi
    rw [← hi]
    exact h2
  · rw [← total_eq]
    have e : ((mkMarket m.sorted s).categories.map (fun c => c.values.length)).sum = ∑ i ∈ Finset.range m.sorted.length, ((vAt m.sorted i).take (s i)).length := by
      rw [← mkMarket_length m.sorted s]
      have : ∀ l : List AgentCategory, (l.map (fun c => c.values.length)).sum = ∑ i ∈ Finset.range l.length, (vAt l i).length := by
        intro l
        induction l with
        | nil => simp
        | cons a l ih => rw [List.length_cons, Finset.sum_range_succ']; simp [ih, vAt, add_comm]
      rw [this]
      exact Finset.sum_congr rfl fun i _ => by rw [vAt_mkMarket]
    refine (le_of_eq e).trans (Finset.sum_le_sum fun i _ => ?_)
    rw [List.length_take]
    exact min_le_right _ _
  · have e : (mkMarket m.sorted s).categories.length = m.numCategories := by rw [mkMarket_length, m.sorted_length]
    change m.numAgents + 5 * (mkMarket m.sorted s).categories.length ≤ 2 ^ k'
    rw [e]
    exact hs

/-- The gain from trade of the ascending auction, computed with floating-point numbers. -/
theorem float_ascending_gain {fl : ℚ → ℚ} (hf : Rounding fl) {m : Market} {r : List ℕ} {M k : ℕ} (h : FloatReports m r M k) {fuel N : ℕ} {t : TradeWithSinglePrice}
    (ht : Floating.ascendingAuction fl m r fuel N = .ok (some t)) {k' : ℕ} (hd : (2 * (M * r.sum + 2) * m.numAgents + 1) * 2 ^ k' ≤ 2 ^ 53)
    (hs : m.numAgents + 5 * m.numCategories ≤ 2 ^ k') {z : Bool} {x : ℚ} (hx : t.gainFromTrade z = .ok x) :
    ∃ y, Floating.gainFromTrade fl t z = .ok y ∧ |y - x| ≤ (m.numAgents + 5 * t.categories.length) / 2 ^ k' :=
  float_gain_near hf (float_ascending_trade hf h ht hd hs) hx

/-- The theorem above, for the market `decimalMarket`: the error is less than a hundred-thousandth. -/
example : ∃ x y, decimalTrade.gainFromTrade true = .ok x ∧ 44 < x ∧ Floating.gainFromTrade nearestFloat decimalTrade true = .ok y ∧ |y - x| ≤ 14 / 2 ^ 22 := by
  have h : (match decimalTrade.gainFromTrade true with | .ok x => decide (44 < x) | _ => false) = true := by decide +kernel
  split at h
  · rename_i x hx
    obtain ⟨y, hy, hxy⟩ := float_ascending_gain python_rounding.1 decimalMarket_float (t := decimalTrade) (fuel := 9) (N := 999999999) (by decide +kernel) (k' := 22)
      (by norm_num [decimalMarket, Market.numAgents, Market.valueLists]) (by norm_num [decimalMarket, Market.numAgents, Market.valueLists, Market.numCategories]) hx
    refine ⟨x, y, hx, of_decide_eq_true h, hy, hxy.trans (le_of_eq ?_)⟩
    norm_num [decimalMarket, decimalTrade, Market.numAgents, Market.valueLists]
  · simp at h

end Auctions.Props
