import Verif.Proofs.FloatingTruthful

set_option autoImplicit false

/-!
# C112: misreporting in the ascending auction with floating-point arithmetic
-/

namespace Auctions.Props

open Auctions Auctions.Spec Auctions.Floating Auctions.Ascending

/-- The probability of trading is at most one. -/
theorem chance_le {a d s L : ℕ} (h : d * a ≤ s) (hL : s ≤ L) : 0 ≤ ((a * d : ℕ) : ℚ) / (min s L : ℕ) ∧ ((a * d : ℕ) : ℚ) / (min s L : ℕ) ≤ 1 := by
  rw [min_eq_left hL]
  refine ⟨by positivity, div_le_one_of_le₀ ?_ (by positivity)⟩
  rw [mul_comm]
  exact_mod_cast h

section
variable {fl : ℚ → ℚ} (hf : Rounding fl) {m : Market} {r : List ℕ} {i : ℕ} {v b : ℚ} {M k : ℕ} (hv : FloatReports (withAgent m i v) r M k)
include hf hv

/-- An agent that reports its true value loses at most a small amount; and nothing if the recipe takes a power of two (such as 1) of its category. -/
theorem float_ascending_honest {f N : ℕ} {t : TradeWithSinglePrice} (ht : Floating.ascendingAuction fl (withAgent m i v) r f N = .ok (some t)) :
    -(2 / 2 ^ k) ≤ utility t i v v ∧ (BinaryNumber (r.getD i 0) → 0 ≤ utility t i v v) := by
  obtain ⟨p, hp, hrat⟩ := float_ascending_rational hf hv ht
  obtain ⟨hl, hcat, hpos⟩ := flAuction_inv ht
  have hne := rel_ne_nil hl hpos
  obtain ⟨n, s, p', d, hpath, he, rfl, hle, -⟩ := fl_outcome hf hv ht
  obtain rfl : p' = p := Option.some.inj hp
  have hu : (0 : ℚ) < 2 / 2 ^ k := by positivity
  rw [utility_outcome]
  split_ifs with hmem
  · have hi : i < (withAgent m i v).sorted.length := by
      by_contra hge
      rw [vAt_of_ge (by omega)] at hmem
      simp at hmem
    have hsle := (hpath.inv hne).1 i
    obtain ⟨h1, h2⟩ := chance_le (hle i hi) hsle
    rw [List.length_take]
    rcases Nat.eq_zero_or_pos (rAt r i) with h0 | h0
    · rw [h0]
      refine ⟨?_, fun _ => ?_⟩ <;> simp
      positivity
    · obtain ⟨h3, h4⟩ := hrat i (by rw [Market.sorted_length] at hi; exact hi) h0 v (by
        change v ∈ vAt (mkMarket (withAgent m i v).sorted s).categories i
        rw [vAt_mkMarket]; exact hmem)
      generalize ((rAt r i * d : ℕ) : ℚ) / (min (s i) (vAt (withAgent m i v).sorted i).length : ℕ) = q at h1 h2 ⊢
      refine ⟨by nlinarith, fun hb => mul_nonneg h1 ?_⟩
      have := h4 hb
      linarith
  · exact ⟨by linarith, fun _ => le_refl _⟩

/-- By a false report an agent gains at most a small amount, whatever the others report: its expected utility is at most that of its true report, or at most `(4n+6)/2^k`. -/
theorem float_ascending_misreport (hb : FloatReports (withAgent m i b) r M k) {f₁ N₁ f₂ N₂ : ℕ} {tT tB : TradeWithSinglePrice}
    (hT : Floating.ascendingAuction fl (withAgent m i v) r f₁ N₁ = .ok (some tT)) (hB : Floating.ascendingAuction fl (withAgent m i b) r f₂ N₂ = .ok (some tB)) :
    utility tB i v b = utility tT i v v ∨ utility tB i v b ≤ (4 * r.length + 6) / 2 ^ k := by
  obtain ⟨pT, hpT, -⟩ := float_ascending_rational hf hv hT
  obtain ⟨pB, hpB, hleft⟩ := float_ascending_left hf hb hB
  obtain ⟨hlT, hcatT, hpos⟩ := flAuction_inv hT
  have hl : r.length = m.numCategories := by rwa [withAgent_length] at hlT
  obtain ⟨hlB, hcatB, -⟩ := flAuction_inv hB
  have hneT := rel_ne_nil hlT hpos
  have hneB := rel_ne_nil hlB hpos
  obtain ⟨nT, sT, pT', dT, hpathT, heT, rfl, hdT, hmaxT⟩ := fl_outcome hf hv hT
  obtain ⟨n, s, p, d, hp, he, rfl, hd, hmax⟩ := fl_outcome hf hb hB
  obtain rfl : p = pB := Option.some.inj hpB
  set mT := withAgent m i v with hmT
  set mB := withAgent m i b with hmB
  have hlT' : r.length = mT.sorted.length := by rw [mT.sorted_length]; exact hlT
  have hlB' : r.length = mB.sorted.length := by rw [mB.sorted_length]; exact hlB
  have hcl : mT.sorted.length = mB.sorted.length := by omega
  have hE : (0 : ℚ) ≤ (4 * r.length + 6) / 2 ^ k := by positivity
  have hsle := (hp.inv hneB).1
  rw [utility_outcome]
  by_cases hmem : b ∈ (vAt mB.sorted i).take (s i)
  swap
  · right; rw [if_neg hmem]; exact hE
  rw [if_pos hmem]
  have hi : i < mB.sorted.length := by
    by_contra hge
    rw [vAt_of_ge (by omega)] at hmem
    simp at hmem
  have hi' : i < m.numCategories := by omega
  obtain ⟨hq0, hq1⟩ := chance_le (hd i hi) (hsle i)
  by_cases hgain : v ≤ p.getD i 0 + (4 * r.length + 6) / 2 ^ k
  · right
    rw [List.length_take]
    generalize ((rAt r i * d : ℕ) : ℚ) / (min (s i) (vAt mB.sorted i).length : ℕ) = q at hq0 hq1 ⊢
    have h1 : v - p.getD i 0 ≤ (4 * r.length + 6) / 2 ^ k := by linarith
    exact (mul_le_mul_of_nonneg_left h1 hq0).trans (mul_le_of_le_one_left hE hq1)
  · left
    replace hgain : p.getD i 0 + (4 * r.length + 6) / 2 ^ k < v := not_le.1 hgain
    have hpv : p.getD i 0 < v := by linarith
    -- the agents that left are below the true value
    set X := vAt m.categories i with hX
    have hVB : vAt mB.sorted i = sortDesc (b :: X) := by rw [vAt_sorted, vAt_withAgent_eq m b hi']
    have hVT : vAt mT.sorted i = sortDesc (v :: X) := by rw [vAt_sorted, vAt_withAgent_eq m v hi']
    have hsep : ∀ x ∈ (sortDesc (b :: X)).drop (s i), x ≤ v := by
      intro x hx
      obtain ⟨s', h1, h2⟩ := hleft i (by rw [withAgent_length]; exact hi')
      change vAt (mkMarket mB.sorted s).categories i = (sortDesc (vAt mB.categories i)).take s' at h1
      change ∀ w ∈ (sortDesc (vAt mB.categories i)).drop s', _ at h2
      rw [vAt_mkMarket, hVB, vAt_withAgent_eq m b hi'] at h1
      rw [vAt_withAgent_eq m b hi'] at h2
      have h3 : (sortDesc (b :: X)).drop (s i) = (sortDesc (b :: X)).drop s' := by
        have e := (List.take_append_drop (s i) (sortDesc (b :: X))).trans (List.take_append_drop s' (sortDesc (b :: X))).symm
        rw [h1] at e
        exact List.append_cancel_left e
      rw [h3] at hx
      linarith [h2 x hx]
    have hoth : ∀ j, j ≠ i → vAt mT.sorted j = vAt mB.sorted j := by
      intro j hj
      rw [vAt_sorted, vAt_sorted, vAt_withAgent_ne m v hj, vAt_withAgent_ne m b hj]
    have hsi : s i ≤ X.length + 1 := by have := hsle i; rw [hVB] at this; simpa using this
    have hs0 : 0 < s i := by
      rcases Nat.eq_zero_or_pos (s i) with h0 | h0
      · rw [h0] at hmem; simp at hmem
      · exact h0
    have hmem' := hmem
    rw [hVB] at hmem'
    obtain ⟨hX1, hX2⟩ := drop_report hsi hmem'
    have hXdrop : (sortDesc X).drop (s i - 1) = (sortDesc (b :: X)).drop (s i) := by
      conv_lhs => rw [hX1]
      rw [List.drop_append_of_le_length (by omega), List.drop_of_length_le (by omega), List.nil_append]
    have hXtake : (sortDesc X).take (s i - 1) = ((sortDesc (b :: X)).take (s i)).erase b := by
      conv_lhs => rw [hX1]
      rw [List.take_append_of_le_length (by omega), List.take_of_length_le (by omega)]
    obtain ⟨hT1, hT2⟩ := add_report (v := v) hs0 hsi (fun x hx => by
      rw [hXdrop] at hx
      exact hsep x hx)
    rw [hXdrop] at hT2
    have hdrop : ∀ j, (vAt mT.sorted j).drop (s j) = (vAt mB.sorted j).drop (s j) := by
      intro j
      by_cases hj : j = i
      · subst hj; rw [hVT, hVB, hT2]
      · rw [hoth j hj]
    have hsz : ∀ j, (vAt mT.sorted j).length = (vAt mB.sorted j).length := by
      intro j
      by_cases hj : j = i
      · subst hj; rw [hVT, hVB]; simp
      · rw [hoth j hj]
    have hpath : FlPath fl mT.sorted r n s := flPath_congr hcl hsz hp s (fun j => le_refl _) hdrop
    have hclk : ∀ j, clock (vAt mT.sorted j) (s j) = clock (vAt mB.sorted j) (s j) :=
      fun j => clock_congr (hdrop j) (le_refl _)
    have hprices : mkPrices mT.sorted s = mkPrices mB.sorted s := by
      unfold mkPrices; rw [hcl]; simp only [hclk]
    have hothers : ∀ c, flOthers fl mT.sorted r s c = flOthers fl mB.sorted r s c := flOthers_congr fl hcl hclk
    have hbalp : ∀ c, flBalPrice fl mT.sorted r s c = flBalPrice fl mB.sorted r s c := by
      intro c; unfold flBalPrice; rw [hothers]
    have heT' : FlEnding fl mT.sorted r s p := by
      obtain ⟨c, hc, hend⟩ := he
      refine ⟨c, by rw [rel_congr hcl]; exact hc, ?_⟩
      obtain ⟨hcl', hcp⟩ := relevant_mem.1 (flMain_mem hneB hc)
      rcases hend with ⟨h0, hpe⟩ | ⟨h0, hge, hpe⟩
      · exact Or.inl ⟨h0, by rw [hprices]; exact hpe⟩
      · refine Or.inr ⟨h0, ?_, by rw [hprices, hbalp]; exact hpe⟩
        unfold flNewSum at hge ⊢
        rw [hothers]
        by_cases hci : c = i
        · subst hci
          have hpc : p.getD c 0 = flBalPrice fl mB.sorted r s c := by
            rw [hpe]; simp [mkPrices_length, hcl']
          have hrc : (0 : ℚ) ≤ rAt r c := by positivity
          have hlt : s c - 1 < (vAt mT.sorted c).length := by rw [hsz]; have := hsle c; omega
          have hmemT : (vAt mT.sorted c)[s c - 1] ∈ (vAt mT.sorted c).take (s c) := by
            rw [List.mem_take_iff_getElem]; exact ⟨s c - 1, by omega, rfl⟩
          rw [clock_of_lt hlt]
          generalize (vAt mT.sorted c)[s c - 1] = y at hmemT ⊢
          rw [hVT, hT1, mem_sortDesc] at hmemT
          rcases List.mem_cons.1 hmemT with h1 | h1
          · subst h1
            have hdouble : Double y := (report_bound hv c y (by rw [hVT, mem_sortDesc]; simp)).1
            refine stops_above hf hcp (flOthers_near hf hlB' (report_bound hb) hb.constant hb.digits hb.categories hcl' s).2.1 hdouble ?_
            have h2 := hpv
            rw [hpc] at h2
            exact h2
          · rw [hXtake] at h1
            have h2 := List.mem_of_mem_erase h1
            obtain ⟨j, hj, hje⟩ := List.getElem_of_mem h2
            have hlow : clock (vAt mB.sorted c) (s c - 1) ≤ y := by
              rw [clock_of_lt (by rw [← hsz]; exact hlt), ← hje]
              simp only [hVB, List.getElem_take]
              simp only [List.length_take] at hj
              apply (sortDesc_sorted (b :: X)).getElem_ge; omega
            refine hge.trans (hf.monotone _ _ (add_le_add_right (hf.monotone _ _ (mul_le_mul_of_nonneg_left hlow hrc)) _))
        · rw [hoth c hci]; exact hge
    obtain ⟨rfl, rfl⟩ := FlEnding.unique hpath heT' hpathT heT
    obtain rfl : d = dT := by
      rw [hcl] at hdT hmaxT
      exact le_antisymm (hmaxT d hd) (hmax dT hdT)
    rw [utility_outcome]
    have hvm : v ∈ (vAt mT.sorted i).take (s i) := by rw [hVT, hT1, mem_sortDesc]; simp
    rw [if_pos hvm, List.length_take, List.length_take, hsz]

/-- The ascending auction with floating-point arithmetic is truthful up to a small amount. -/
theorem float_ascending_truthful (hb : FloatReports (withAgent m i b) r M k) {f₁ N₁ f₂ N₂ : ℕ} {tT tB : TradeWithSinglePrice}
    (hT : Floating.ascendingAuction fl (withAgent m i v) r f₁ N₁ = .ok (some tT)) (hB : Floating.ascendingAuction fl (withAgent m i b) r f₂ N₂ = .ok (some tB)) :
    utility tB i v b ≤ utility tT i v v + (4 * r.length + 8) / 2 ^ k := by
  have h1 := (float_ascending_honest hf hv hT).1
  have e : ((4 * r.length + 8) / 2 ^ k : ℚ) = (4 * r.length + 6) / 2 ^ k + 2 / 2 ^ k := by ring
  have h0 : (0 : ℚ) ≤ (4 * r.length + 8) / 2 ^ k := by positivity
  rcases float_ascending_misreport hf hv hb hT hB with h | h <;> linarith

end

/-! ### Examples -/

/-- Three categories; an agent joins the first one. -/
def closeReports : Market := ⟨[⟨"A", [tenths 6]⟩, ⟨"B", [tenths (-23), tenths (-13)]⟩, ⟨"C", [tenths 17, tenths 19]⟩]⟩

/-- The float just below 0.6. -/
def below : ℚ := 5404319552844594 / 2 ^ 53

theorem below_float : Double below ∧ |below| ≤ (100000000 : ℕ) ∧ -100000000 ≤ below :=
  ⟨⟨5404319552844594, -53, by norm_num, by norm_num, by norm_num, by unfold below; norm_num⟩, by decide +kernel, by decide +kernel⟩

theorem closeReports_float {x : ℚ} (hx : Double x ∧ |x| ≤ (100000000 : ℕ) ∧ -100000000 ≤ x) : FloatReports (withAgent closeReports 0 x) [1, 1, 1] 100000000 24 where
  float := by
    intro c hc v hv
    simp only [withAgent, closeReports, List.modify_zero_cons, List.mem_cons, List.not_mem_nil, or_false] at hc
    rcases hc with rfl | rfl | rfl <;> simp only [List.mem_cons, List.not_mem_nil, or_false] at hv <;> rcases hv with rfl | rfl <;>
      first | exact hx | exact tenths_float _ (by norm_num)
  constant := le_rfl
  digits := by norm_num
  categories := by norm_num
  sizes := by
    intro c hc n hn
    simp only [List.mem_cons, List.not_mem_nil, or_false, or_self] at hn
    simp only [withAgent, closeReports, List.modify_zero_cons, List.mem_cons, List.not_mem_nil, or_false] at hc
    subst hn
    rcases hc with rfl | rfl | rfl <;> norm_num

/-- With floating-point arithmetic the ascending auction is not exactly truthful: an agent with the value 0.5999999999999999 gets nothing by a true report, and gains about 10^-16 by reporting 0.6. -/
theorem float_ascending_untruthful : ∃ (m : Market) (v b : ℚ) (tT tB : TradeWithSinglePrice), FloatReports (withAgent m 0 v) [1, 1, 1] 100000000 24 ∧
    FloatReports (withAgent m 0 b) [1, 1, 1] 100000000 24 ∧
    Floating.ascendingAuction nearestFloat (withAgent m 0 v) [1, 1, 1] 20 = .ok (some tT) ∧ Floating.ascendingAuction nearestFloat (withAgent m 0 b) [1, 1, 1] 20 = .ok (some tB) ∧
    utility tT 0 v v < utility tB 0 v b := by
  have h : (match Floating.ascendingAuction nearestFloat (withAgent closeReports 0 below) [1, 1, 1] 20, Floating.ascendingAuction nearestFloat (withAgent closeReports 0 (tenths 6)) [1, 1, 1] 20 with
      | .ok (some t), .ok (some t') => decide (utility t 0 below below < utility t' 0 below (tenths 6))
      | _, _ => false) = true := by decide +kernel
  split at h
  · rename_i t t' ht ht'
    exact ⟨closeReports, below, tenths 6, t, t', closeReports_float below_float, closeReports_float (tenths_float 6 (by norm_num)), ht, ht', of_decide_eq_true h⟩
  · simp at h

/-- The theorem above, for this market: the gain is less than a millionth. -/
example : ∃ tT tB, Floating.ascendingAuction nearestFloat (withAgent closeReports 0 below) [1, 1, 1] 20 = .ok (some tT) ∧
    Floating.ascendingAuction nearestFloat (withAgent closeReports 0 (tenths 6)) [1, 1, 1] 20 = .ok (some tB) ∧ tB.numOfDeals = 1 ∧
    utility tB 0 below (tenths 6) ≤ utility tT 0 below below + 20 / 2 ^ 24 := by
  have h : (match Floating.ascendingAuction nearestFloat (withAgent closeReports 0 below) [1, 1, 1] 20, Floating.ascendingAuction nearestFloat (withAgent closeReports 0 (tenths 6)) [1, 1, 1] 20 with
      | .ok (some _), .ok (some t') => decide (t'.numOfDeals = 1)
      | _, _ => false) = true := by decide +kernel
  split at h
  · rename_i t t' ht ht'
    refine ⟨t, t', ht, ht', of_decide_eq_true h, ?_⟩
    have := float_ascending_truthful python_rounding.1 (closeReports_float below_float) (closeReports_float (tenths_float 6 (by norm_num))) ht ht'
    norm_num at this ⊢
    exact this
  · simp at h

end Auctions.Props
