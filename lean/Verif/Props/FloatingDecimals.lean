import Verif.Proofs.FloatingRun

set_option autoImplicit false

/-!
# C102: the ascending auction in floating-point arithmetic, for arbitrary reports

With whole-number reports nothing is rounded (C95). Decimal reports, such as prices of stocks, are rounded: the promises of the auction then hold up to a small error.
-/

namespace Auctions.Props

open Auctions Auctions.Spec Auctions.Floating Auctions.Ascending

/-- The auction returns a trade whatever the rounding does: it needs at most one iteration for each agent, and one more. -/
theorem float_ascending_total (fl : ℚ → ℚ) {m : Market} {r : List ℕ} (hr : r.length = m.numCategories) (hm : m.categories ≠ []) (hpos : ∃ n ∈ r, 0 < n) (N : ℕ) :
    ∃ t, ∀ fuel, m.numAgents < fuel → Floating.ascendingAuction fl m r fuel N = .ok (some t) := by
  rcases flAuction_spec fl hr hm hpos (m.numAgents + 1) N with ⟨-, h1⟩ | ⟨t, h1, -⟩
  · omega
  · exact ⟨t, fun fuel hf => ascendingAuction_more fl h1 hf⟩

section
variable {fl : ℚ → ℚ} (hf : Rounding fl) {m : Market} {r : List ℕ} {M k : ℕ} (h : FloatReports m r M k)
include hf h

/-- The auctioneer neither gains nor loses more than a small amount in a deal. -/
theorem float_ascending_nearly_balanced {fuel N : ℕ} {t : TradeWithSinglePrice} (ht : Floating.ascendingAuction fl m r fuel N = .ok (some t)) (hd : 0 < t.numOfDeals) :
    ∃ p, t.prices = some p ∧ p.length = m.numCategories ∧ |recipeSum r p| ≤ (2 * r.length + 2 + r.sum) / 2 ^ k := by
  obtain ⟨hl, hcat, hpos⟩ := flAuction_inv ht
  have hl' : r.length = m.sorted.length := by rw [m.sorted_length]; exact hl
  have hne := rel_ne_nil hl hpos
  obtain ⟨n, s, p, d, hp, ⟨c, hc, hend⟩, rfl, hle, -⟩ := fl_outcome hf h ht
  have hcm := flMain_mem hne hc
  obtain ⟨hcl, hcp⟩ := relevant_mem.1 hcm
  rcases hend with ⟨h0, -⟩ | ⟨h0, hge, rfl⟩
  · have h1 := hle c hcl
    rw [h0] at h1
    have hd' : 0 < d := hd
    have := Nat.mul_pos hd' hcp
    omega
  · refine ⟨_, rfl, by rw [List.length_set, mkPrices_length, m.sorted_length], ?_⟩
    refine (flBalPrice_balanced hf hl' (report_bound h) h.constant h.digits h.categories hcl hcp s).trans ?_
    have h1 : (rAt r c : ℚ) ≤ r.sum := by exact_mod_cast rAt_le_sum c
    rw [mul_one_div]
    exact div_le_div_of_nonneg_right (by linarith) (by positivity)

/-- An agent that remains in the market pays at most its value, up to a small amount; and at most its value exactly if the recipe takes a power of two of its category (such as 1). -/
theorem float_ascending_rational {fuel N : ℕ} {t : TradeWithSinglePrice} (ht : Floating.ascendingAuction fl m r fuel N = .ok (some t)) :
    ∃ p, t.prices = some p ∧ ∀ i < m.numCategories, 0 < r.getD i 0 → ∀ v ∈ (t.categories.map AgentCategory.values).getD i [],
      p.getD i 0 ≤ v + 2 / 2 ^ k ∧ (BinaryNumber (r.getD i 0) → p.getD i 0 ≤ v) := by
  obtain ⟨hl, hcat, hpos⟩ := flAuction_inv ht
  have hl' : r.length = m.sorted.length := by rw [m.sorted_length]; exact hl
  have hne := rel_ne_nil hl hpos
  obtain ⟨n, s, p, d, hp, ⟨c, hc, hend⟩, rfl, hle, -⟩ := fl_outcome hf h ht
  have hcm := flMain_mem hne hc
  obtain ⟨hcl, hcp⟩ := relevant_mem.1 hcm
  have hsle := (hp.inv hne).1
  refine ⟨p, rfl, fun i hi hri v hv => ?_⟩
  have hi' : i < m.sorted.length := by rw [m.sorted_length]; exact hi
  replace hv : v ∈ (vAt m.sorted i).take (s i) := by rw [← vAt_mkMarket]; exact hv
  have hu : (0 : ℚ) < 2 / 2 ^ k := by positivity
  have hkeep : clock (vAt m.sorted i) (s i) ≤ v := clock_le_of_mem_take (sorted_vAt m i) (report_low h i) hv
  rcases hend with ⟨h0, rfl⟩ | ⟨h0, hge, rfl⟩
  · rw [mkPrices_getD hi']
    exact ⟨by linarith, fun _ => hkeep⟩
  · by_cases hic : i = c
    · subst hic
      have hlt : s i - 1 < (vAt m.sorted i).length := by have := hsle i; omega
      have hlow : clock (vAt m.sorted i) (s i - 1) ≤ v := by
        rw [clock_of_lt hlt]
        obtain ⟨j, hj, rfl⟩ := List.getElem_of_mem hv
        simp only [List.getElem_take]
        simp only [List.length_take] at hj
        apply (sorted_vAt m i).getElem_ge; omega
      have hset : ((mkPrices m.sorted s).set i (flBalPrice fl m.sorted r s i)).getD i 0 = flBalPrice fl m.sorted r s i := by
        simp [List.getD_eq_getElem?_getD, mkPrices_length, hi']
      rw [hset]
      obtain ⟨h1, h2⟩ := flBalPrice_le hf hl' (report_bound h) h.constant h.digits h.categories hcl hcp hge
      have e : (2 : ℚ) / 2 ^ k = 2 * (1 / 2 ^ k) := by ring
      refine ⟨by rw [e]; linarith, fun hb => (h2 ?_).trans hlow⟩
      simpa [rAt, List.getD_eq_getElem?_getD] using hb
    · have hset : ((mkPrices m.sorted s).set c (flBalPrice fl m.sorted r s c)).getD i 0 = clock (vAt m.sorted i) (s i) := by
        rw [← mkPrices_getD hi']
        simp [List.getD_eq_getElem?_getD, List.getElem?_set, Ne.symm hic]
      rw [hset]
      exact ⟨by linarith, fun _ => hkeep⟩

/-- An agent that left the market does not miss more than a small amount: its value is at most the price, up to that amount. -/
theorem float_ascending_left {fuel N : ℕ} {t : TradeWithSinglePrice} (ht : Floating.ascendingAuction fl m r fuel N = .ok (some t)) :
    ∃ p, t.prices = some p ∧ ∀ i < m.numCategories, ∃ s, (t.categories.map AgentCategory.values).getD i [] = (sortDesc (m.valueLists.getD i [])).take s ∧
      ∀ v ∈ (sortDesc (m.valueLists.getD i [])).drop s, v ≤ p.getD i 0 + (4 * r.length + 6) / 2 ^ k := by
  obtain ⟨hl, hcat, hpos⟩ := flAuction_inv ht
  have hl' : r.length = m.sorted.length := by rw [m.sorted_length]; exact hl
  have hne := rel_ne_nil hl hpos
  obtain ⟨n, s, p, d, hp, ⟨c, hc, hend⟩, rfl, hle, -⟩ := fl_outcome hf h ht
  have hcm := flMain_mem hne hc
  obtain ⟨hcl, hcp⟩ := relevant_mem.1 hcm
  have hinv := hp.flInv hf h hl' hne
  have hsle := (hp.inv hne).1
  refine ⟨p, rfl, fun i hi => ⟨s i, ?_, ?_⟩⟩
  · show vAt (mkMarket m.sorted s).categories i = _
    rw [vAt_mkMarket, vAt_sorted]
    rfl
  · intro v hv
    have hv : v ∈ (sortDesc (vAt m.categories i)).drop (s i) := hv
    rw [← vAt_sorted] at hv
    have hi' : i < m.sorted.length := by rw [m.sorted_length]; exact hi
    have hl0 : (0 : ℚ) ≤ r.length := by positivity
    have hu : (0 : ℚ) ≤ 1 / 2 ^ k := by positivity
    have hpos : (0 : ℚ) ≤ (4 * r.length + 6) / 2 ^ k := by positivity
    have hclock := le_clock_of_mem_drop (sorted_vAt m i) hv
    rcases hend with ⟨h0, rfl⟩ | ⟨h0, hge, rfl⟩
    · rw [mkPrices_getD hi']
      linarith
    · by_cases hic : i = c
      · subst hic
        have hset : ((mkPrices m.sorted s).set i (flBalPrice fl m.sorted r s i)).getD i 0 = flBalPrice fl m.sorted r s i := by
          simp [List.getD_eq_getElem?_getD, mkPrices_length, hi']
        rw [hset]
        have h1 := flBalPrice_exact hf hl' (report_bound h) h.constant h.digits h.categories hcl hcp s
        have h2 := hinv.sum
        have hr1 : (1 : ℚ) ≤ rAt r i := by exact_mod_cast hcp
        have h3 : clock (vAt m.sorted i) (s i) ≤ balPrice m.sorted r s i + (2 * r.length + 3) * (1 / 2 ^ k) := by
          have e : balPrice m.sorted r s i = clock (vAt m.sorted i) (s i) - clockSum m.sorted r s / rAt r i := by
            unfold balPrice
            field_simp
            ring
          rw [e]
          have h4 : clockSum m.sorted r s / rAt r i ≤ (2 * r.length + 3) * (1 / 2 ^ k) := by
            rw [div_le_iff₀ (by linarith)]
            have h5 : (0 : ℚ) ≤ (2 * r.length + 3) * (1 / 2 ^ k) := by positivity
            nlinarith
          linarith
        have h6 := (abs_le.1 h1).1
        have e : ((4 * r.length + 6) / 2 ^ k : ℚ) = (2 * r.length + 3) * (1 / 2 ^ k) + (2 * r.length + 3) * (1 / 2 ^ k) := by ring
        rw [e]
        linarith
      · have hset : ((mkPrices m.sorted s).set c (flBalPrice fl m.sorted r s c)).getD i 0 = clock (vAt m.sorted i) (s i) := by
          rw [← mkPrices_getD hi']
          simp [List.getD_eq_getElem?_getD, List.getElem?_set, Ne.symm hic]
        rw [hset]
        linarith

/-- At most one of the deals of the (exact) optimal trade that are worth more than a small amount is lost. -/
theorem float_ascending_deals {fuel N N' : ℕ} {t : TradeWithSinglePrice} (ht : Floating.ascendingAuction fl m r fuel N = .ok (some t)) {o : TradeWithMaterialBalance} {rest : Market}
    (ho : m.optimalTrade r N' = .ok (o, rest)) :
    (o.procurementSets.filter (fun ps => ((2 * r.length + 3) / 2 ^ k : ℚ) ≤ ps.sum)).length ≤ t.numOfDeals + 1 := by
  obtain ⟨hl, hcat, hpos⟩ := flAuction_inv ht
  have hl' : r.length = m.sorted.length := by rw [m.sorted_length]; exact hl
  have hne := rel_ne_nil hl hpos
  obtain ⟨n, s, p, d, hp, -, rfl, -, hmax⟩ := fl_outcome hf h ht
  have hinv := hp.flInv hf h hl' hne
  obtain ⟨j, hj, hj2⟩ := optimalTrade_eq hl hcat N' true
  rw [hj2] at ho
  simp only [Except.ok.injEq, Prod.mk.injEq] at ho
  obtain ⟨rfl, -⟩ := ho
  by_contra hlt
  have hlt : d + 1 < ((((List.range j).map (blk m.sorted r)).reverse).filter (fun ps => ((2 * r.length + 3) / 2 ^ k : ℚ) ≤ ps.sum)).length := not_le.1 hlt
  rw [← List.countP_eq_length_filter, List.countP_reverse, List.countP_map] at hlt
  -- among the deals with index above `d` there is one that is worth more
  obtain ⟨g, hg1, hg2, hg3⟩ : ∃ g, d < g ∧ g < j ∧ ((2 * r.length + 3) / 2 ^ k : ℚ) ≤ (blk m.sorted r g).sum := by
    by_contra hno
    push Not at hno
    have h1 : j = (min j (d + 1)) + (j - min j (d + 1)) := by omega
    rw [h1, List.range_add, List.countP_append] at hlt
    have h2 : List.countP ((fun ps : List ℚ => decide (((2 * r.length + 3) / 2 ^ k : ℚ) ≤ ps.sum)) ∘ blk m.sorted r) (List.map (fun x => min j (d + 1) + x) (List.range (j - min j (d + 1)))) = 0 := by
      rw [List.countP_eq_zero]
      intro a ha
      obtain ⟨b, hb, rfl⟩ := List.mem_map.1 ha
      have hb' := List.mem_range.1 hb
      have := hno (min j (d + 1) + b) (by omega) (by omega)
      simpa using this
    have h3 := List.countP_le_length (p := ((fun ps : List ℚ => decide (((2 * r.length + 3) / 2 ^ k : ℚ) ≤ ps.sum)) ∘ blk m.sorted r)) (l := List.range (min j (d + 1)))
    rw [h2] at hlt
    rw [List.length_range] at h3
    omega
  have hav := (hj.taken g hg2).1
  have hsum := hinv.sum
  rw [mul_one_div] at hsum
  have := deals_lower_of hl' (sorted_vAt m) hinv.touched hmax hav (hsum.trans_le hg3)
  omega

/-- If no deal is nearly worthless, the rounding makes no difference, except for the last digits of the prices. -/
theorem float_ascending_same (hl : r.length = m.numCategories) (hcat : m.categories ≠ []) (hpos : ∃ n ∈ r, 0 < n)
    (hgap : NoNearlyWorthlessDeal m r ((2 * r.length + 3) / 2 ^ k)) (N : ℕ) :
    ∃ t t' p p', (∀ fuel, m.numAgents < fuel → Ascending.auction m r fuel N = .ok (some t) ∧ Floating.ascendingAuction fl m r fuel N = .ok (some t')) ∧
      t'.categories = t.categories ∧ t'.numOfDeals = t.numOfDeals ∧ t.prices = some p ∧ t'.prices = some p' ∧
      List.Forall₂ (fun x y : ℚ => |x - y| ≤ (2 * r.length + 3) / 2 ^ k) p' p := by
  have hl' : r.length = m.sorted.length := by rw [m.sorted_length]; exact hl
  have hne := rel_ne_nil hl hpos
  have hu : (0 : ℚ) < (2 * r.length + 3) / 2 ^ k := by positivity
  -- the exact sums are not nearly zero
  have hsum : ∀ s : ℕ → ℕ, (2 * r.length + 3) / 2 ^ k < |clockSum m.sorted r s| := by
    intro s
    refine hgap (mkPrices m.sorted s) (List.forall₂_iff_get.2 ⟨by rw [mkPrices_length, m.sorted_length]; rfl, fun i h1 h2 => ?_⟩)
    have h3 : i < m.sorted.length := by rw [mkPrices_length] at h2; exact h2
    have e := mkPrices_get (s := s) h3
    rw [List.getElem?_eq_getElem h2, Option.some.injEq] at e
    simp only [List.get_eq_getElem]
    rw [e]
    by_cases hs : s i < (vAt m.sorted i).length
    · right
      rw [clock_of_lt hs]
      have hmem := List.getElem_mem hs
      generalize (vAt m.sorted i)[s i] = x at hmem ⊢
      rw [vAt_sorted, mem_sortDesc, vAt_eq_getElem h1] at hmem
      exact hmem
    · left
      rw [clock_of_ge (by omega)]
      norm_num [MAX_VALUE]
  have hsign : ∀ {c : ℕ}, c < m.sorted.length → ∀ s : ℕ → ℕ, (0 ≤ flNewSum fl m.sorted r s c ↔ 0 ≤ clockSum m.sorted r (Function.update s c (s c - 1))) := by
    intro c hc s
    obtain ⟨x, hx1, hx2, -⟩ := flNewSum_sign hf hl' (report_bound h) h.constant h.digits h.categories hc s
    rw [hx1]
    have h1 := hsum (Function.update s c (s c - 1))
    rw [mul_one_div] at hx2
    obtain ⟨h3, h4⟩ := abs_le.1 hx2
    rcases abs_cases (clockSum m.sorted r (Function.update s c (s c - 1))) with ⟨e, h5⟩ | ⟨e, h5⟩ <;> rw [e] at h1
    · exact ⟨fun _ => h5, fun _ => by linarith⟩
    · exact ⟨fun _ => by linarith, fun _ => by linarith⟩
  have hpath : ∀ {n : ℕ} {s : ℕ → ℕ}, FlPath fl m.sorted r n s → Path m.sorted r n s := by
    intro n s hp
    induction hp with
    | start => exact Path.start
    | @step n s c hp hc h0 hneg ih =>
      have hcl := (relevant_mem.1 (flMain_mem hne hc)).1
      rw [flMain_eq hf h (hp.inv hne).1] at hc
      refine ih.step hc h0 ?_
      by_contra hcon
      exact absurd ((hsign hcl s).2 (not_lt.1 hcon)) (not_le.2 hneg)
  obtain ⟨t', ht'⟩ := float_ascending_total fl hl hcat hpos N
  obtain ⟨n, s, p', d, hp, ⟨c, hc, hend⟩, rfl, hd1, hd2⟩ := fl_outcome hf h (ht' (m.numAgents + 1) (by omega))
  obtain ⟨hcl, hcp⟩ := relevant_mem.1 (flMain_mem hne hc)
  rw [flMain_eq hf h (hp.inv hne).1] at hc
  have hbound := (hp.inv hne).2
  rw [total_eq] at hbound
  have key : ∀ p, Ending m.sorted r s p → List.Forall₂ (fun x y : ℚ => |x - y| ≤ (2 * r.length + 3) / 2 ^ k) p' p →
      ∃ t t' p p', (∀ fuel, m.numAgents < fuel → Ascending.auction m r fuel N = .ok (some t) ∧ Floating.ascendingAuction fl m r fuel N = .ok (some t')) ∧
        t'.categories = t.categories ∧ t'.numOfDeals = t.numOfDeals ∧ t.prices = some p ∧ t'.prices = some p' ∧
        List.Forall₂ (fun x y : ℚ => |x - y| ≤ (2 * r.length + 3) / 2 ^ k) p' p := by
    intro p he hall
    obtain ⟨d', h1, h2, h3⟩ := auction_of_ending hl hcat hpos (hpath hp) he
    have hdd : d' = d := le_antisymm (hd2 d' h1) (h2 d hd1)
    subst hdd
    exact ⟨_, _, p, p', fun fuel hfu => ⟨h3 fuel N (by omega), ht' fuel hfu⟩, rfl, rfl, rfl, rfl, hall⟩
  rcases hend with ⟨h0, rfl⟩ | ⟨h0, hge, rfl⟩
  · refine key _ ⟨c, hc, Or.inl ⟨h0, rfl⟩⟩ (List.forall₂_same.2 fun x _ => ?_)
    rw [sub_self, abs_zero]; exact hu.le
  · refine key _ ⟨c, hc, Or.inr ⟨h0, (hsign hcl s).1 hge, rfl⟩⟩ (List.forall₂_iff_get.2 ⟨by simp, fun i h1 h2 => ?_⟩)
    simp only [List.get_eq_getElem, List.getElem_set]
    split_ifs with hic
    · have := flBalPrice_exact hf hl' (report_bound h) h.constant h.digits h.categories hcl hcp s
      rwa [mul_one_div] at this
    · rw [sub_self, abs_zero]; exact hu.le

end

/-! ### Examples -/

/-- The decimal number `n / 10` as a Python float. -/
def tenths (n : ℤ) : ℚ := nearestFloat (n / 10)

/-- Two buyers and two sellers with decimal reports. -/
def decimalMarket : Market := ⟨[⟨"buyer", [tenths 1359, tenths 1401]⟩, ⟨"seller", [tenths (-1003), tenths (-907)]⟩]⟩

theorem tenths_float (n : ℤ) (h : |n| ≤ 10000) : Double (tenths n) ∧ |tenths n| ≤ (100000000 : ℕ) ∧ -100000000 ≤ tenths n := by
  have h1 : |(n : ℚ)| ≤ 10000 := by exact_mod_cast h
  obtain ⟨h2, h3⟩ := abs_le.1 h1
  have hf := python_rounding.1
  have e : ∀ z : ℤ, |z| ≤ 1000 → nearestFloat z = z := fun z hz => Small.fl hf (a := 1000) ⟨z, rfl, hz⟩ (by norm_num)
  have h4 := hf.monotone ((n : ℚ) / 10) ((1000 : ℤ) : ℚ) (by push_cast; linarith)
  have h5 := hf.monotone ((-1000 : ℤ) : ℚ) ((n : ℚ) / 10) (by push_cast; linarith)
  rw [e 1000 (by norm_num)] at h4
  rw [e (-1000) (by norm_num)] at h5
  push_cast at h4 h5
  refine ⟨hf.float _ ?_, ?_, ?_⟩
  · rw [abs_le]; constructor <;> linarith
  · unfold tenths
    rw [abs_le]; push_cast; constructor <;> linarith
  · unfold tenths; linarith

theorem decimalMarket_float : FloatReports decimalMarket [1, 1] 100000000 25 where
  float := by
    intro c hc v hv
    simp only [decimalMarket, List.mem_cons, List.not_mem_nil, or_false] at hc
    rcases hc with rfl | rfl <;> simp only [List.mem_cons, List.not_mem_nil, or_false] at hv <;> rcases hv with rfl | rfl <;> exact tenths_float _ (by norm_num)
  constant := le_rfl
  digits := by norm_num
  categories := by norm_num
  sizes := by decide +kernel

/-- The sum of a deal of these agents is not within a millionth of zero. -/
theorem decimalMarket_gap : NoNearlyWorthlessDeal decimalMarket [1, 1] ((2 * ([1, 1] : List ℕ).length + 3) / 2 ^ 25) := by
  intro p hp
  have hall : ∀ x ∈ [-100000000, tenths 1359, tenths 1401], ∀ y ∈ [-100000000, tenths (-1003), tenths (-907)],
      ((2 * ([1, 1] : List ℕ).length + 3) / 2 ^ 25 : ℚ) < |recipeSum [1, 1] [x, y]| := by decide +kernel
  cases hp with
  | cons h1 hp =>
    cases hp with
    | cons h2 hp =>
      cases hp
      exact hall _ (by simpa using h1) _ (by simpa using h2)

/-- The rounded auction keeps the same agents; the buyer pays 135.9, the seller gets 135.90000000596046: the auctioneer loses a bit. -/
example : Ascending.auction decimalMarket [1, 1] 9 = .ok (some ⟨[⟨"buyer", [tenths 1401]⟩, ⟨"seller", [tenths (-907), tenths (-1003)]⟩], [1, 1], some [tenths 1359, -tenths 1359], 1⟩) ∧
    Floating.ascendingAuction nearestFloat decimalMarket [1, 1] 9 =
      .ok (some ⟨[⟨"buyer", [tenths 1401]⟩, ⟨"seller", [tenths (-907), tenths (-1003)]⟩], [1, 1], some [tenths 1359, -4560047309 / 2 ^ 25], 1⟩) := by
  constructor <;> decide +kernel

/-- The budget is not balanced exactly: for the market with the buyers 135.9 and 140.1 and the sellers -100.3 and -90.7, Python's auction makes a deal in which the auctioneer loses money. -/
theorem float_ascending_deficit : ∃ (m : Market) (t : TradeWithSinglePrice) (p : List ℚ), FloatReports m [1, 1] 100000000 25 ∧
    Floating.ascendingAuction nearestFloat m [1, 1] 9 = .ok (some t) ∧ t.numOfDeals = 1 ∧ t.prices = some p ∧ recipeSum [1, 1] p < 0 :=
  ⟨decimalMarket, ⟨[⟨"buyer", [tenths 1401]⟩, ⟨"seller", [tenths (-907), tenths (-1003)]⟩], [1, 1], some [tenths 1359, -4560047309 / 2 ^ 25], 1⟩, _, decimalMarket_float,
    by decide +kernel, rfl, rfl, by decide +kernel⟩

/-- The reports 6.1, 5.7, 1.4 of buyers, and six sellers. -/
def decimalTriples : Market := ⟨[⟨"buyer", [tenths 61, tenths 57, tenths 14]⟩, ⟨"seller", [tenths (-13), tenths (-47), tenths (-19), tenths (-13), tenths (-5), tenths (-5)]⟩]⟩

theorem decimalTriples_float : FloatReports decimalTriples [1, 3] 100000000 24 where
  float := by
    intro c hc v hv
    simp only [decimalTriples, List.mem_cons, List.not_mem_nil, or_false] at hc
    rcases hc with rfl | rfl <;> simp only [List.mem_cons, List.not_mem_nil, or_false] at hv
    · rcases hv with rfl | rfl | rfl <;> exact tenths_float _ (by norm_num)
    · rcases hv with rfl | rfl | rfl | rfl | rfl | rfl <;> exact tenths_float _ (by norm_num)
  constant := le_rfl
  digits := by norm_num
  categories := by norm_num
  sizes := by decide +kernel

/-- With three sellers in a deal, a seller can lose a bit: the seller with the value -1.9 stays in the market, and gets 1.8999999999999997. -/
theorem float_ascending_loss : ∃ (m : Market) (t : TradeWithSinglePrice) (p : List ℚ), FloatReports m [1, 3] 100000000 24 ∧
    Floating.ascendingAuction nearestFloat m [1, 3] 12 = .ok (some t) ∧ t.numOfDeals = 1 ∧ t.prices = some p ∧
    tenths (-19) ∈ (t.categories.map AgentCategory.values).getD 1 [] ∧ tenths (-19) < p.getD 1 0 :=
  ⟨decimalTriples, ⟨[⟨"buyer", [tenths 61]⟩, ⟨"seller", [tenths (-5), tenths (-5), tenths (-13), tenths (-13), tenths (-19)]⟩], [1, 3], some [tenths 57, -8556839292003941 / 2 ^ 52], 1⟩, _,
    decimalTriples_float, by decide +kernel, rfl, rfl, by decide +kernel, by decide +kernel⟩

/-- A market in which the deal of the agents 1.4, -0.9, -0.5 is worthless in decimal numbers. -/
def decimalTies : Market :=
  ⟨[⟨"buyer", [tenths 14, tenths 15, tenths 10]⟩, ⟨"seller", [tenths (-4), tenths (-2), tenths (-9)]⟩, ⟨"mediator", [tenths (-5), tenths (-5), tenths (-4)]⟩]⟩

/-- So the number of deals can be different from that of the exact auction. -/
theorem float_ascending_differs : ∃ (m : Market) (t t' : TradeWithSinglePrice), FloatReports m [1, 1, 1] 100000000 24 ∧
    Ascending.auction m [1, 1, 1] 12 = .ok (some t) ∧ Floating.ascendingAuction nearestFloat m [1, 1, 1] 12 = .ok (some t') ∧ t.numOfDeals = 1 ∧ t'.numOfDeals = 2 := by
  refine ⟨decimalTies, ?_⟩
  have h1 : ∃ t, Ascending.auction decimalTies [1, 1, 1] 12 = .ok (some t) ∧ t.numOfDeals = 1 :=
    ⟨⟨[⟨"buyer", [tenths 15]⟩, ⟨"seller", [tenths (-2), tenths (-4)]⟩, ⟨"mediator", [tenths (-4), tenths (-5)]⟩], [1, 1, 1], some [tenths 14, -(tenths 14 + tenths (-5)), tenths (-5)], 1⟩,
      by decide +kernel, rfl⟩
  have h2 : ∃ t, Floating.ascendingAuction nearestFloat decimalTies [1, 1, 1] 12 = .ok (some t) ∧ t.numOfDeals = 2 :=
    ⟨⟨[⟨"buyer", [tenths 15, tenths 14]⟩, ⟨"seller", [tenths (-2), tenths (-4)]⟩, ⟨"mediator", [tenths (-4), tenths (-5)]⟩], [1, 1, 1], some [tenths 14, tenths (-9), tenths (-5)], 2⟩,
      by decide +kernel, rfl⟩
  obtain ⟨t, h1, h3⟩ := h1
  obtain ⟨t', h2, h4⟩ := h2
  refine ⟨t, t', ?_, h1, h2, h3, h4⟩
  constructor
  · intro c hc v hv
    simp only [decimalTies, List.mem_cons, List.not_mem_nil, or_false] at hc
    rcases hc with rfl | rfl | rfl <;> simp only [List.mem_cons, List.not_mem_nil, or_false] at hv <;> rcases hv with rfl | rfl | rfl <;> exact tenths_float _ (by norm_num)
  · exact le_rfl
  · norm_num
  · norm_num
  · decide +kernel

/-- The theorems above, for the example. -/
example : (∃ t, ∀ fuel, decimalMarket.numAgents < fuel → Floating.ascendingAuction nearestFloat decimalMarket [1, 1] fuel 99 = .ok (some t)) ∧
    ∃ t t' p p', (∀ fuel, decimalMarket.numAgents < fuel → Ascending.auction decimalMarket [1, 1] fuel 99 = .ok (some t) ∧ Floating.ascendingAuction nearestFloat decimalMarket [1, 1] fuel 99 = .ok (some t')) ∧
      t'.categories = t.categories ∧ t'.numOfDeals = t.numOfDeals ∧ t.prices = some p ∧ t'.prices = some p' ∧
      List.Forall₂ (fun x y : ℚ => |x - y| ≤ (2 * ([1, 1] : List ℕ).length + 3) / 2 ^ 25) p' p :=
  ⟨float_ascending_total nearestFloat (m := decimalMarket) (r := [1, 1]) rfl (by simp [decimalMarket]) ⟨1, by simp⟩ 99,
    float_ascending_same python_rounding.1 decimalMarket_float rfl (by simp [decimalMarket]) ⟨1, by simp⟩ decimalMarket_gap 99⟩

end Auctions.Props
