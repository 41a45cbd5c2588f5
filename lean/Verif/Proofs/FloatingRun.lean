import Verif.Proofs.FloatingError

set_option autoImplicit false

/-! # A run of the ascending auction with rounded arithmetic -/

namespace Auctions.Floating

open Auctions.Spec Auctions.Ascending

theorem ascendingLoop_more (fl : ℚ → ℚ) {r rl : List ℕ} {fuel : ℕ} {m : Market} {p : AscendingPriceVector} {x : Market × AscendingPriceVector}
    (h : ascendingLoop fl r rl fuel m p = .ok (some x)) {fuel' : ℕ} (hf : fuel ≤ fuel') : ascendingLoop fl r rl fuel' m p = .ok (some x) := by
  induction fuel generalizing m p fuel' with
  | zero => simp [ascendingLoop] at h
  | succ fuel ih =>
    obtain ⟨f, rfl⟩ : ∃ f, fuel' = f + 1 := ⟨fuel' - 1, by omega⟩
    unfold ascendingLoop at h ⊢
    cases h1 : pyMaxBy (fractionalPotentialPs fl m r) rl with
    | error e => rw [h1] at h; simp [bind, Except.bind] at h
    | ok c =>
      simp only [h1, bind, Except.bind] at h ⊢
      cases h2 : pyGet m.categories c with
      | error e => rw [h2] at h; simp at h
      | ok cat =>
        simp only [h2] at h ⊢
        split_ifs at h ⊢ with h3
        · exact h
        · cases h4 : cat.lowestAgentValue with
          | error e => rw [h4] at h; simp at h
          | ok v =>
            simp only [h4] at h ⊢
            cases h5 : increasePriceUpToBalance fl p c v with
            | error e => rw [h5] at h; simp at h
            | ok p' =>
              simp only [h5] at h ⊢
              split_ifs at h ⊢ with h6
              · exact h
              · cases h7 : cat.removeLowestAgent with
                | error e => rw [h7] at h; simp at h
                | ok cat' =>
                  simp only [h7] at h ⊢
                  exact ih h (by omega)

theorem ascendingAuction_more (fl : ℚ → ℚ) {m : Market} {r : List ℕ} {fuel N : ℕ} {t : TradeWithSinglePrice} (h : ascendingAuction fl m r fuel N = .ok (some t)) {fuel' : ℕ} (hf : fuel ≤ fuel') :
    ascendingAuction fl m r fuel' N = .ok (some t) := by
  unfold ascendingAuction at h ⊢
  split_ifs at h ⊢ with h1
  cases h2 : optimalTrade fl m r N with
  | error e => rw [h2] at h; simp [bind, Except.bind] at h
  | ok y =>
    simp only [h2, bind, Except.bind] at h ⊢
    cases h3 : m.clone with
    | error e => rw [h3] at h; simp at h
    | ok m' =>
      simp only [h3] at h ⊢
      cases h4 : ascendingLoop fl r (relevantCategoryIndices m r) fuel m' (AscendingPriceVector.init r (-MAX_VALUE)) with
      | error e => rw [h4] at h; simp at h
      | ok o =>
        cases o with
        | none => rw [h4] at h; simp at h
        | some x =>
          rw [h4] at h
          rw [ascendingLoop_more fl h4 hf]
          exact h

theorem flAuction_inv {fl : ℚ → ℚ} {m : Market} {r : List ℕ} {fuel N : ℕ} {t : TradeWithSinglePrice} (h : ascendingAuction fl m r fuel N = .ok (some t)) :
    r.length = m.numCategories ∧ m.categories ≠ [] ∧ ∃ x ∈ r, 0 < x := by
  by_cases hl : r.length = m.numCategories
  swap
  · simp [ascendingAuction, hl] at h
  by_cases hc : m.categories = []
  · have : optimalTrade fl m r N = .error .valueError := by
      simp [optimalTrade, hl, Market.clone, hc, Market.init, bind, Except.bind]
    simp [ascendingAuction, hl, this, bind, Except.bind] at h
  refine ⟨hl, hc, ?_⟩
  by_contra hpos
  push Not at hpos
  have hrel : relevantCategoryIndices m r = [] := by
    unfold relevantCategoryIndices
    rw [List.filter_eq_nil_iff]
    intro i hi
    simp only [List.mem_range] at hi
    rw [recipeAt_eq, rAt_eq_getElem (by omega)]
    have := hpos r[i] (List.getElem_mem _)
    simp only [gt_iff_lt, decide_eq_true_eq, not_lt]; omega
  obtain ⟨x, hx⟩ := optimalTrade_ok fl hl hc N true
  cases fuel with
  | zero => simp [ascendingAuction, hl, hx, bind, Except.bind, Market.clone_eq hc, hrel, ascendingLoop] at h
  | succ fuel => simp [ascendingAuction, hl, hx, bind, Except.bind, Market.clone_eq hc, hrel, ascendingLoop, pyMaxBy] at h

section
variable {fl : ℚ → ℚ} (hf : Rounding fl) {m : Market} {r : List ℕ} {M k : ℕ} (h : FloatReports m r M k)
include hf h

omit hf in
theorem report_bound (i : ℕ) : ∀ v ∈ vAt m.sorted i, Double v ∧ |v| ≤ M := by
  intro v hv
  rw [vAt_sorted, mem_sortDesc] at hv
  by_cases hi : i < m.categories.length
  · rw [vAt_eq_getElem hi] at hv
    obtain ⟨h1, h2, -⟩ := h.float _ (List.getElem_mem hi) v hv
    exact ⟨h1, h2⟩
  · rw [vAt_of_ge (by omega)] at hv; simp at hv

omit hf in
theorem report_low (i : ℕ) : ∀ v ∈ vAt m.sorted i, -MAX_VALUE ≤ v := by
  intro v hv
  rw [vAt_sorted, mem_sortDesc] at hv
  by_cases hi : i < m.categories.length
  · rw [vAt_eq_getElem hi] at hv
    obtain ⟨-, -, h3⟩ := h.float _ (List.getElem_mem hi) v hv
    simpa [MAX_VALUE] using h3
  · rw [vAt_of_ge (by omega)] at hv; simp at hv

omit hf in
theorem sorted_sizes (s : ℕ → ℕ) : Sizes (mkMarket m.sorted s).categories r := by
  intro c hc n hn
  obtain ⟨i, hi, rfl⟩ := List.getElem_of_mem hc
  rw [mkMarket_length] at hi
  have e := mkMarket_get (s := s) hi
  rw [List.getElem?_eq_getElem (by rw [mkMarket_length]; exact hi), Option.some.injEq] at e
  rw [e]
  have hi' : i < m.categories.length := by rw [m.sorted_length] at hi; exact hi
  have h1 := h.sizes _ (List.getElem_mem hi') n hn
  refine le_trans (Nat.mul_le_mul_right _ ?_) h1
  have h2 : ((vAt m.sorted i).take (s i)).length ≤ m.categories[i].values.length := by
    rw [List.length_take, vAt_sorted, sortDesc_length, vAt_eq_getElem hi']
    omega
  show 4 * (((vAt m.sorted i).take (s i)).length + 1) ≤ _
  omega

theorem flMain_eq {s : ℕ → ℕ} (hs : ∀ i, s i ≤ (vAt m.sorted i).length) : flMain fl r (rel m.sorted r) s = mainOf r (rel m.sorted r) s := by
  have h1 := main_eq hf (m := mkMarket m.sorted s) (sorted_sizes h s) (relevant := rel m.sorted r) (by
    intro i hi
    obtain ⟨h2, h3⟩ := relevant_mem.1 hi
    exact ⟨by show i < (mkMarket m.sorted s).categories.length; rw [mkMarket_length]; exact h2, by rw [recipeAt_eq]; exact h3⟩)
  have e1 : pyMaxBy (fractionalPotentialPs fl (mkMarket m.sorted s) r) (rel m.sorted r) = flMain fl r (rel m.sorted r) s :=
    pyMaxBy_congr fun i hi => by
      obtain ⟨hil, -⟩ := relevant_mem.1 hi
      simp only [fractionalPotentialPs, recipeAt_eq, sizeAt_mkMarket hil (hs i)]
  have e2 : pyMaxBy (Ascending.fractionalPotentialPs (mkMarket m.sorted s) r) (rel m.sorted r) = mainOf r (rel m.sorted r) s :=
    pyMaxBy_congr fun i hi => by
      obtain ⟨hil, -⟩ := relevant_mem.1 hi
      simp only [Ascending.fractionalPotentialPs, recipeAt_eq, sizeAt_mkMarket hil (hs i)]
  rw [← e1, ← e2, h1]

theorem flInit_eq (s : ℕ → ℕ) (p : Option (List ℚ)) : initTrade fl (mkMarket m.sorted s).categories r p = TradeWithSinglePrice.init (mkMarket m.sorted s).categories r p := by
  unfold initTrade TradeWithSinglePrice.init
  rw [potentialDeals_eq hf (sorted_sizes h s)]

/-- What is known along the run. -/
structure FlInv (cs : List AgentCategory) (r : List ℕ) (e : ℚ) (s : ℕ → ℕ) : Prop where
  sum : clockSum cs r s < e
  unused : ∀ i, i ∉ rel cs r → s i = (vAt cs i).length
  touched : ∀ i ∈ rel cs r, ∀ j ∈ rel cs r, s i < (vAt cs i).length → s j * rAt r i ≤ (s i + 1) * rAt r j

theorem FlPath.flInv (hl : r.length = m.sorted.length) (hne : rel m.sorted r ≠ []) {n : ℕ} {s : ℕ → ℕ} (hp : FlPath fl m.sorted r n s) :
    FlInv m.sorted r ((2 * r.length + 3) * (1 / 2 ^ k)) s := by
  have hu : (0 : ℚ) < 1 / 2 ^ k := by positivity
  have hl0 : (0 : ℚ) ≤ r.length := by positivity
  induction hp with
  | start =>
    have := (Path.start (cs := m.sorted) (r := r)).inv hl hne
    refine ⟨this.1.neg.trans ?_, this.1.unused, this.1.touched⟩
    positivity
  | @step n s c hp hc h0 hneg ih =>
    have hle := (hp.inv hne).1
    rw [flMain_eq hf h hle] at hc
    obtain ⟨hcm, harg⟩ := mainOf_ok hne hc
    obtain ⟨hcl, -⟩ := relevant_mem.1 hcm
    obtain ⟨x, hx1, hx2, -⟩ := flNewSum_sign hf hl (report_bound h) h.constant h.digits h.categories hcl s
    refine ⟨?_, fun i hi => ?_, ?_⟩
    · have hx : x < 0 := by
        by_contra hc
        exact absurd (hx1.2 (not_lt.1 hc)) (not_le.2 hneg)
      have := (abs_le.1 hx2).1
      linarith
    · have : i ≠ c := by rintro rfl; exact hi hcm
      rw [Function.update_of_ne this]; exact ih.unused i hi
    · intro i hi j hj hlt
      by_cases hic : i = c
      · subst hic
        simp only [Function.update_self]
        have h1 : s i - 1 + 1 = s i := by omega
        rw [h1]
        exact le_trans (Nat.mul_le_mul_right _ (update_le j)) (harg j hj)
      · rw [Function.update_of_ne hic] at hlt ⊢
        exact le_trans (Nat.mul_le_mul_right _ (update_le j)) (ih.touched i hi j hj hlt)

/-- The outcome of the auction, described with the exact category sizes. -/
theorem fl_outcome {fuel N : ℕ} {t : TradeWithSinglePrice} (ht : ascendingAuction fl m r fuel N = .ok (some t)) :
    ∃ n s p d, FlPath fl m.sorted r n s ∧ FlEnding fl m.sorted r s p ∧ t = ⟨(mkMarket m.sorted s).categories, r, some p, d⟩ ∧
      (∀ i < m.sorted.length, d * rAt r i ≤ s i) ∧ ∀ e, (∀ i < m.sorted.length, e * rAt r i ≤ s i) → e ≤ d := by
  obtain ⟨hl, hcat, hpos⟩ := flAuction_inv ht
  have hl' : r.length = m.sorted.length := by rw [m.sorted_length]; exact hl
  have hne := rel_ne_nil hl hpos
  rcases flAuction_spec fl hl hcat hpos fuel N with ⟨h1, -⟩ | ⟨t', h1, n, s, p, d, hp, he, hi, e⟩
  · rw [ht] at h1; simp at h1
  · rw [ht] at h1
    obtain rfl : t = t' := by simpa using h1
    refine ⟨n, s, p, d, hp, he, e, ?_⟩
    rw [flInit_eq hf h, e] at hi
    have hle := (hp.inv hne).1
    rcases trade_init_spec (mkMarket m.sorted s).categories r (some p) with ⟨h0, -⟩ | ⟨-, d', h2, h3, h4⟩
    · obtain ⟨c, hc⟩ := List.exists_mem_of_ne_nil _ hne
      obtain ⟨hc1, hc2⟩ := relevant_mem.1 hc
      have := h0 c (by rw [mkMarket_length]; exact hc1)
      omega
    · rw [h2] at hi
      simp only [Except.ok.injEq, TradeWithSinglePrice.mk.injEq, true_and] at hi
      subst hi
      rw [mkMarket_length] at h3 h4
      simp only [vAt_mkMarket, List.length_take, min_eq_left (hle _)] at h3 h4
      exact ⟨h3, h4⟩

end

end Auctions.Floating
