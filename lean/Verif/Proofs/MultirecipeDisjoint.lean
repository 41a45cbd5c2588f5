import Verif.Proofs.MultirecipeSingle

set_option autoImplicit false

/-! # Helper lemmas: the old auction with several recipes that share no category -/

namespace Auctions.Multirecipe

open Auctions Spec TreeAuction

/-- All remaining values are above the prices; no ties; and an own category that lost an agent is at most one smaller than the largest own category of the recipe. -/
structure Near (R : List (List ℕ)) (cats0 cats : List AgentCategory) (v : SimultaneousAscendingPriceVectors) : Prop where
  above : ∀ i, ∀ x ∈ valuesAt cats i, priceAt v i < x
  nodup : ∀ i, (valuesAt cats i).Nodup
  near : ∀ k < R.length, ∀ c, Owns R k c → valuesAt cats c = valuesAt cats0 c ∨ ∀ c', Owns R k c' → sizeAt cats c' ≤ sizeAt cats c + 1

theorem afterRemoval_above {l : List ℚ} {p : ℚ} (h : ∀ x ∈ l, p < x) : afterRemoval l p = l := by
  unfold afterRemoval
  rw [if_neg]
  rintro ⟨x, hx, hle⟩
  have := h x (List.mem_of_getLast? hx)
  linarith

theorem near_step {n : ℕ} {R : List (List ℕ)} {cats0 cats cats' : List AgentCategory} {v v' : SimultaneousAscendingPriceVectors} {s e : ℚ} {L : List ℕ}
    (h : Inv n R cats0 cats v s) (hn : Near R cats0 cats v) (hr : Raised R cats v L e cats' v') : Near R cats0 cats' v' := by
  have hout : ∀ i, i ∉ L → valuesAt cats' i = valuesAt cats i ∧ priceAt v' i = priceAt v i := by
    intro i hi
    have hp : priceAt v' i = priceAt v i := by rw [hr.price, if_neg hi, add_zero]
    exact ⟨by rw [hr.removed, hp, afterRemoval_above (hn.above i)], hp⟩
  have hin : ∀ i ∈ L, sizeAt cats i ≤ sizeAt cats' i + 1 ∧ ∀ x ∈ valuesAt cats' i, priceAt v' i < x := by
    intro i hi
    have hp : priceAt v' i = priceAt v i + e := by rw [hr.price, if_pos hi]
    have hle := hr.upTo i hi
    rw [sizeAt_eq, sizeAt_eq, hr.removed]
    unfold afterRemoval
    split
    · rename_i hlast
      obtain ⟨y, hy, hyp⟩ := hlast
      refine ⟨by rw [List.length_dropLast]; omega, fun x hx => ?_⟩
      have h1 : target cats i = y := by unfold target; rw [hy]; rfl
      have := dropLast_above (h.sorted i) (hn.nodup i) hy x hx
      linarith
    · rename_i hlast
      refine ⟨by omega, fun x hx => ?_⟩
      have h1 : priceAt v' i < target cats i := by
        by_contra hge
        apply hlast
        unfold target at hge
        cases hl : (valuesAt cats i).getLast? with
        | none => rw [List.getLast?_eq_none_iff] at hl; rw [hl] at hx; simp at hx
        | some y => rw [hl] at hge; exact ⟨y, rfl, not_lt.1 hge⟩
      exact lt_of_lt_of_le h1 (target_le (h.sorted i) x hx)
  have hsub : ∀ i, sizeAt cats' i ≤ sizeAt cats i := by
    intro i
    rw [sizeAt_eq, sizeAt_eq, hr.removed]
    obtain ⟨k', hk'⟩ := afterRemoval_take (valuesAt cats i) (priceAt v' i)
    rw [hk', List.length_take]; exact min_le_right _ _
  refine ⟨?_, ?_, ?_⟩
  · intro i x hx
    by_cases hi : i ∈ L
    · exact (hin i hi).2 x hx
    · rw [(hout i hi).1] at hx; rw [(hout i hi).2]; exact hn.above i x hx
  · intro i
    rw [hr.removed]
    obtain ⟨k', hk'⟩ := afterRemoval_take (valuesAt cats i) (priceAt v' i)
    rw [hk']; exact (hn.nodup i).sublist (List.take_sublist _ _)
  · intro k hk c hc
    by_cases hi : c ∈ L
    · right
      intro c' hc'
      obtain ⟨j, hj, e⟩ := hr.choice.mem hi
      have : j = k := hc.2 j hj (by have := (hr.choice.owns j hj).1; rwa [e] at this)
      subst this
      have h1 := hr.largest j hk c' hc'
      rw [e] at h1
      have := (hin c hi).1
      have := hsub c'
      omega
    · rw [(hout c hi).1]
      rcases hn.near k hk c hc with h1 | h1
      · exact Or.inl h1
      · right
        intro c' hc'
        have := h1 c' hc'
        have := hsub c'
        have e : sizeAt cats' c = sizeAt cats c := by rw [sizeAt_eq, sizeAt_eq, (hout c hi).1]
        omega

section

variable {order : List ℕ → List ℕ} {n : ℕ} {R : List (List ℕ)} {a : Analysis} {cats0 cats : List AgentCategory} {v : SimultaneousAscendingPriceVectors} {s : ℚ}

/-- How the loop ends if no category is shared. -/
theorem loop_disjoint (ho : ∀ l, (order l).Perm l) (hR : MultiRecipes n R) (hown : AllOwn R) (hno : ∀ c, ¬ SharedByAll R c) (ha : Analyzed n R a) (fuel : ℕ)
    (h : Inv n R cats0 cats v s) (hs : s < 0) :
    (fuel ≤ total cats ∧ loop order R.length a fuel cats v = .ok none) ∨
    (∃ k < R.length, 2 ≤ R.length ∧ loop order R.length a fuel cats v = .ok (some (.restart k)) ∧
      ∃ cats' v' s', s' < 0 ∧ Inv n R cats0 cats' v' s' ∧ ∀ c, Owns R k c → sizeAt cats' c = 0) ∨
    (∃ cats' v' s', loop order R.length a fuel cats v = .ok (some (.trade cats' v'.prices)) ∧ Inv n R cats0 cats' v' s' ∧
      (s' = 0 ∨ ∀ k < R.length, ∀ c, Owns R k c → sizeAt cats' c = 0) ∧
      ∃ v0 s0, s0 < 0 ∧ Inv n R cats0 cats' v0 s0 ∧ (Near R cats0 cats v → Near R cats0 cats' v0)) := by
  induction fuel generalizing cats v s with
  | zero => left; exact ⟨Nat.zero_le _, rfl⟩
  | succ fuel ih =>
    rcases loop_step ho hR hown ha h hs fuel with ⟨h1, h2⟩ | ⟨⟨c, hc⟩, -⟩ | ⟨k, hk, h1, h2, h3⟩ | ⟨v', h1, h2⟩ | ⟨cats', v', s', h1, h2, h3, h4, L, e, h5⟩
    · exact Or.inr (Or.inr ⟨cats, v, s, h2, h, Or.inr h1, v, s, hs, h, id⟩)
    · exact absurd hc (hno c)
    · exact Or.inr (Or.inl ⟨k, hk, h1, h3, cats, v, s, hs, h, h2⟩)
    · exact Or.inr (Or.inr ⟨cats, v', 0, h1, h2, Or.inl rfl, v, s, hs, h, id⟩)
    · rw [h1]
      rcases ih h3 h2 with ⟨e1, e2⟩ | e | ⟨cats2, v2, s2, e1, e2, e3, v0, s0, e4, e5, e6⟩
      · left; exact ⟨by omega, e2⟩
      · exact Or.inr (Or.inl e)
      · exact Or.inr (Or.inr ⟨cats2, v2, s2, e1, e2, e3, v0, s0, e4, e5, fun hn => e6 (near_step h hn h5)⟩)

end

/-- A selection of values: one for each category that the recipe needs. -/
theorem selection_neg {n : ℕ} {R : List (List ℕ)} {cats0 cats : List AgentCategory} {v : SimultaneousAscendingPriceVectors} {s : ℚ} (hR : MultiRecipes n R)
    (h : Inv n R cats0 cats v s) {k : ℕ} (hk : k < R.length) {x : ℕ → ℚ} (hx : ∀ c, Uses R k c → x c ∈ (valuesAt cats0 c).drop (sizeAt cats c)) :
    ∑ c ∈ Finset.range n, (rAt (R.getD k []) c : ℚ) * x c ≤ s := by
  have hmem := getD_mem hk
  rw [← h.balanced _ hmem, recipeSum_eq_sum (hR.length _ hmem) h.plen]
  refine Finset.sum_le_sum fun c hc => ?_
  rcases Nat.eq_zero_or_pos (rAt (R.getD k []) c) with h0 | h0
  · rw [h0]; simp
  · refine mul_le_mul_of_nonneg_left ?_ (by positivity)
    obtain ⟨j, h1, h2⟩ := h.left c
    have h3 := hx c h0
    refine h2 _ ?_
    rw [sizeAt_eq, h1, List.length_take] at h3
    by_cases hj : j ≤ (valuesAt cats0 c).length
    · rwa [min_eq_left hj] at h3
    · rw [min_eq_right (by omega), List.drop_length] at h3; simp at h3

/-- With no shared categories, a recipe owns all categories that it uses. -/
theorem owns_of_uses {n : ℕ} {R : List (List ℕ)} (hR : MultiRecipes n R) (hno : ∀ c, ¬ SharedByAll R c) {k c : ℕ} (hk : k < R.length) (hu : Uses R k c) : Owns R k c := by
  refine ⟨hu, fun j hj hju => ?_⟩
  rcases hR.shared c (uses_lt hR.length hk hu) with h | h
  · exact h j hj k hk hju hu
  · by_cases h2 : 2 ≤ R.length
    · exact absurd ⟨h2, h⟩ (hno c)
    · omega

/-- No procurement-set of the recipe has a gain of at least 0. -/
def Unprofitable (m : Market) (r : List ℕ) : Prop :=
  ∀ x : ℕ → ℚ, (∀ c, 0 < rAt r c → x c ∈ valuesAt m.sorted c) → ∑ c ∈ Finset.range m.numCategories, (rAt r c : ℚ) * x c < 0

theorem mem_eraseIdx {R : List (List ℕ)} {r : List ℕ} {k : ℕ} (hr : r ∈ R) (h : r ∉ R.eraseIdx k) : r = R.getD k [] := by
  obtain ⟨j, hj, rfl⟩ := List.getElem_of_mem hr
  by_cases hjk : j = k
  · subst hjk; simp [List.getD_eq_getElem?_getD, hj]
  · exfalso; apply h
    rw [List.mem_iff_getElem?]
    by_cases hlt : j < k
    · exact ⟨j, by rw [List.getElem?_eraseIdx_of_lt hlt, List.getElem?_eq_getElem hj]⟩
    · exact ⟨j - 1, by rw [List.getElem?_eraseIdx_of_ge (by omega), show j - 1 + 1 = j by omega, List.getElem?_eq_getElem hj]⟩

/-- What is returned if no category is shared. -/
structure Ended (m : Market) (R : List (List ℕ)) (t : Trade) (R' : List (List ℕ)) (cats : List AgentCategory) (v v0 : SimultaneousAscendingPriceVectors) (s s0 : ℚ) : Prop where
  sublist : R'.Sublist R
  recipes : MultiRecipes m.numCategories R'
  own : AllOwn R'
  notShared : ∀ c, ¬ SharedByAll R' c
  init : Trade.init cats R' v.prices = .ok t
  inv : Inv m.numCategories R' m.sorted cats v s
  zero : s = 0 ∨ ∀ k < R'.length, ∀ c, Owns R' k c → sizeAt cats c = 0
  neg : s0 < 0
  before : Inv m.numCategories R' m.sorted cats v0 s0
  near : (∀ l ∈ m.valueLists, ∀ x ∈ l, -MAX_VALUE < x) → (∀ l ∈ m.valueLists, l.Nodup) → Near R' m.sorted cats v0
  deleted : ∀ r ∈ R, r ∉ R' → Unprofitable m r

theorem start_near {m : Market} {R : List (List ℕ)} {p0 : List ℚ} (hp : ∀ x ∈ p0, x ≤ -MAX_VALUE) (hl : p0.length = m.numCategories)
    (hval : ∀ l ∈ m.valueLists, ∀ x ∈ l, -MAX_VALUE < x) (hnodup : ∀ l ∈ m.valueLists, l.Nodup) : Near R m.sorted m.sorted ⟨R, p0, none⟩ := by
  have hlen : m.valueLists.length = m.numCategories := by simp [Market.valueLists, Market.numCategories]
  refine ⟨?_, ?_, fun _ _ _ _ => Or.inl rfl⟩
  · intro i x hx
    rw [valuesAt_sorted, mem_sortDesc] at hx
    by_cases hil : i < m.valueLists.length
    · have h1 : priceAt ⟨R, p0, none⟩ i ≤ -MAX_VALUE := by
        unfold priceAt
        have : i < p0.length := by omega
        simp only [List.getD_eq_getElem?_getD, List.getElem?_eq_getElem this, Option.getD_some]
        exact hp _ (List.getElem_mem this)
      refine lt_of_le_of_lt h1 (hval (m.valueLists.getD i []) ?_ x hx)
      rw [List.getD_eq_getElem?_getD, List.getElem?_eq_getElem hil]; exact List.getElem_mem hil
    · rw [List.getD_eq_getElem?_getD, List.getElem?_eq_none (by omega)] at hx; simp at hx
  · intro i
    rw [valuesAt_sorted, (sortDesc_perm _).nodup_iff]
    by_cases hil : i < m.valueLists.length
    · refine hnodup _ ?_
      rw [List.getD_eq_getElem?_getD, List.getElem?_eq_getElem hil]; exact List.getElem_mem hil
    · rw [List.getD_eq_getElem?_getD, List.getElem?_eq_none (by omega)]; simp

theorem auction_disjoint {order : List ℕ → List ℕ} (ho : ∀ l, (order l).Perm l) {f : List (List ℕ) → ℚ → Py (List ℚ)} (hf : PriceContract f) {m : Market}
    (hval : ∀ l ∈ m.valueLists, ∀ x ∈ l, -MAX_VALUE ≤ x) {R : List (List ℕ)} (hR : MultiRecipes m.numCategories R) (hown : AllOwn R) (hno : ∀ c, ¬ SharedByAll R c) (fuel calls : ℕ)
    {t : Trade} (ht : auctionLoop order f m fuel calls R = .ok (some t)) :
    ∃ R' cats v v0 s s0, Ended m R t R' cats v v0 s s0 := by
  induction calls generalizing R with
  | zero => rw [auctionLoop] at ht; simp at ht
  | succ calls ih =>
    obtain ⟨a, ha, heq⟩ := auctionLoop_eq hR hown order f fuel calls
    rw [heq] at ht
    cases hp : f R (-MAX_VALUE) with
    | error e => rw [hp] at ht; simp [bind, Except.bind] at ht
    | ok p0 =>
      rw [hp] at ht
      have hcon := hf _ _ _ hp
      obtain ⟨s, hs, hinv⟩ := start hR hown hcon hval
      simp only [bind, Except.bind] at ht
      rcases loop_disjoint ho hR hown hno ha fuel hinv hs with ⟨h1, h2⟩ | ⟨k, hk, h2, h3, cats', v', s', h4, h5, h6⟩ | ⟨cats', v', s', h1, h2, h3, v0, s0, h4, h5, h6⟩
      · rw [h2] at ht; simp at ht
      · rw [h3] at ht
        simp only at ht
        rw [if_neg (by omega)] at ht
        obtain ⟨R', cats, v, v0, s1, s0, he⟩ := ih (multi_erase hk h2 hR) (allOwn_erase hk hown) (fun c hc => hno c (shared_erase hk hR hc)) ht
        refine ⟨R', cats, v, v0, s1, s0, ⟨he.sublist.trans (List.eraseIdx_sublist _ _), he.recipes, he.own, he.notShared, he.init, he.inv, he.zero, he.neg, he.before, he.near, ?_⟩⟩
        intro r hr hr'
        by_cases hmem : r ∈ R.eraseIdx k
        · exact he.deleted r hmem hr'
        · have := mem_eraseIdx hr hmem
          subst this
          intro x hx
          refine lt_of_le_of_lt (selection_neg hR h5 hk (x := x) fun c hc => ?_) h4
          rw [h6 c (owns_of_uses hR hno hk hc), List.drop_zero]
          exact hx c hc
      · rw [h1] at ht
        obtain ⟨u, b, hi, -⟩ := init_ok hR hown h2.len v'.prices
        simp only [hi, Except.ok.injEq, Option.some.injEq] at ht
        have hpl : p0.length = m.numCategories := hinv.plen
        exact ⟨R, cats', v', v0, s', s0, ⟨List.Sublist.refl _, hR, hown, hno, by rw [hi, ht], h2, h3, h4, h5,
          fun hv hn => h6 (start_near hcon.2.1 hpl hv hn), fun r hr hr' => absurd hr hr'⟩⟩

/-- The gain of the `j`-th procurement-set of a recipe of zeros and ones. -/
theorem blk_sum_binary {m : Market} {r : List ℕ} (hlen : r.length = m.numCategories) (hbin : ∀ x ∈ r, x = 0 ∨ x = 1) {j : ℕ} (hav : Avail m.sorted r j) :
    (blk m.sorted r j).sum = ∑ c ∈ Finset.range m.numCategories, (rAt r c : ℚ) * (valuesAt m.sorted c).getD j 0 := by
  rw [blk_sum (by rw [m.sorted_length]; exact hlen), m.sorted_length]
  refine Finset.sum_congr rfl fun c hc => ?_
  have hv : vAt m.sorted c = valuesAt m.sorted c := by
    unfold vAt valuesAt
    rw [List.getD_eq_getElem?_getD, List.getElem?_map]
    cases m.sorted[c]? <;> rfl
  have h1 := hav c (by rw [m.sorted_length]; exact Finset.mem_range.1 hc)
  have h01 : rAt r c = 0 ∨ rAt r c = 1 := by
    rw [rAt_eq_getElem (by rw [hlen]; exact Finset.mem_range.1 hc)]; exact hbin _ (List.getElem_mem _)
  rw [hv] at h1 ⊢
  rcases h01 with h0 | h0
  · rw [h0]; simp [seg]
  · rw [h0] at h1 ⊢
    have h2 : j < (valuesAt m.sorted c).length := by omega
    simp only [seg, mul_one, List.drop_eq_getElem_cons h2, List.take_succ_cons, List.take_zero, List.sum_cons, List.sum_nil, Nat.cast_one, one_mul, add_zero]
    simp [List.getD_eq_getElem?_getD, h2]

end Auctions.Multirecipe
