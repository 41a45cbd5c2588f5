import Verif.Props.TradeReductionTruthful
import Verif.Props.Ascending
import Mathlib.Tactic.Linarith
import Mathlib.Tactic.Ring

set_option autoImplicit false

/-!
# The ascending auction and trade reduction remove agents in comparable orders
-/

namespace Auctions.Comparison

open Auctions Spec Ascending TradeReduction Props

/-! ## Which category the clock loop chooses -/

theorem foldl_keep {α : Type} (f : α → ℚ) (l : List α) (x : α) (h : ∀ y ∈ l, f y ≤ f x) :
    l.foldl (fun best y => if f best < f y then y else best) x = x := by
  induction l with
  | nil => rfl
  | cons y l ih =>
    rw [List.foldl_cons, if_neg (not_lt.2 (h y (by simp)))]
    exact ih (fun z hz => h z (by simp [hz]))

theorem foldl_first {α : Type} (f : α → ℚ) (pre post : List α) (x y : α) (hy : f y < f x) (h1 : ∀ z ∈ pre, f z < f x)
    (h2 : ∀ z ∈ post, f z ≤ f x) :
    (pre ++ x :: post).foldl (fun best y => if f best < f y then y else best) y = x := by
  induction pre generalizing y with
  | nil =>
    rw [List.nil_append, List.foldl_cons, if_pos hy]
    exact foldl_keep f post x h2
  | cons z pre ih =>
    rw [List.cons_append, List.foldl_cons]
    refine ih _ ?_ (fun w hw => h1 w (by simp [hw]))
    split_ifs
    · exact h1 z (by simp)
    · exact hy

theorem pyMaxBy_first {α : Type} (f : α → ℚ) (pre post : List α) (x : α) (h1 : ∀ z ∈ pre, f z < f x)
    (h2 : ∀ z ∈ post, f z ≤ f x) : pyMaxBy f (pre ++ x :: post) = .ok x := by
  cases pre with
  | nil => simp only [List.nil_append, pyMaxBy]; rw [foldl_keep f post x h2]
  | cons y pre =>
    simp only [List.cons_append, pyMaxBy]
    rw [foldl_first f pre post x y (h1 y (by simp)) (fun z hz => h1 z (by simp [hz])) h2]

theorem rel_sorted' (cs : List AgentCategory) (r : List ℕ) : (rel cs r).Pairwise (· < ·) := by
  unfold rel relevantCategoryIndices
  exact List.Pairwise.sublist List.filter_sublist List.pairwise_lt_range

/-- The loop chooses the first category with the largest number of potential procurement-sets. -/
theorem mainOf_of {cs : List AgentCategory} {r : List ℕ} {s : ℕ → ℕ} {c : ℕ} (hc : c ∈ rel cs r)
    (hle : ∀ j ∈ rel cs r, s j * rAt r c ≤ s c * rAt r j) (hlt : ∀ j ∈ rel cs r, j < c → s j * rAt r c < s c * rAt r j) :
    mainOf r (rel cs r) s = .ok c := by
  obtain ⟨pre, post, he⟩ := List.append_of_mem hc
  have hs := rel_sorted' cs r
  unfold mainOf
  rw [he] at hs ⊢
  rw [List.pairwise_append] at hs
  have hcp : (0 : ℚ) < rAt r c := by exact_mod_cast (relevant_mem.1 hc).2
  refine pyMaxBy_first _ pre post c (fun z hz => ?_) (fun z hz => ?_)
  · have hz' : z ∈ rel cs r := by rw [he]; simp [hz]
    have hzp : (0 : ℚ) < rAt r z := by exact_mod_cast (relevant_mem.1 hz').2
    rw [div_lt_div_iff₀ hzp hcp]
    exact_mod_cast hlt z hz' (hs.2.2 z hz c (by simp))
  · have hz' : z ∈ rel cs r := by rw [he]; simp [hz]
    have hzp : (0 : ℚ) < rAt r z := by exact_mod_cast (relevant_mem.1 hz').2
    rw [div_le_div_iff₀ hzp hcp]
    exact_mod_cast hle z hz'

theorem mainOf_first {cs : List AgentCategory} {r : List ℕ} (hne : rel cs r ≠ []) {s : ℕ → ℕ} {c : ℕ}
    (h : mainOf r (rel cs r) s = .ok c) : ∀ j ∈ rel cs r, j < c → s j * rAt r c < s c * rAt r j := by
  obtain ⟨hc, hmax⟩ := mainOf_ok hne h
  by_contra hcon
  push Not at hcon
  -- the least category with the largest ratio
  have hex : ∃ j, j ∈ rel cs r ∧ s c * rAt r j ≤ s j * rAt r c := ⟨c, hc, le_refl _⟩
  classical
  have hb := Nat.find_spec hex
  have hmin := fun j hj => Nat.find_min hex (m := j) hj
  set b := Nat.find hex
  have hcp := (relevant_mem.1 hc).2
  have hbp := (relevant_mem.1 hb.1).2
  have hmb : mainOf r (rel cs r) s = .ok b := by
    refine mainOf_of hb.1 (fun j hj => ?_) (fun j hj hjb => ?_)
    · have h1 := hmax j hj
      have h2 := hb.2
      have h3 : s j * rAt r c * rAt r b ≤ s c * rAt r j * rAt r b := Nat.mul_le_mul_right _ h1
      have h4 : s c * rAt r b * rAt r j ≤ s b * rAt r c * rAt r j := Nat.mul_le_mul_right _ h2
      refine Nat.le_of_mul_le_mul_right (c := rAt r c) ?_ hcp
      calc s j * rAt r b * rAt r c = s j * rAt r c * rAt r b := by ring
        _ ≤ s c * rAt r j * rAt r b := h3
        _ = s c * rAt r b * rAt r j := by ring
        _ ≤ s b * rAt r c * rAt r j := h4
        _ = s b * rAt r j * rAt r c := by ring
    · have h1 : s j * rAt r c < s c * rAt r j := by
        by_contra hge
        exact hmin j hjb ⟨hj, not_lt.1 hge⟩
      have h2 := hb.2
      have h3 : s j * rAt r c * rAt r b < s c * rAt r j * rAt r b := Nat.mul_lt_mul_of_pos_right h1 hbp
      have h4 : s c * rAt r b * rAt r j ≤ s b * rAt r c * rAt r j := Nat.mul_le_mul_right _ h2
      refine Nat.lt_of_mul_lt_mul_right (a := rAt r c) ?_
      calc s j * rAt r b * rAt r c = s j * rAt r c * rAt r b := by ring
        _ < s c * rAt r j * rAt r b := h3
        _ = s c * rAt r b * rAt r j := by ring
        _ ≤ s b * rAt r c * rAt r j := h4
        _ = s b * rAt r j * rAt r c := by ring
  rw [h] at hmb
  have hcb : c = b := Except.ok.inj hmb
  obtain ⟨j, hj, hjc, hge⟩ := hcon
  exact hmin j (hcb ▸ hjc) ⟨hj, hge⟩

/-- Ties are broken towards the first category: a category that has lost an agent had a larger ratio than the categories before it. -/
theorem touched_strict {cs : List AgentCategory} {r : List ℕ} (hne : rel cs r ≠ []) {n : ℕ} {s : ℕ → ℕ} (hp : Path cs r n s) :
    ∀ i ∈ rel cs r, ∀ j ∈ rel cs r, j < i → s i < (vAt cs i).length → s j * rAt r i < (s i + 1) * rAt r j := by
  induction hp with
  | start => intro i _ j _ _ h; simp at h
  | @step n s c hp hc h0 hneg ih =>
    intro i hi j hj hji hlt
    have hmj : Function.update s c (s c - 1) j ≤ s j := update_le j
    by_cases hic : i = c
    · subst hic
      rw [Function.update_self, show s i - 1 + 1 = s i by omega]
      exact lt_of_le_of_lt (Nat.mul_le_mul_right _ hmj) (mainOf_first hne hc j hj hji)
    · rw [Function.update_of_ne hic] at hlt ⊢
      exact lt_of_le_of_lt (Nat.mul_le_mul_right _ hmj) (ih i hi j hj hji hlt)

/-! ## The order of the pivots -/

theorem toCategory_ge (r : List ℕ) (i₀ x : ℕ) (hx : x ∈ pivotIndexToCategoryIndex i₀ r) : i₀ ≤ x := by
  induction r generalizing i₀ with
  | nil => simp [pivotIndexToCategoryIndex] at hx
  | cons a r ih =>
    rw [pivotIndexToCategoryIndex, List.mem_append] at hx
    rcases hx with hx | hx
    · exact (List.eq_of_mem_replicate hx).ge
    · exact le_trans (by omega) (ih (i₀ + 1) hx)

theorem toCategory_pairwise (r : List ℕ) (i₀ : ℕ) : (pivotIndexToCategoryIndex i₀ r).Pairwise (· ≤ ·) := by
  induction r generalizing i₀ with
  | nil => simp [pivotIndexToCategoryIndex]
  | cons a r ih =>
    rw [pivotIndexToCategoryIndex, List.pairwise_append]
    refine ⟨List.pairwise_replicate.2 (Or.inr le_rfl), ih _, fun x hx y hy => ?_⟩
    rw [List.eq_of_mem_replicate hx]
    exact le_trans (by omega) (toCategory_ge r (i₀ + 1) y hy)

theorem mem_toCategory_iff (r : List ℕ) (x : ℕ) : x ∈ pivotIndexToCategoryIndex 0 r ↔ 0 < rAt r x := by
  have := count_toCategory r 0 x
  rw [Nat.zero_add] at this
  rw [← List.count_pos_iff, this]

/-- A suffix of the pivots is all of them, and starts with the first category; or it misses the first one. -/
theorem suffix_cases {r : List ℕ} {i : ℕ} {L : List ℕ} (h : (i :: L) <:+ pivotIndexToCategoryIndex 0 r) :
    ∃ f, 0 < rAt r f ∧ (∀ l, 0 < rAt r l → f ≤ l) ∧
      ((i = f ∧ ∀ l, (i :: L).count l = rAt r l) ∨ ((i :: L).count f + 1 ≤ rAt r f ∧ ∀ l, (i :: L).count l ≤ rAt r l)) := by
  have hcnt : ∀ l, (pivotIndexToCategoryIndex 0 r).count l = rAt r l := fun l => by
    have := count_toCategory r 0 l
    rwa [Nat.zero_add] at this
  cases hP : pivotIndexToCategoryIndex 0 r with
  | nil => rw [hP] at h; simp at h
  | cons f P =>
    have hs := toCategory_pairwise r 0
    rw [hP] at h hs hcnt
    refine ⟨f, ?_, fun l hl => ?_, ?_⟩
    · rw [← hcnt f]; simp
    · rw [← mem_toCategory_iff, hP] at hl
      rcases List.mem_cons.1 hl with rfl | hl
      · exact le_refl _
      · exact (List.pairwise_cons.1 hs).1 l hl
    · rcases List.suffix_cons_iff.1 h with he | hsuf
      · obtain ⟨rfl, rfl⟩ := List.cons.inj he
        exact Or.inl ⟨rfl, hcnt⟩
      · refine Or.inr ⟨?_, fun l => ?_⟩
        · have := hsuf.sublist.count_le f
          rw [← hcnt f, List.count_cons_self]
          omega
        · exact ((hsuf.sublist.trans (List.sublist_cons_self f P)).count_le l).trans (hcnt l).le

/-- How often each category occurs in a suffix of the pivots: not at all before its first category, in full after it. -/
theorem suffix_counts {r : List ℕ} {i : ℕ} {L : List ℕ} (h : (i :: L) <:+ pivotIndexToCategoryIndex 0 r) :
    (∀ l < i, (i :: L).count l = 0) ∧ (∀ l, i < l → (i :: L).count l = rAt r l) ∧ 1 ≤ (i :: L).count i ∧ (i :: L).count i ≤ rAt r i := by
  have hcnt : ∀ l, (pivotIndexToCategoryIndex 0 r).count l = rAt r l := fun l => by
    have := count_toCategory r 0 l
    rwa [Nat.zero_add] at this
  have hs := toCategory_pairwise r 0
  obtain ⟨pre, hpre⟩ := h
  rw [← hpre] at hs hcnt
  rw [List.pairwise_append] at hs
  refine ⟨fun l hl => ?_, fun l hl => ?_, ?_, ?_⟩
  · refine List.count_eq_zero.2 fun hm => ?_
    rcases List.mem_cons.1 hm with rfl | hm
    · omega
    · have := (List.pairwise_cons.1 hs.2.1).1 l hm
      omega
  · have h1 := hcnt l
    rw [List.count_append] at h1
    have : pre.count l = 0 := List.count_eq_zero.2 fun hm => by
      have := hs.2.2 l hm i (by simp)
      omega
    omega
  · rw [List.count_cons_self]; omega
  · have h1 := hcnt i
    rw [List.count_append] at h1
    omega

/-- The clock loop reaches a state `a` with a negative sum of clocks, if no state above `a` makes it choose a category that is already at
its size in `a`. -/
theorem reach {m : Market} {r : List ℕ} (h' : r.length = m.sorted.length) (hne : rel m.sorted r ≠ [])
    (hv : ∀ i < m.sorted.length, ∀ v ∈ vAt m.sorted i, -MAX_VALUE ≤ v) {a : ℕ → ℕ} (hneg : clockSum m.sorted r a < 0)
    (ha : ∀ s c, (∀ l, a l ≤ s l) → (∀ l, s l ≤ (vAt m.sorted l).length) → mainOf r (rel m.sorted r) s = .ok c → s c = a c → s = a) :
    ∀ k n s, Path m.sorted r n s → (∀ l, a l ≤ s l) → ∑ l ∈ Finset.range m.sorted.length, s l = k → ∃ n', Path m.sorted r n' a := by
  intro k
  induction k using Nat.strong_induction_on with
  | _ k ih =>
    intro n s hp has hk
    by_cases hsa : s = a
    · exact ⟨n, hsa ▸ hp⟩
    have hinv := (hp.inv h' hne).1
    obtain ⟨c, hc, hcrel, -⟩ := mainOf_spec hne s
    have hcl := (relevant_mem.1 hcrel).1
    have hcc : a c < s c := lt_of_le_of_ne (has c) (fun h => hsa (ha s c has hinv.le hc h.symm))
    have has' : ∀ l, a l ≤ Function.update s c (s c - 1) l := by
      intro l
      by_cases hl : l = c
      · subst hl; rw [Function.update_self]; omega
      · rw [Function.update_of_ne hl]; exact has l
    have hneg' : clockSum m.sorted r (Function.update s c (s c - 1)) < 0 :=
      lt_of_le_of_lt (clockSum_antitone h' hv (fun l _ => has' l)) hneg
    refine ih _ ?_ (n + 1) _ (Path.step hp hc (by omega) hneg') has' rfl
    rw [← hk]
    refine Finset.sum_lt_sum (fun l _ => update_le l) ⟨c, Finset.mem_range.2 hcl, ?_⟩
    rw [Function.update_self]; omega

/-- The clocks after the `j`-th procurement-set has been used up are at most its values. -/
theorem clockSum_le_blk {m : Market} {r : List ℕ} (h' : r.length = m.sorted.length)
    (hv : ∀ i < m.sorted.length, ∀ v ∈ vAt m.sorted i, -MAX_VALUE ≤ v) {a : ℕ → ℕ} {j : ℕ} (hav : Avail m.sorted r j)
    (ha : ∀ l < m.sorted.length, (j + 1) * rAt r l ≤ a l) : clockSum m.sorted r a ≤ (blk m.sorted r j).sum := by
  rw [blk_sum h', clockSum_eq h']
  refine Finset.sum_le_sum fun l hl => ?_
  have hl' := Finset.mem_range.1 hl
  have hlen : (seg (vAt m.sorted l) (rAt r l) j).length = rAt r l := seg_length (hav l hl')
  have hb : ∀ x ∈ seg (vAt m.sorted l) (rAt r l) j, clock (vAt m.sorted l) (a l) ≤ x := by
    intro x hx
    obtain ⟨t, ht, rfl⟩ := List.getElem_of_mem hx
    rw [seg_getElem]
    have h1 := ha l hl'
    have h2 : (j + 1) * rAt r l = j * rAt r l + rAt r l := by ring
    have h3 := hav l hl'
    rw [← clock_of_lt (show j * rAt r l + t < (vAt m.sorted l).length by omega)]
    exact clock_antitone (sorted_vAt m l) (hv l hl') (by omega)
  have := List.card_nsmul_le_sum _ _ hb
  rw [hlen, nsmul_eq_mul] at this
  exact this

/-- An exhausted category keeps the sum of the clocks negative. -/
theorem clockSum_exhausted {m : Market} {r : List ℕ} (h' : r.length = m.sorted.length)
    (hv : ∀ i < m.sorted.length, ∀ v ∈ vAt m.sorted i, (r.sum : ℚ) * v < MAX_VALUE) {a : ℕ → ℕ} {e : ℕ} (he : e < m.sorted.length)
    (hre : 0 < rAt r e) (hea : (vAt m.sorted e).length ≤ a e) : clockSum m.sorted r a < 0 := by
  have hsum : (r.sum : ℚ) = ∑ i ∈ Finset.range m.sorted.length, (rAt r i : ℚ) := by
    rw [← h']
    clear h' hv he hre hea
    induction r with
    | nil => simp
    | cons x r ih =>
      rw [List.sum_cons, List.length_cons, Finset.sum_range_succ', Nat.cast_add, ih]
      simp [rAt, add_comm]
  have hR : (1 : ℚ) ≤ r.sum := by
    rw [hsum]
    have h1 : (1 : ℚ) ≤ rAt r e := by exact_mod_cast hre
    exact le_trans h1 (Finset.single_le_sum (f := fun i => (rAt r i : ℚ)) (fun i _ => by positivity) (Finset.mem_range.2 he))
  have hM : (0 : ℚ) < MAX_VALUE := by norm_num [MAX_VALUE]
  have hcl : ∀ i < m.sorted.length, (r.sum : ℚ) * clock (vAt m.sorted i) (a i) ≤ MAX_VALUE := by
    intro i hi
    by_cases h1 : a i < (vAt m.sorted i).length
    · rw [clock_of_lt h1]; exact (hv i hi _ (List.getElem_mem h1)).le
    · rw [clock_of_ge (by omega)]
      nlinarith
  have hle : (r.sum : ℚ) * clockSum m.sorted r a ≤ ((r.sum : ℚ) - rAt r e) * MAX_VALUE - rAt r e * (r.sum * MAX_VALUE) := by
    have hE : (∑ i ∈ (Finset.range m.sorted.length).erase e, (rAt r i : ℚ)) = (r.sum : ℚ) - rAt r e := by
      rw [hsum, ← Finset.add_sum_erase _ _ (Finset.mem_range.2 he)]
      ring
    rw [clockSum_eq h', Finset.mul_sum, ← Finset.add_sum_erase _ _ (Finset.mem_range.2 he)]
    have h1 : (r.sum : ℚ) * (rAt r e * clock (vAt m.sorted e) (a e)) = - (rAt r e * (r.sum * MAX_VALUE)) := by
      rw [clock_of_ge hea]; ring
    have h2 : ∑ i ∈ (Finset.range m.sorted.length).erase e, (r.sum : ℚ) * (rAt r i * clock (vAt m.sorted i) (a i))
        ≤ (∑ i ∈ (Finset.range m.sorted.length).erase e, (rAt r i : ℚ)) * MAX_VALUE := by
      rw [Finset.sum_mul]
      refine Finset.sum_le_sum fun i hi => ?_
      have hi' := Finset.mem_range.1 (Finset.mem_of_mem_erase hi)
      have := mul_le_mul_of_nonneg_left (hcl i hi') (show (0 : ℚ) ≤ rAt r i by positivity)
      linarith
    rw [hE] at h2
    rw [h1]
    linarith
  have hre' : (1 : ℚ) ≤ rAt r e := by exact_mod_cast hre
  have hneg : (r.sum : ℚ) * clockSum m.sorted r a < 0 := by
    have h3 : (r.sum : ℚ) * MAX_VALUE ≤ rAt r e * (r.sum * MAX_VALUE) := by nlinarith [mul_pos (lt_of_lt_of_le one_pos hR) hM]
    have h4 : (0 : ℚ) < rAt r e * MAX_VALUE := by nlinarith
    linarith
  by_contra hge
  have := mul_nonneg (le_trans zero_le_one hR) (not_lt.1 hge)
  linarith

end Auctions.Comparison
