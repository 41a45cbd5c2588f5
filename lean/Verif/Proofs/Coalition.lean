import Verif.Spec.Coalition
import Verif.Proofs.OptimalTrade
import Verif.Proofs.Lists

set_option autoImplicit false

/-!
# Coalitions: what all auctions have in common

If every member of a coalition wins by the agreement, then every member stays, at a price below its true value; it remains to show, for each auction, that the truth leads to the
same prices and the same agents leaving.
-/

namespace Auctions

open Spec

theorem countP_lt_of {α : Type*} {p q : α → Bool} {l : List α} {a : α} (ha : a ∈ l) (h : ∀ x ∈ l, p x = true → q x = true) (hq : q a = true) (hp : p a = false) :
    l.countP p < l.countP q := by
  induction l with
  | nil => simp at ha
  | cons x l ih =>
    have hmono : l.countP p ≤ l.countP q := List.countP_mono_left fun y hy => h y (by simp [hy])
    rcases List.mem_cons.1 ha with rfl | ha'
    · rw [List.countP_cons_of_pos hq, List.countP_cons_of_neg (by simp [hp])]
      omega
    · have := ih ha' (fun y hy => h y (by simp [hy]))
      by_cases hx : p x = true
      · rw [List.countP_cons_of_pos hx, List.countP_cons_of_pos (h x (by simp) hx)]; omega
      · rw [List.countP_cons_of_neg hx, List.countP_cons]; omega

theorem given_append (A B : List (ℕ × ℚ)) (j : ℕ) : given (A ++ B) j = given A j ++ given B j := by simp [given]

theorem mem_given {A : List (ℕ × ℚ)} {j : ℕ} {v : ℚ} : v ∈ given A j ↔ (j, v) ∈ A := by
  simp only [given, List.mem_map, List.mem_filter, decide_eq_true_eq]
  constructor
  · rintro ⟨⟨i, w⟩, ⟨h1, h2⟩, h3⟩
    simp only at h2 h3
    rw [← h2, ← h3]; exact h1
  · intro h
    exact ⟨(j, v), ⟨h, rfl⟩, rfl⟩

theorem length_given_truth (C : List Member) (j : ℕ) : (given (truth C) j).length = (given (reports C) j).length := by
  simp only [given, List.length_map, truth, reports, List.filter_map]
  rfl

theorem staying_all {A : List (ℕ × ℚ)} {stays : ℕ → Bool} (h : ∀ k < A.length, stays k = true) : staying A stays = A := by
  unfold staying
  rw [List.filter_eq_self.2]
  · exact List.zipIdx_map_fst 0 A
  · rintro ⟨x, k⟩ hx
    have := List.mem_zipIdx hx
    exact h k (by omega)

theorem mem_staying {A : List (ℕ × ℚ)} {stays : ℕ → Bool} {k : ℕ} (hk : k < A.length) (h : stays k = true) : A[k] ∈ staying A stays := by
  unfold staying
  refine List.mem_map.2 ⟨(A[k], k), List.mem_filter.2 ⟨?_, h⟩, rfl⟩
  rw [List.mem_zipIdx_iff_getElem?]
  simp [hk]

theorem count_given (A : List (ℕ × ℚ)) (j : ℕ) (v : ℚ) : (given A j).count v = A.countP fun x => x.1 = j ∧ x.2 = v := by
  unfold given
  rw [List.count, List.countP_map, List.countP_filter]
  refine List.countP_congr fun x _ => ?_
  simp [and_comm]

theorem count_staying_le (A : List (ℕ × ℚ)) (stays : ℕ → Bool) (j : ℕ) (v : ℚ) : (given (staying A stays) j).count v ≤ (given A j).count v := by
  rw [count_given, count_given]
  unfold staying
  conv_rhs => rw [← List.zipIdx_map_fst 0 A]
  rw [List.countP_map, List.countP_map, List.countP_filter]
  exact List.countP_mono_left fun x _ hx => by simp at hx ⊢; exact hx.1

theorem count_staying_lt {A : List (ℕ × ℚ)} {stays : ℕ → Bool} {k : ℕ} (hk : k < A.length) (h : stays k = false) :
    (given (staying A stays) A[k].1).count A[k].2 < (given A A[k].1).count A[k].2 := by
  have hm : (A[k], k) ∈ A.zipIdx := by
    rw [List.mem_zipIdx_iff_getElem?]
    simp [hk]
  generalize A[k] = x at hm ⊢
  rw [count_given, count_given]
  unfold staying
  conv_rhs => rw [← List.zipIdx_map_fst 0 A]
  rw [List.countP_map, List.countP_map, List.countP_filter]
  refine countP_lt_of hm (fun x _ hx => ?_) (by simp) (by simp [h])
  simp at hx ⊢; exact hx.1

theorem count_subperm {l l' : List ℚ} (h : l.Subperm l') (v : ℚ) : l.count v ≤ l'.count v := List.subperm_iff_count.1 h v

/-- Whoever is not among those that left, stays. -/
theorem stays_of {m : Market} {A : List (ℕ × ℚ)} {R : ℕ → List ℚ} {stays : ℕ → Bool} (h : Stay m A R stays) {k : ℕ} (hk : k < A.length) {D : List ℚ}
    (hD : (given A A[k].1 ++ m.valueLists.getD A[k].1 []).Perm (R A[k].1 ++ D)) (hn : A[k].2 ∉ D) : stays k = true := by
  by_contra hne
  have hlt := count_staying_lt hk (by simpa using hne)
  obtain ⟨others, h1, h2⟩ := h A[k].1
  have e1 := hD.count_eq A[k].2
  have e2 := h2.count_eq A[k].2
  rw [List.count_append, List.count_append, List.count_eq_zero_of_not_mem hn] at e1
  rw [List.count_append] at e2
  have := count_subperm h1 A[k].2
  omega

/-- The coalition's reports and its true values in a sorted category: if the coalition stays among the first `k`, its true values are at least `p` and those who leave
report at most `p`, then the same agents leave when the coalition tells the truth. -/
theorem coalition_lists {X bs vs O : List ℚ} {k : ℕ} {p : ℚ} (hlen : vs.length = bs.length) (hk : k ≤ (bs ++ X).length)
    (hR : ((sortDesc (bs ++ X)).take k).Perm (bs ++ O)) (hv : ∀ v ∈ vs, p ≤ v) (hsep : ∀ x ∈ (sortDesc (bs ++ X)).drop k, x ≤ p) :
    (sortDesc (vs ++ X)).drop k = (sortDesc (bs ++ X)).drop k ∧ (sortDesc (vs ++ X)).take k = sortDesc (vs ++ O) := by
  set L := sortDesc (bs ++ X) with hL
  have hLs : SortedDesc L := sortDesc_sorted _
  have hX : X.Perm (O ++ L.drop k) := by
    have h1 : (bs ++ X).Perm (bs ++ (O ++ L.drop k)) := by
      refine (sortDesc_perm (bs ++ X)).symm.trans ?_
      rw [← hL, ← List.append_assoc]
      conv_lhs => rw [← List.take_append_drop k L]
      exact hR.append_right _
    exact (List.perm_append_left_iff bs).1 h1
  have e : sortDesc (vs ++ X) = sortDesc (vs ++ O) ++ L.drop k := by
    refine eq_of_perm_of_sorted ?_ (sortDesc_sorted _) ?_
    · refine (sortDesc_perm _).trans ?_
      refine (hX.append_left vs).trans ?_
      rw [← List.append_assoc]
      exact (sortDesc_perm _).symm.append_right _
    · unfold SortedDesc
      rw [List.pairwise_append]
      refine ⟨sortDesc_sorted _, hLs.drop _, ?_⟩
      intro a ha y hy
      rw [mem_sortDesc, List.mem_append] at ha
      rcases ha with ha | ha
      · exact le_trans (hsep y hy) (hv a ha)
      · exact hLs.take_ge_drop _ a (hR.mem_iff.2 (List.mem_append_right _ ha)) y hy
  have hl : (sortDesc (vs ++ O)).length = k := by
    have := hR.length_eq
    rw [List.length_take, hL, sortDesc_length, min_eq_left hk, List.length_append] at this
    rw [sortDesc_length, List.length_append]
    omega
  rw [e]
  exact ⟨by rw [List.drop_append_of_le_length (by omega), List.drop_of_length_le (by omega), List.nil_append],
    by rw [List.take_append_of_le_length (by omega), List.take_of_length_le (by omega)]⟩

theorem withAgents_length (m : Market) (A : List (ℕ × ℚ)) : (withAgents m A).numCategories = m.numCategories := by
  simp [withAgents, Market.numCategories]

theorem vAt_withAgents (m : Market) (A : List (ℕ × ℚ)) {i : ℕ} (h : i < m.numCategories) :
    vAt (withAgents m A).categories i = given A i ++ vAt m.categories i := by
  have h' : i < m.categories.length := h
  unfold vAt withAgents
  simp [h']

theorem singleChance_nonneg (t : TradeWithSinglePrice) (i : ℕ) : 0 ≤ singleChance t i := by
  unfold singleChance
  exact div_nonneg (by exact_mod_cast Nat.zero_le _) (by exact_mod_cast Nat.zero_le _)

/-- What remains to be shown for an auction. -/
theorem unprofitable_of {m : Market} {C : List Member} {remT remB : ℕ → List ℚ} {chT chB prT prB : ℕ → ℚ} (hcT : ∀ j, 0 ≤ chT j) (hcB : ∀ j, 0 ≤ chB j)
    (hIR : ∀ j, ∀ v ∈ remT j, (j, v) ∈ truth C → 0 < chT j → prT j ≤ v)
    (hsame : (∀ j, ∃ others, others.Subperm (m.valueLists.getD j []) ∧ (remB j).Perm (given (reports C) j ++ others)) →
      C ≠ [] → (∀ x ∈ C, prB x.category < x.value) → (∀ x ∈ C, 0 < chB x.category) →
      (∀ x ∈ C, chT x.category = chB x.category ∧ prT x.category = prB x.category ∧
        ∃ D, (given (truth C) x.category ++ m.valueLists.getD x.category []).Perm (remT x.category ++ D) ∧
          ∀ y ∈ D, y ≤ prT x.category)) :
    Unprofitable m C remT remB chT chB prT prB := by
  intro staysT staysB hT hB
  have hnonneg : ∀ (k : ℕ) (hk : k < C.length), 0 ≤ memberUtility (chT) (prT) (staysT k) C[k] := by
    intro k hk
    unfold memberUtility
    split_ifs with hs
    · rcases (hcT C[k].category).eq_or_lt with h0 | h0
      · rw [← h0]; simp
      · obtain ⟨others, -, h2⟩ := hT C[k].category
        have hk' : k < (truth C).length := by simpa [truth] using hk
        have hmem : (C[k].category, C[k].value) ∈ staying (truth C) staysT := by
          have := mem_staying hk' hs
          simpa [truth] using this
        have hle := hIR C[k].category C[k].value (h2.mem_iff.2 (List.mem_append_left _ (mem_given.2 hmem)))
          (List.mem_map.2 ⟨C[k], List.getElem_mem _, rfl⟩) h0
        exact mul_nonneg h0.le (by linarith)
    · exact le_refl _
  refine ⟨hnonneg, fun hC => ?_⟩
  by_contra hcon
  push Not at hcon
  -- everybody stays, at a price below the true value
  have hall : ∀ (k : ℕ) (hk : k < C.length), staysB k = true ∧ 0 < chB C[k].category ∧ prB C[k].category < C[k].value := by
    intro k hk
    have h1 := lt_of_le_of_lt (hnonneg k hk) (hcon k hk)
    unfold memberUtility at h1
    split_ifs at h1 with hs
    · have h0 := hcB C[k].category
      refine ⟨hs, ?_, ?_⟩
      · rcases h0.eq_or_lt with h2 | h2
        · rw [← h2] at h1; simp at h1
        · exact h2
      · by_contra hge
        exact absurd h1 (not_lt.2 (mul_nonpos_of_nonneg_of_nonpos h0 (by linarith)))
    · exact absurd h1 (lt_irrefl _)
  have hst : staying (reports C) staysB = reports C := staying_all fun k hk => (hall k (by simpa [reports] using hk)).1
  have hres := hsame (fun j => by
      obtain ⟨others, h1, h2⟩ := hB j
      rw [hst] at h2
      exact ⟨others, h1, h2⟩) hC
    (fun x hx => by obtain ⟨k, hk, rfl⟩ := List.getElem_of_mem hx; exact (hall k hk).2.2)
    (fun x hx => by obtain ⟨k, hk, rfl⟩ := List.getElem_of_mem hx; exact (hall k hk).2.1)
  have hk : 0 < C.length := List.length_pos_iff.2 hC
  obtain ⟨e1, e2, D, hD, hle⟩ := hres C[0] (List.getElem_mem _)
  have hk' : 0 < (truth C).length := by simpa [truth] using hk
  have hsT : staysT 0 = true := by
    refine stays_of hT hk' (D := D) (by simpa [truth] using hD) ?_
    intro hmem
    have h3 := hle _ hmem
    have h4 := (hall 0 hk).2.2
    rw [e2] at h3
    simp [truth] at h3
    linarith
  have hlt := hcon 0 hk
  unfold memberUtility at hlt
  rw [if_pos hsT, if_pos (hall 0 hk).1, e1, e2] at hlt
  exact absurd hlt (lt_irrefl _)

/-- The same, for trades with a single price vector. -/
theorem no_coalition_of {m : Market} {C : List Member} {tT tB : TradeWithSinglePrice}
    (hIR : ∀ j, ∀ v ∈ singleRemaining tT j, (j, v) ∈ truth C → 0 < singleChance tT j → singlePrice tT j ≤ v)
    (hsame : (∀ j, ∃ others, others.Subperm (m.valueLists.getD j []) ∧ (singleRemaining tB j).Perm (given (reports C) j ++ others)) →
      C ≠ [] → (∀ x ∈ C, singlePrice tB x.category < x.value) → (∀ x ∈ C, 0 < singleChance tB x.category) →
      (∀ x ∈ C, singleChance tT x.category = singleChance tB x.category ∧ singlePrice tT x.category = singlePrice tB x.category ∧
        ∃ D, (given (truth C) x.category ++ m.valueLists.getD x.category []).Perm (singleRemaining tT x.category ++ D) ∧
          ∀ y ∈ D, y ≤ singlePrice tT x.category)) :
    NoCoalition m C tT tB :=
  unprofitable_of (singleChance_nonneg tT) (singleChance_nonneg tB) hIR hsame

end Auctions
