import Verif.Proofs.TreeTruthful
import Verif.Proofs.Lists

set_option autoImplicit false

/-!
# Two runs of the tree auction that differ in the reports of several agents

`B j` are the reports of the members of the coalition in category `j`, `V j` their true values. As long as the prices are below the true values and no member has left, both runs
raise the same prices and remove the same agents.
-/

namespace Auctions

open Spec TreeAuction

/-- What a step at price `q` does to a category with reports `bs ++ X` and to the category with the true values `vs` instead of `bs`. -/
theorem removal_together {LB LT X bs vs : List ℚ} {q : ℚ} (hB : SortedDesc LB) (hT : SortedDesc LT) (pB : LB.Perm (bs ++ X))
    (pT : LT.Perm (vs ++ X)) (hq : ∀ x ∈ LB, q ≤ x) (hv : ∀ v ∈ vs, q < v) :
    ¬ bs.Subperm (afterRemoval LB q) ∨
    ((∃ X', (afterRemoval LB q).Perm (bs ++ X') ∧ (afterRemoval LT q).Perm (vs ++ X')) ∧ (q ∈ LB → q ∈ LT)) := by
  have hX : ∀ x ∈ X, q ≤ x := fun x hx => hq x (pB.mem_iff.2 (by simp [hx]))
  have hqT : ∀ x ∈ LT, q ≤ x := by
    intro x hx
    rcases List.mem_append.1 (pT.mem_iff.1 hx) with h | h
    · exact (hv x h).le
    · exact hX x h
  obtain ⟨b1, b2⟩ := afterRemoval_of_le hB hq
  obtain ⟨t1, t2⟩ := afterRemoval_of_le hT hqT
  by_cases hqX : q ∈ X
  · right
    have hpX := List.perm_cons_erase hqX
    have k1 : q ∈ LB := pB.mem_iff.2 (by simp [hqX])
    have k2 : q ∈ LT := pT.mem_iff.2 (by simp [hqX])
    refine ⟨⟨X.erase q, ?_, ?_⟩, fun _ => k2⟩
    · exact ((b1 k1).trans (pB.trans ((hpX.append_left bs).trans List.perm_middle))).cons_inv
    · exact ((t1 k2).trans (pT.trans ((hpX.append_left vs).trans List.perm_middle))).cons_inv
  · have k2 : q ∉ LT := by
      intro h
      rcases List.mem_append.1 (pT.mem_iff.1 h) with h | h
      · exact lt_irrefl _ (hv q h)
      · exact hqX h
    by_cases hqb : q ∈ bs
    · left
      intro hsub
      have k1 : q ∈ LB := pB.mem_iff.2 (by simp [hqb])
      have h1 := ((b1 k1).trans pB).count_eq q
      have h2 := List.subperm_iff_count.1 hsub q
      rw [List.count_cons_self, List.count_append, List.count_eq_zero_of_not_mem hqX] at h1
      omega
    · right
      have k1 : q ∉ LB := by
        intro h
        rcases List.mem_append.1 (pB.mem_iff.1 h) with h | h
        · exact hqb h
        · exact hqX h
      exact ⟨⟨X, by rw [b2 k1]; exact pB, by rw [t2 k2]; exact pT⟩, fun h => absurd h k1⟩

/-- The relation between the run with the reports `B` and the run with the true values `V`. -/
structure SameFor (B V : ℕ → List ℚ) (catsB : List AgentCategory) (vB : SimultaneousAscendingPriceVectors)
    (catsT : List AgentCategory) (vT : SimultaneousAscendingPriceVectors) : Prop where
  prices : ∀ j, priceAt vT j = priceAt vB j
  lists : ∀ j, ∃ X, (valuesAt catsB j).Perm (B j ++ X) ∧ (valuesAt catsT j).Perm (V j ++ X)

theorem SameFor.size {B V : ℕ → List ℚ} (hl : ∀ j, (V j).length = (B j).length) {catsB catsT : List AgentCategory}
    {vB vT : SimultaneousAscendingPriceVectors} (h : SameFor B V catsB vB catsT vT) : sizeAt catsT = sizeAt catsB := by
  funext j
  rw [sizeAt_eq, sizeAt_eq]
  obtain ⟨X, h1, h2⟩ := h.lists j
  rw [h1.length_eq, h2.length_eq, List.length_append, List.length_append, hl]

theorem SameFor.cut {B V : ℕ → List ℚ} (hl : ∀ j, (V j).length = (B j).length) {catsB catsT : List AgentCategory}
    {vB vT : SimultaneousAscendingPriceVectors} (h : SameFor B V catsB vB catsT vT) (t : RecipeTree) : cutOf t catsT = cutOf t catsB := by
  unfold cutOf; rw [h.size hl]

theorem SameFor.empty {B V : ℕ → List ℚ} (hl : ∀ j, (V j).length = (B j).length) {catsB catsT : List AgentCategory}
    {vB vT : SimultaneousAscendingPriceVectors} (h : SameFor B V catsB vB catsT vT) (j : ℕ) : valuesAt catsT j = [] ↔ valuesAt catsB j = [] := by
  have := congrFun (h.size hl) j
  rw [sizeAt_eq, sizeAt_eq] at this
  rw [← List.length_eq_zero_iff, ← List.length_eq_zero_iff, this]

/-- A price that is at most every report and below every member's value is at most the next price at which an agent leaves. -/
theorem SameFor.le_target {B V : ℕ → List ℚ} (hl : ∀ j, (V j).length = (B j).length) {catsB catsT : List AgentCategory}
    {vB vT : SimultaneousAscendingPriceVectors} (h : SameFor B V catsB vB catsT vT) {j : ℕ} {q : ℚ} (hs : SortedDesc (valuesAt catsB j))
    (hq : q ≤ target catsB j) (hv : ∀ v ∈ V j, q < v) : q ≤ target catsT j := by
  by_cases he : valuesAt catsT j = []
  · have he' := (h.empty hl j).1 he
    rw [target_congr (cats := catsB) (by rw [he, he'])]
    exact hq
  · have hm := target_mem he
    obtain ⟨X, pB, pT⟩ := h.lists j
    rcases List.mem_append.1 (pT.mem_iff.1 hm) with h1 | h1
    · exact (hv _ h1).le
    · exact hq.trans (target_le hs _ (pB.mem_iff.2 (List.mem_append_right _ h1)))

/-- All members have not left, and the prices are below their values. -/
def AllIn (B V : ℕ → List ℚ) (cats : List AgentCategory) (v : SimultaneousAscendingPriceVectors) : Prop :=
  (∀ j, (B j).Subperm (valuesAt cats j)) ∧ ∀ j, ∀ x ∈ V j, priceAt v j < x

theorem afterRemoval_sublist (L : List ℚ) (q : ℚ) : (afterRemoval L q).Sublist L := by
  unfold afterRemoval
  split
  · exact List.dropLast_sublist L
  · exact List.Sublist.refl L

/-- If all members are still in at the end, they were so all the time. -/
theorem allIn_before {t : RecipeTree} {n : ℕ} (ht : TreeOn t n) {B V : ℕ → List ℚ} {cats0 : List AgentCategory}
    (hmax : ∀ i, ∀ x ∈ valuesAt cats0 i, x ≤ MAX_VALUE) (fuel : ℕ) {cats : List AgentCategory} {v : SimultaneousAscendingPriceVectors} {s : ℚ}
    (i0 : TInv t n cats0 cats v s) (hs : s < 0) (hfair : Fair cats0 cats v) {cats' : List AgentCategory} {v' : SimultaneousAscendingPriceVectors}
    (hend : loop t fuel cats v = .ok (some (cats', v'))) (hin : AllIn B V cats' v') : AllIn B V cats v := by
  by_contra hnot
  have := tree_loop_end ht (cats0 := cats0) (fun c w _ => Fair cats0 c w ∧ ¬ AllIn B V c w)
    (by
      intro x1 y1 s1 x2 y2 d1 g1 g2 g3 g4 g5 g6
      refine ⟨fair_next g1 hmax g3.1 g6, fun h => g3.2 ⟨fun j => ?_, fun j x hx => ?_⟩⟩
      · have := h.1 j
        rw [g6.values] at this
        exact this.trans (afterRemoval_sublist _ _).subperm
      · have h1 := nextState_nonneg g3.1.rational g3.1.le_max g6
        have := h.2 j x hx
        rw [g6.price] at this
        split at this <;> linarith)
    (by
      intro x1 y1 s1 y2 d1 g1 g2 g3 g4 g5 g6 g7 g8
      refine ⟨fair_stop g1 g2 hmax g3.1 g5 g7 g8, fun h => g3.2 ⟨h.1, fun j x hx => ?_⟩⟩
      have := h.2 j x hx
      rw [g8] at this
      split at this <;> linarith)
    fuel i0 hs ⟨hfair, hnot⟩
  rcases this with h | ⟨x, y, s', h, -, h1, -⟩
  · rw [h] at hend; simp at hend
  · rw [h] at hend
    obtain ⟨rfl, rfl⟩ := Prod.ext_iff.1 (Option.some.inj (Except.ok.inj hend))
    exact h1.2 hin

/-- The lockstep of the two runs. -/
theorem tree_together {t : RecipeTree} {n : ℕ} (ht : TreeOn t n) {B V : ℕ → List ℚ} (hl : ∀ j, (V j).length = (B j).length)
    {cats0B cats0T : List AgentCategory} (hmax : ∀ i, ∀ x ∈ valuesAt cats0B i, x ≤ MAX_VALUE) (fuel : ℕ) {catsB catsT : List AgentCategory}
    {vB vT : SimultaneousAscendingPriceVectors} {s : ℚ} (iB : TInv t n cats0B catsB vB s) (iT : TInv t n cats0T catsT vT s) (hs : s < 0)
    (hfair : Fair cats0B catsB vB) (hR : SameFor B V catsB vB catsT vT) {catsB' : List AgentCategory}
    {vB' : SimultaneousAscendingPriceVectors} (hend : loop t fuel catsB vB = .ok (some (catsB', vB'))) (hin : AllIn B V catsB' vB') :
    ∃ catsT' vT', loop t fuel catsT vT = .ok (some (catsT', vT')) ∧ SameFor B V catsB' vB' catsT' vT' := by
  induction fuel generalizing catsB catsT vB vT s with
  | zero => simp [loop] at hend
  | succ fuel ih =>
    have hcut := hR.cut hl t
    rcases tree_loop_step ht iB fuel with ⟨e1, e2⟩ | ⟨e1, w, d, e2, e3, e4, e5, e6, e7⟩ | ⟨e1, cats', w, d, e2, e3, e4, e5⟩
    · -- the root is empty
      rw [e2] at hend
      obtain ⟨rfl, rfl⟩ := Prod.ext_iff.1 (Option.some.inj (Except.ok.inj hend))
      rcases tree_loop_step ht iT fuel with ⟨f1, f2⟩ | ⟨f1, -⟩ | ⟨f1, -⟩
      · exact ⟨_, _, f2, hR⟩
      · exact absurd (by rw [hR.size hl]; exact e1) f1
      · exact absurd (by rw [hR.size hl]; exact e1) f1
    · -- the run with the reports stops at the bound
      rw [e2] at hend
      obtain ⟨rfl, rfl⟩ := Prod.ext_iff.1 (Option.some.inj (Except.ok.inj hend))
      have hq : ∀ i ∈ cutOf t catsB, -s ≤ target catsT i - priceAt vT i := by
        intro i hi
        rw [hR.prices]
        have := hR.le_target hl (j := i) (q := priceAt vB i + -s) (iB.sorted i) (by have := e4 i hi; linarith) (fun x hx => by
          have := hin.2 i x hx
          rw [e7, if_pos hi] at this
          exact this)
        linarith
      rcases tree_loop_step ht iT fuel with ⟨f1, -⟩ | ⟨f1, w', d', f2, f3, f4, f5, f6, f7⟩ | ⟨f1, cats'', w', d', f2, f3, f4, f5⟩
      · exact absurd (by rw [← hR.size hl]; exact f1) e1
      · refine ⟨_, _, f2, ⟨fun j => ?_, hR.lists⟩⟩
        rw [f7, e7, hcut, hR.prices]
      · exfalso
        obtain ⟨i, hi, hd⟩ := f5.reached
        have := hq i (by rw [← hcut]; exact hi)
        linarith
    · -- the run with the reports goes on
      rw [e2] at hend
      have hfair' := fair_next iB hmax hfair e5
      have hin' : AllIn B V cats' w := allIn_before ht hmax fuel e4 e3 hfair' hend hin
      have hqB : ∀ j, ∀ x ∈ valuesAt catsB j, priceAt w j ≤ x := by
        intro j x hx
        rw [e5.price]
        by_cases hi : j ∈ cutOf t catsB
        · rw [if_pos hi]; exact (e5.le j hi).trans (target_le (iB.sorted j) x hx)
        · rw [if_neg hi, add_zero]; exact hfair.rational j x hx
      have hstep : ∀ j, (∃ X', (afterRemoval (valuesAt catsB j) (priceAt w j)).Perm (B j ++ X') ∧
          (afterRemoval (valuesAt catsT j) (priceAt w j)).Perm (V j ++ X')) ∧ (priceAt w j ∈ valuesAt catsB j → priceAt w j ∈ valuesAt catsT j) := by
        intro j
        obtain ⟨X, pB, pT⟩ := hR.lists j
        rcases removal_together (iB.sorted j) (iT.sorted j) pB pT (hqB j) (hin'.2 j) with h | h
        · exfalso
          have := hin'.1 j
          rw [e5.values] at this
          exact h this
        · exact h
      -- the two increases agree
      have hle : ∀ i ∈ cutOf t catsB, d ≤ target catsT i - priceAt vT i := by
        intro i hi
        rw [hR.prices]
        have := hR.le_target hl (j := i) (q := priceAt w i) (iB.sorted i) (by rw [e5.price, if_pos hi]; exact e5.le i hi) (hin'.2 i)
        rw [e5.price, if_pos hi] at this
        linarith
      have hatt : ∃ i ∈ cutOf t catsB, target catsT i - priceAt vT i = d := by
        obtain ⟨i, hi, hid⟩ := e5.reached
        refine ⟨i, hi, ?_⟩
        have h0 := hle i hi
        rw [hR.prices] at h0 ⊢
        by_cases hne : valuesAt catsB i = []
        · rw [target_congr (cats := catsB) (by rw [hne, (hR.empty hl i).2 hne])]
          linarith
        · have hq : priceAt w i = target catsB i := by rw [e5.price, if_pos hi, hid]
          have h1 := (hstep i).2 (by rw [hq]; exact target_mem hne)
          have h2 := target_le (iT.sorted i) _ h1
          linarith
      obtain ⟨i0, hi0, hd0⟩ := hatt
      rcases tree_loop_step ht iT fuel with ⟨f1, -⟩ | ⟨f1, w', d', f2, f3, f4, f5, f6, f7⟩ | ⟨f1, cats'', w', d', f2, f3, f4, f5⟩
      · exact absurd (by rw [← hR.size hl]; exact f1) e1
      · exfalso
        have := f4 i0 (by rw [hcut]; exact hi0)
        linarith
      · have hdd : d' = d := by
          have h1 := f5.le i0 (by rw [hcut]; exact hi0)
          obtain ⟨j, hj, hjd⟩ := f5.reached
          have h2 := hle j (by rw [← hcut]; exact hj)
          linarith
        subst hdd
        have hprice : ∀ j, priceAt w' j = priceAt w j := by
          intro j; rw [f5.price, e5.price, hcut, hR.prices]
        rw [f2]
        refine ih e4 f4 e3 hfair' ⟨hprice, fun j => ?_⟩ hend
        obtain ⟨X', h1, h2⟩ := (hstep j).1
        exact ⟨X', by rw [e5.values]; exact h1, by rw [f5.values, hprice]; exact h2⟩

end Auctions
