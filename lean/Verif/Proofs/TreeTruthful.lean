import Verif.Proofs.TreeAuction

set_option autoImplicit false

/-!
# Two runs of the tree auction that differ in the report of one agent

As long as the price of the category is below the agent's true value and the report has not left, both runs raise the same prices and remove the
same agents.
-/

namespace Auctions

open Spec TreeAuction

/-- The removal of the lowest agent at a price that is at most every value. -/
theorem afterRemoval_of_le {L : List ℚ} {q : ℚ} (hs : SortedDesc L) (hq : ∀ x ∈ L, q ≤ x) :
    (q ∈ L → (q :: afterRemoval L q).Perm L) ∧ (q ∉ L → afterRemoval L q = L) := by
  constructor
  · intro h
    have hne : L ≠ [] := List.ne_nil_of_mem h
    have hlast : L.getLast? = some (L.getLast hne) := List.getLast?_eq_some_getLast hne
    have h1 := hs.getLast_le hlast q h
    have h2 := hq _ (List.getLast_mem hne)
    have h3 : L.getLast hne = q := le_antisymm h1 h2
    unfold afterRemoval
    rw [if_pos ⟨q, by rw [hlast, h3]; rfl, le_refl _⟩]
    have e := List.dropLast_append_getLast hne
    rw [h3] at e
    conv_rhs => rw [← e]
    exact (List.perm_append_comm (l₁ := L.dropLast) (l₂ := [q])).symm
  · intro h
    unfold afterRemoval
    rw [if_neg]
    rintro ⟨y, hy, hyq⟩
    have hm := List.mem_of_getLast? hy
    exact h (by rw [show q = y from le_antisymm (hq y hm) hyq]; exact hm)

/-- What a step at price `q` does to a category with reports `b :: X` and to the category with the true value `v` instead of `b`. -/
theorem removal_lockstep {LB LT X : List ℚ} {b v q : ℚ} (hB : SortedDesc LB) (hT : SortedDesc LT) (pB : LB.Perm (b :: X))
    (pT : LT.Perm (v :: X)) (hq : ∀ x ∈ LB, q ≤ x) (hv : q < v) :
    b ∉ afterRemoval LB q ∨
    ((∃ X', (afterRemoval LB q).Perm (b :: X') ∧ (afterRemoval LT q).Perm (v :: X')) ∧
      (q ∈ LB → q ∈ LT)) := by
  have hX : ∀ x ∈ X, q ≤ x := fun x hx => hq x (pB.mem_iff.2 (by simp [hx]))
  have hqT : ∀ x ∈ LT, q ≤ x := by
    intro x hx
    rcases List.mem_cons.1 (pT.mem_iff.1 hx) with rfl | h
    · exact hv.le
    · exact hX x h
  obtain ⟨b1, b2⟩ := afterRemoval_of_le hB hq
  obtain ⟨t1, t2⟩ := afterRemoval_of_le hT hqT
  by_cases hqX : q ∈ X
  · right
    have hpX := List.perm_cons_erase hqX
    have k1 : q ∈ LB := pB.mem_iff.2 (by simp [hqX])
    have k2 : q ∈ LT := pT.mem_iff.2 (by simp [hqX])
    refine ⟨⟨X.erase q, ?_, ?_⟩, fun _ => k2⟩
    · have := (b1 k1).trans (pB.trans ((hpX.cons b).trans (List.Perm.swap q b _)))
      exact this.cons_inv
    · have := (t1 k2).trans (pT.trans ((hpX.cons v).trans (List.Perm.swap q v _)))
      exact this.cons_inv
  · have k2 : q ∉ LT := by
      intro h
      rcases List.mem_cons.1 (pT.mem_iff.1 h) with rfl | h
      · exact lt_irrefl _ hv
      · exact hqX h
    by_cases hqb : q = b
    · left
      intro hmem
      have k1 : q ∈ LB := pB.mem_iff.2 (by simp [hqb])
      have h2 := (b1 k1).trans pB
      rw [hqb] at h2
      exact hqX (by rw [hqb]; exact h2.cons_inv.mem_iff.1 (by rw [← hqb] at hmem ⊢; exact hmem))
    · right
      have k1 : q ∉ LB := by
        intro h
        rcases List.mem_cons.1 (pB.mem_iff.1 h) with rfl | h
        · exact hqb rfl
        · exact hqX h
      refine ⟨⟨X, ?_, ?_⟩, fun h => absurd h k1⟩
      · rw [b2 k1]; exact pB
      · rw [t2 k2]; exact pT

/-- The relation between the run with the report `b` and the run with the report `v`, in category `c`. -/
structure SameBut (c : ℕ) (b v : ℚ) (catsB : List AgentCategory) (vB : SimultaneousAscendingPriceVectors)
    (catsT : List AgentCategory) (vT : SimultaneousAscendingPriceVectors) : Prop where
  prices : ∀ j, priceAt vT j = priceAt vB j
  others : ∀ j, j ≠ c → valuesAt catsT j = valuesAt catsB j
  here : ∃ X, (valuesAt catsB c).Perm (b :: X) ∧ (valuesAt catsT c).Perm (v :: X)
  high : priceAt vB c < v

theorem SameBut.size {c : ℕ} {b v : ℚ} {catsB catsT : List AgentCategory} {vB vT : SimultaneousAscendingPriceVectors}
    (h : SameBut c b v catsB vB catsT vT) : sizeAt catsT = sizeAt catsB := by
  funext j
  rw [sizeAt_eq, sizeAt_eq]
  by_cases hj : j = c
  · subst hj
    obtain ⟨X, h1, h2⟩ := h.here
    rw [h1.length_eq, h2.length_eq]; simp
  · rw [h.others j hj]

theorem SameBut.cut {c : ℕ} {b v : ℚ} {catsB catsT : List AgentCategory} {vB vT : SimultaneousAscendingPriceVectors}
    (h : SameBut c b v catsB vB catsT vT) (t : RecipeTree) : cutOf t catsT = cutOf t catsB := by
  unfold cutOf; rw [h.size]

theorem target_mem {cats : List AgentCategory} {i : ℕ} (h : valuesAt cats i ≠ []) : target cats i ∈ valuesAt cats i := by
  unfold target
  rw [List.getLast?_eq_some_getLast h]
  exact List.getLast_mem h

theorem target_congr {cats cats' : List AgentCategory} {i : ℕ} (h : valuesAt cats' i = valuesAt cats i) : target cats' i = target cats i := by
  unfold target; rw [h]

/-- The lockstep of the two runs. -/
theorem tree_lockstep {t : RecipeTree} {n : ℕ} (ht : TreeOn t n) {c : ℕ} {b v : ℚ} {cats0B cats0T : List AgentCategory}
    (hmax : ∀ i, ∀ x ∈ valuesAt cats0B i, x ≤ MAX_VALUE) (fuel : ℕ) {catsB catsT : List AgentCategory}
    {vB vT : SimultaneousAscendingPriceVectors} {s : ℚ} (iB : TInv t n cats0B catsB vB s) (iT : TInv t n cats0T catsT vT s) (hs : s < 0)
    (hfair : Fair cats0B catsB vB) (hR : SameBut c b v catsB vB catsT vT) {catsB' : List AgentCategory}
    {vB' : SimultaneousAscendingPriceVectors} (hend : loop t fuel catsB vB = .ok (some (catsB', vB'))) :
    b ∉ valuesAt catsB' c ∨ v ≤ priceAt vB' c ∨
      ∃ catsT' vT', loop t fuel catsT vT = .ok (some (catsT', vT')) ∧ sizeAt catsT' = sizeAt catsB' ∧ v ∈ valuesAt catsT' c ∧
        priceAt vT' c = priceAt vB' c := by
  induction fuel generalizing catsB catsT vB vT s with
  | zero => simp [loop] at hend
  | succ fuel ih =>
    have hcut := hR.cut t
    have hvT : v ∈ valuesAt catsT c := by
      obtain ⟨X, -, h⟩ := hR.here
      exact h.mem_iff.2 (by simp)
    rcases tree_loop_step ht iB fuel with ⟨e1, e2⟩ | ⟨e1, w, d, e2, e3, e4, e5, e6, e7⟩ | ⟨e1, cats', w, d, e2, e3, e4, e5⟩
    · -- the root is empty
      rw [e2] at hend
      obtain ⟨rfl, rfl⟩ := Prod.ext_iff.1 (Option.some.inj (Except.ok.inj hend))
      right; right
      rcases tree_loop_step ht iT fuel with ⟨f1, f2⟩ | ⟨f1, -⟩ | ⟨f1, -⟩
      · exact ⟨_, _, f2, hR.size, hvT, hR.prices c⟩
      · exact absurd (by rw [hR.size]; exact e1) f1
      · exact absurd (by rw [hR.size]; exact e1) f1
    · -- the run with `b` stops at the bound
      rw [e2] at hend
      obtain ⟨rfl, rfl⟩ := Prod.ext_iff.1 (Option.some.inj (Except.ok.inj hend))
      by_cases hv : v ≤ priceAt w c
      · exact Or.inr (Or.inl hv)
      push Not at hv
      right; right
      have hq : ∀ i ∈ cutOf t catsB, -s ≤ target catsT i - priceAt vT i := by
        intro i hi
        rw [hR.prices]
        by_cases hic : i = c
        · subst hic
          have hm := target_mem (List.ne_nil_of_mem hvT)
          obtain ⟨X, pB, pT⟩ := hR.here
          rw [e7, if_pos hi] at hv
          rcases List.mem_cons.1 (pT.mem_iff.1 hm) with h | h
          · rw [h]; linarith
          · have h1 := target_le (iB.sorted i) _ (pB.mem_iff.2 (List.mem_cons_of_mem b h))
            have h2 := e4 i hi
            linarith
        · rw [target_congr (hR.others i hic)]
          exact e6.trans (e4 i hi)
      rcases tree_loop_step ht iT fuel with ⟨f1, -⟩ | ⟨f1, w', d', f2, f3, f4, f5, f6, f7⟩ | ⟨f1, cats'', w', d', f2, f3, f4, f5⟩
      · exact absurd (by rw [← hR.size]; exact f1) e1
      · refine ⟨_, _, f2, hR.size, hvT, ?_⟩
        rw [f7, e7, hcut, hR.prices]
      · exfalso
        obtain ⟨i, hi, hd⟩ := f5.reached
        have := hq i (by rw [← hcut]; exact hi)
        linarith
    · -- the run with `b` goes on
      rw [e2] at hend
      have hfair' := fair_next iB hmax hfair e5
      -- once `b` has left or the price is at least `v`, it stays so
      have stay : (b ∉ valuesAt cats' c ∨ v ≤ priceAt w c) → (b ∉ valuesAt catsB' c ∨ v ≤ priceAt vB' c) := by
        intro h0
        have := tree_loop_end ht (cats0 := cats0B)
          (fun cats v' _ => Fair cats0B cats v' ∧ (b ∉ valuesAt cats c ∨ v ≤ priceAt v' c))
          (by
            intro x1 y1 s1 x2 y2 d1 g1 g2 g3 g4 g5 g6
            refine ⟨fair_next g1 hmax g3.1 g6, ?_⟩
            rcases g3.2 with h | h
            · left; intro hb; rw [g6.values] at hb; exact h (afterRemoval_subset hb)
            · right
              have h1 := nextState_nonneg g3.1.rational g3.1.le_max g6
              rw [g6.price]; split <;> linarith)
          (by
            intro x1 y1 s1 y2 d1 g1 g2 g3 g4 g5 g6 g7 g8
            refine ⟨fair_stop g1 g2 hmax g3.1 g5 g7 g8, ?_⟩
            rcases g3.2 with h | h
            · exact Or.inl h
            · right; rw [g8]; split <;> linarith)
          fuel e4 e3 ⟨hfair', h0⟩
        rcases this with h | ⟨x, y, s', h, -, h1, -⟩
        · rw [h] at hend; simp at hend
        · rw [h] at hend
          obtain ⟨rfl, rfl⟩ := Prod.ext_iff.1 (Option.some.inj (Except.ok.inj hend))
          exact h1.2
      by_cases hv : v ≤ priceAt w c
      · rcases stay (Or.inr hv) with h | h
        · exact Or.inl h
        · exact Or.inr (Or.inl h)
      push Not at hv
      have hqB : ∀ x ∈ valuesAt catsB c, priceAt w c ≤ x := by
        intro x hx
        rw [e5.price]
        by_cases hi : c ∈ cutOf t catsB
        · rw [if_pos hi]; exact (e5.le c hi).trans (target_le (iB.sorted c) x hx)
        · rw [if_neg hi, add_zero]; exact hfair.rational c x hx
      obtain ⟨X, pB, pT⟩ := hR.here
      rcases removal_lockstep (iB.sorted c) (iT.sorted c) pB pT hqB hv with hgone | ⟨⟨X', pB', pT'⟩, hmem⟩
      · rcases stay (Or.inl (by rw [e5.values]; exact hgone)) with h | h
        · exact Or.inl h
        · exact Or.inr (Or.inl h)
      -- the two increases agree
      have hqT : ∀ x ∈ valuesAt catsT c, priceAt w c ≤ x := by
        intro x hx
        rcases List.mem_cons.1 (pT.mem_iff.1 hx) with rfl | h
        · exact hv.le
        · exact hqB x (pB.mem_iff.2 (by simp [h]))
      have hle : ∀ i ∈ cutOf t catsB, d ≤ target catsT i - priceAt vT i := by
        intro i hi
        rw [hR.prices]
        by_cases hic : i = c
        · subst hic
          have := hqT _ (target_mem (List.ne_nil_of_mem hvT))
          rw [e5.price, if_pos hi] at this
          linarith
        · rw [target_congr (hR.others i hic)]
          have := e5.le i hi
          linarith
      have hatt : ∃ i ∈ cutOf t catsB, target catsT i - priceAt vT i = d := by
        obtain ⟨i, hi, hid⟩ := e5.reached
        refine ⟨i, hi, ?_⟩
        rw [hR.prices]
        by_cases hic : i = c
        · subst hic
          have hne : valuesAt catsB i ≠ [] := by intro h0; rw [h0] at pB; simpa using pB.length_eq
          have hq : priceAt w i = target catsB i := by rw [e5.price, if_pos hi, hid]
          have h1 := hmem (by rw [hq]; exact target_mem hne)
          have h2 := target_le (iT.sorted i) _ h1
          have h3 := hqT _ (target_mem (List.ne_nil_of_mem hvT))
          linarith
        · rw [target_congr (hR.others i hic)]
          linarith
      obtain ⟨i0, hi0, hd0⟩ := hatt
      rcases tree_loop_step ht iT fuel with ⟨f1, -⟩ | ⟨f1, w', d', f2, f3, f4, f5, f6, f7⟩ | ⟨f1, cats'', w', d', f2, f3, f4, f5⟩
      · exact absurd (by rw [← hR.size]; exact f1) e1
      · exfalso
        have := f4 i0 (by rw [hcut]; exact hi0)
        linarith
      · have hdd : d' = d := by
          have h1 := f5.le i0 (by rw [hcut]; exact hi0)
          obtain ⟨j, hj, hjd⟩ := f5.reached
          have h2 := hle j (by rw [← hcut]; exact hj)
          linarith
        subst hdd
        have hprice : ∀ j, priceAt w' j = priceAt w j := by
          intro j; rw [f5.price, e5.price, hcut, hR.prices]
        rw [f2]
        refine ih e4 f4 e3 hfair' ⟨hprice, ?_, ⟨X', ?_, ?_⟩, hv⟩ hend
        · intro j hj
          rw [f5.values, e5.values, hprice, hR.others j hj]
        · rw [e5.values]; exact pB'
        · rw [f5.values, hprice]; exact pT'

end Auctions
