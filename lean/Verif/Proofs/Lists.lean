import Verif.Py
import Verif.Spec.Agents
import Mathlib.Algebra.BigOperators.Group.List.Basic
import Mathlib.Algebra.Order.BigOperators.Group.List
import Mathlib.Tactic.Linarith
import Mathlib.Tactic.Ring

set_option autoImplicit false

/-! # Facts about sorted lists of rationals -/

namespace Auctions

open Spec

theorem sortDesc_perm (l : List ℚ) : (sortDesc l).Perm l := List.perm_insertionSort _ l

theorem sortDesc_sorted (l : List ℚ) : SortedDesc (sortDesc l) :=
  List.pairwise_insertionSort (· ≥ ·) l

theorem sortDesc_of_sorted {l : List ℚ} (h : SortedDesc l) : sortDesc l = l :=
  List.Pairwise.insertionSort_eq h

theorem eq_of_perm_of_sorted {l l' : List ℚ} (hp : l.Perm l') (h : SortedDesc l) (h' : SortedDesc l') : l = l' :=
  hp.eq_of_pairwise (fun _ _ _ _ h1 h2 => le_antisymm h2 h1) h h'

@[simp] theorem sortDesc_length (l : List ℚ) : (sortDesc l).length = l.length := (sortDesc_perm l).length_eq

theorem sortDesc_sum (l : List ℚ) : (sortDesc l).sum = l.sum := (sortDesc_perm l).sum_eq

@[simp] theorem sortDesc_coe (l : List ℚ) : ((sortDesc l : List ℚ) : Multiset ℚ) = l :=
  Multiset.coe_eq_coe.2 (sortDesc_perm l)

@[simp] theorem mem_sortDesc {l : List ℚ} {x : ℚ} : x ∈ sortDesc l ↔ x ∈ l := (sortDesc_perm l).mem_iff

theorem Spec.SortedDesc.sublist {l l' : List ℚ} (h : SortedDesc l) (hs : l'.Sublist l) : SortedDesc l' :=
  List.Pairwise.sublist hs h

theorem Spec.SortedDesc.take {l : List ℚ} (h : SortedDesc l) (n : ℕ) : SortedDesc (l.take n) :=
  h.sublist (List.take_sublist n l)

theorem Spec.SortedDesc.drop {l : List ℚ} (h : SortedDesc l) (n : ℕ) : SortedDesc (l.drop n) :=
  h.sublist (List.drop_sublist n l)

theorem Spec.SortedDesc.dropLast {l : List ℚ} (h : SortedDesc l) : SortedDesc l.dropLast :=
  h.sublist (List.dropLast_sublist l)

theorem Spec.SortedDesc.getElem_ge {l : List ℚ} (h : SortedDesc l) {i j : ℕ} (hij : i ≤ j) (hj : j < l.length) :
    l[i] ≥ l[j] := by
  rcases Nat.lt_or_eq_of_le hij with hlt | heq
  · exact List.pairwise_iff_getElem.1 h i j (by omega) hj hlt
  · subst heq; exact le_refl _

theorem Spec.SortedDesc.getLast_le {l : List ℚ} (h : SortedDesc l) {x : ℚ} (hx : l.getLast? = some x) :
    ∀ y ∈ l, x ≤ y := by
  intro y hy
  obtain ⟨i, hi, rfl⟩ := List.getElem_of_mem hy
  rw [List.getLast?_eq_getElem?] at hx
  have hlt : l.length - 1 < l.length := by
    cases l <;> simp_all
  rw [List.getElem?_eq_getElem hlt] at hx
  have := h.getElem_ge (i := i) (j := l.length - 1) (by omega) hlt
  simp at hx; subst hx; exact this

theorem Spec.SortedDesc.le_head {x : ℚ} {l : List ℚ} (h : SortedDesc (x :: l)) : ∀ y ∈ x :: l, y ≤ x := by
  intro y hy
  rcases List.mem_cons.1 hy with rfl | hy
  · exact le_refl _
  · exact (List.pairwise_cons.1 h).1 y hy

theorem Spec.SortedDesc.take_ge_drop {l : List ℚ} (h : SortedDesc l) (n : ℕ) :
    ∀ x ∈ l.take n, ∀ y ∈ l.drop n, y ≤ x := by
  have h' : SortedDesc (l.take n ++ l.drop n) := by rwa [List.take_append_drop]
  intro x hx y hy
  exact (List.pairwise_append.1 h').2.2 x hx y hy

/-- Any sub-multiset of a descending list has a sum at most that of the prefix with as many elements. -/
theorem sum_le_sum_take {l : List ℚ} (h : SortedDesc l) {s : List ℚ} (hs : s.Subperm l) :
    s.sum ≤ (l.take s.length).sum := by
  induction l generalizing s with
  | nil => have := List.subperm_nil.1 hs; subst this; simp
  | cons x l ih =>
    have hl : SortedDesc l := (List.pairwise_cons.1 h).2
    by_cases hx : x ∈ s
    · have hp := List.perm_cons_erase hx
      have hs' : (s.erase x).Subperm l := by
        have := hs.erase x
        simpa using this
      have := ih hl hs'
      have hlen : s.length = (s.erase x).length + 1 := by rw [hp.length_eq]; simp
      rw [hlen, List.take_succ_cons, List.sum_cons, hp.sum_eq, List.sum_cons]
      linarith
    · -- x not used: s is a subperm of l
      have hs' : s.Subperm l := by
        have := hs.erase x
        simpa [List.erase_of_not_mem hx] using this
      cases s with
      | nil => simp
      | cons y s =>
        have hle := ih hl hs'
        have hlen := hs'.length_le
        simp only [List.length_cons] at hle hlen ⊢
        rw [List.take_succ_cons]
        refine le_trans hle ?_
        rw [List.sum_take_succ _ _ (by omega)]
        have : l[s.length] ≤ x := (List.pairwise_cons.1 h).1 _ (List.getElem_mem _)
        simp only [List.sum_cons]
        linarith

end Auctions
