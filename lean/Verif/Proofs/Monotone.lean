import Verif.Spec.Monotone
import Verif.Proofs.TreeShape
import Verif.Proofs.Tree
import Verif.Proofs.Greedy

set_option autoImplicit false

/-!
# Lemmas: the optimum of a better market
-/

namespace Auctions

open Spec

theorem asGood_refl (v : List ℚ) : AsGood v v := fun _ => le_refl _

theorem Spec.AsGood.trans {u v w : List ℚ} (h : AsGood u v) (h' : AsGood v w) : AsGood u w := fun x => (h x).trans (h' x)

theorem asGood_of_perm {v w : List ℚ} (h : v.Perm w) : AsGood v w := fun _ => ((h.filter _).length_eq).le

theorem asGood_of_subperm {v w : List ℚ} (h : v.Subperm w) : AsGood v w := by
  obtain ⟨u, hp, hs⟩ := h
  exact (asGood_of_perm hp.symm).trans fun x => (hs.filter _).length_le

theorem Spec.AsGood.append {v w v' w' : List ℚ} (h : AsGood v w) (h' : AsGood v' w') : AsGood (v ++ v') (w ++ w') := by
  intro x
  simp only [List.filter_append, List.length_append]
  exact Nat.add_le_add (h x) (h' x)

/-- Entry by entry: `w` is at least as long as `v`, and its entries are at least those of `v`. -/
def EntriesLe : List ℚ → List ℚ → Prop
  | [], _ => True
  | _ :: _, [] => False
  | x :: v, y :: w => x ≤ y ∧ EntriesLe v w

theorem EntriesLe.asGood {v w : List ℚ} (h : EntriesLe v w) : AsGood v w := by
  induction v generalizing w with
  | nil => intro x; simp
  | cons a v ih =>
    cases w with
    | nil => exact h.elim
    | cons b w =>
      intro x
      have := ih h.2 x
      have hab := h.1
      rw [List.filter_cons, List.filter_cons]
      by_cases hx : x ≤ a
      · simp only [hx, hx.trans hab, decide_true, if_true, List.length_cons]; omega
      · simp only [hx, decide_false, Bool.false_eq_true, if_false]
        split
        · simp only [List.length_cons]; omega
        · exact this

theorem Spec.AsGood.entries {v w : List ℚ} (h : AsGood v w) (hv : SortedDesc v) (hw : SortedDesc w) : EntriesLe v w := by
  induction v generalizing w with
  | nil => trivial
  | cons a v ih =>
    have h1 := h a
    rw [List.filter_cons, if_pos (by simp)] at h1
    cases w with
    | nil => simp at h1
    | cons b w =>
      have hab : a ≤ b := by
        have : 0 < ((b :: w).filter (fun y => a ≤ y)).length := by
          simp only [List.length_cons] at h1; omega
        obtain ⟨y, hy⟩ := List.exists_mem_of_length_pos this
        obtain ⟨hy1, hy2⟩ := List.mem_filter.1 hy
        exact (of_decide_eq_true hy2).trans (hw.le_head y hy1)
      refine ⟨hab, ih ?_ (List.pairwise_cons.1 hv).2 (List.pairwise_cons.1 hw).2⟩
      intro x
      by_cases hx : x ≤ a
      · have := h x
        rw [List.filter_cons, if_pos (by simpa using hx), List.filter_cons, if_pos (by simpa using hx.trans hab)] at this
        simpa using this
      · have : v.filter (fun y => x ≤ y) = [] := by
          rw [List.filter_eq_nil_iff]
          intro y hy
          have := hv.le_head y (by simp [hy])
          simp only [decide_eq_true_eq]
          intro hxy
          exact hx (hxy.trans this)
        rw [this]; simp

theorem EntriesLe.zip_add {v w v' w' : List ℚ} (h : EntriesLe v w) (h' : EntriesLe v' w') :
    EntriesLe (List.zipWith (· + ·) v v') (List.zipWith (· + ·) w w') := by
  induction v generalizing w v' w' with
  | nil => simp [EntriesLe]
  | cons a v ih =>
    cases w with
    | nil => exact h.elim
    | cons b w =>
      cases v' with
      | nil => simp [EntriesLe]
      | cons a' v' =>
        cases w' with
        | nil => exact h'.elim
        | cons b' w' => exact ⟨add_le_add h.1 h'.1, ih h.2 h'.2⟩

theorem Spec.AsGood.sort {v w : List ℚ} (h : AsGood v w) : EntriesLe (sortDesc v) (sortDesc w) :=
  (((asGood_of_perm (sortDesc_perm v)).trans h).trans (asGood_of_perm (sortDesc_perm w).symm)).entries (sortDesc_sorted v) (sortDesc_sorted w)

theorem EntriesLe.nonneg_sum {v w : List ℚ} (h : EntriesLe v w) :
    (v.filter (fun y => y ≥ 0)).sum ≤ (w.filter (fun y => y ≥ 0)).sum := by
  induction v generalizing w with
  | nil =>
    refine List.sum_nonneg fun x hx => ?_
    simpa using (List.mem_filter.1 hx).2
  | cons a v ih =>
    cases w with
    | nil => exact h.elim
    | cons b w =>
      have h1 := ih h.2
      have h2 := h.1
      rw [List.filter_cons, List.filter_cons]
      by_cases ha : 0 ≤ a
      · simp only [ge_iff_le, ha, ha.trans h2, decide_true, if_true, List.sum_cons] at h1 ⊢; linarith
      · simp only [ge_iff_le, ha, decide_false, Bool.false_eq_true, if_false] at h1 ⊢
        split
        · rename_i hb
          simp only [decide_eq_true_eq] at hb
          rw [List.sum_cons]; linarith
        · exact h1

theorem Spec.AsGood.nonneg_sum {v w : List ℚ} (h : AsGood v w) : (v.filter (fun y => y ≥ 0)).sum ≤ (w.filter (fun y => y ≥ 0)).sum := by
  have := h.sort.nonneg_sum
  rwa [((sortDesc_perm v).filter _).sum_eq, ((sortDesc_perm w).filter _).sum_eq] at this

/-- In a better market the combined values are better. -/
theorem combinedValues_asGood {V W : ℕ → List ℚ} (f : Forest) (h : ∀ i ∈ nodes f, AsGood (V i) (W i))
    (hV : ∀ i ∈ nodes f, SortedDesc (V i)) (hW : ∀ i ∈ nodes f, SortedDesc (W i)) :
    AsGood (f.combinedValues V) (f.combinedValues W) := by
  induction f with
  | nil => exact asGood_refl _
  | cons i ch s ih1 ih2 =>
    rw [combinedValues_cons, combinedValues_cons]
    refine AsGood.append ?_ (ih2 (fun j hj => h j (by simp [nodes, hj])) (fun j hj => hV j (by simp [nodes, hj]))
      (fun j hj => hW j (by simp [nodes, hj])))
    have hi : i ∈ nodes (.cons i ch s) := by simp [nodes]
    by_cases hc : ch = .nil
    · subst hc
      exact h i hi
    · rw [nodeValues_of_ne _ _ hc, nodeValues_of_ne _ _ hc]
      refine (EntriesLe.zip_add ((h i hi).entries (hV i hi) (hW i hi)) (AsGood.sort ?_)).asGood
      exact ih1 (fun j hj => h j (by simp [nodes, hj])) (fun j hj => hV j (by simp [nodes, hj]))
        (fun j hj => hW j (by simp [nodes, hj]))

/-! ## One recipe -/

theorem EntriesLe.drop {v w : List ℚ} (h : EntriesLe v w) (n : ℕ) : EntriesLe (v.drop n) (w.drop n) := by
  induction n generalizing v w with
  | zero => exact h
  | succ n ih =>
    cases v with
    | nil => simp [EntriesLe]
    | cons a v =>
      cases w with
      | nil => exact h.elim
      | cons b w => exact ih h.2

theorem EntriesLe.take {v w : List ℚ} (h : EntriesLe v w) (n : ℕ) : EntriesLe (v.take n) (w.take n) := by
  induction n generalizing v w with
  | zero => simp [EntriesLe]
  | succ n ih =>
    cases v with
    | nil => simp [EntriesLe]
    | cons a v =>
      cases w with
      | nil => exact h.elim
      | cons b w => exact ⟨h.1, ih h.2⟩

theorem EntriesLe.sum_le {v w : List ℚ} (h : EntriesLe v w) (hl : w.length ≤ v.length) : v.sum ≤ w.sum := by
  induction v generalizing w with
  | nil =>
    cases w with
    | nil => exact le_refl _
    | cons b w => simp at hl
  | cons a v ih =>
    cases w with
    | nil => exact h.elim
    | cons b w =>
      rw [List.sum_cons, List.sum_cons]
      exact add_le_add h.1 (ih h.2 (by simpa using hl))

theorem EntriesLe.length_le {v w : List ℚ} (h : EntriesLe v w) : v.length ≤ w.length := by
  induction v generalizing w with
  | nil => simp
  | cons a v ih =>
    cases w with
    | nil => exact h.elim
    | cons b w => simpa using ih h.2

theorem blk_le {cs ds : List AgentCategory} {r : List ℕ} (hl : cs.length = ds.length) (hr : r.length = cs.length)
    (h : ∀ i, EntriesLe (vAt cs i) (vAt ds i)) {j : ℕ} (hav : Avail cs r j) : (blk cs r j).sum ≤ (blk ds r j).sum := by
  induction cs generalizing ds r with
  | nil =>
    cases ds with
    | nil => exact le_refl _
    | cons d ds => simp at hl
  | cons c cs ih =>
    cases ds with
    | nil => simp at hl
    | cons d ds =>
      cases r with
      | nil => simp at hr
      | cons a r =>
        have h0 : EntriesLe c.values d.values := by simpa using h 0
        have hsz := hav 0 (by simp)
        simp only [rAt_cons_zero, vAt_cons_zero] at hsz
        rw [blk, blk, List.sum_append, List.sum_append]
        refine add_le_add ?_ (ih (by simpa using hl) (by simpa using hr) (fun i => by simpa using h (i + 1)) hav.tail)
        have h1 := (h0.drop (j * a)).take a
        refine EntriesLe.sum_le h1 ?_
        rw [seg_length hsz]
        simp [seg]

end Auctions
