import Verif.Model.RecipeTreeInteger
import Verif.Proofs.TreeShape

set_option autoImplicit false

/-! # Helper lemmas: grouping the agents of a category into sets of equal size -/

namespace Auctions.IntegerTree

open Auctions Spec

theorem blocks_short {c : ℕ} (cur l : List ℚ) (h : cur.length + l.length < c) : blocks c cur l = [] := by
  induction l generalizing cur with
  | nil => rfl
  | cons v vs ih =>
    rw [blocks, if_neg (by simp at h ⊢; omega)]
    exact ih _ (by simp at h ⊢; omega)

theorem blocks_long {c : ℕ} (cur l : List ℚ) (h : c ≤ cur.length + l.length) (hc : cur.length < c) :
    blocks c cur l = (cur ++ l.take (c - cur.length)) :: blocks c [] (l.drop (c - cur.length)) := by
  induction l generalizing cur with
  | nil => simp at h; omega
  | cons v vs ih =>
    rw [blocks]
    by_cases h1 : (cur ++ [v]).length = c
    · rw [if_pos h1]
      have : c - cur.length = 1 := by simp at h1; omega
      rw [this]; simp
    · have hl : (cur ++ [v]).length = cur.length + 1 := by simp
      rw [if_neg h1, ih _ (by simp at h ⊢; omega) (by omega), hl]
      have : c - cur.length = (c - (cur.length + 1)) + 1 := by omega
      rw [this]; simp

/-- The sets in which the code groups the agents of a category. -/
def groups (c : ℕ) (l : List ℚ) : List (List ℚ) := blocks c [] l

theorem groups_short {c : ℕ} {l : List ℚ} (h : l.length < c) : groups c l = [] := blocks_short [] l (by simpa using h)

theorem groups_long {c : ℕ} {l : List ℚ} (hc : 0 < c) (h : c ≤ l.length) :
    groups c l = l.take c :: groups c (l.drop c) := by
  have := blocks_long (c := c) [] l (by simpa using h) (by simpa using hc)
  simpa [groups] using this

theorem groups_zero (l : List ℚ) : groups 0 l = [] := by
  have : ∀ cur, blocks 0 cur l = [] := by
    induction l with
    | nil => intro cur; rfl
    | cons v vs ih => intro cur; rw [blocks, if_neg (by simp), ih]
  exact this []

theorem groups_induction {c : ℕ} (hc : 0 < c) {P : List ℚ → Prop} (h0 : ∀ l, l.length < c → P l)
    (h1 : ∀ l, c ≤ l.length → P (l.drop c) → P l) (l : List ℚ) : P l := by
  have : ∀ n, ∀ l : List ℚ, l.length = n → P l := by
    intro n
    induction n using Nat.strongRecOn with
    | _ n ih =>
      intro l hl
      by_cases h : l.length < c
      · exact h0 l h
      · exact h1 l (by omega) (ih (l.drop c).length (by simp; omega) _ rfl)
  exact this _ l rfl

theorem groups_length {c : ℕ} (hc : 0 < c) (l : List ℚ) : (groups c l).length = l.length / c := by
  induction l using groups_induction hc with
  | h0 l h => rw [groups_short h, Nat.div_eq_of_lt h]; rfl
  | h1 l h ih =>
    rw [groups_long hc h, List.length_cons, ih, List.length_drop, Nat.div_eq_sub_div hc h]

theorem groups_size {c : ℕ} (hc : 0 < c) (l : List ℚ) : ∀ b ∈ groups c l, b.length = c := by
  induction l using groups_induction hc with
  | h0 l h => rw [groups_short h]; simp
  | h1 l h ih =>
    rw [groups_long hc h]
    intro b hb
    rcases List.mem_cons.1 hb with rfl | hb
    · simp; omega
    · exact ih b hb

theorem groups_take {c : ℕ} (hc : 0 < c) (l : List ℚ) (k : ℕ) (hk : k ≤ l.length / c) :
    ((groups c l).take k).flatten = l.take (c * k) := by
  induction l using groups_induction hc generalizing k with
  | h0 l h =>
    rw [Nat.div_eq_of_lt h] at hk
    have : k = 0 := by omega
    subst this; simp
  | h1 l h ih =>
    cases k with
    | zero => simp
    | succ k =>
      rw [groups_long hc h, List.take_succ_cons, List.flatten_cons, ih k]
      · rw [← List.take_add]; congr 1; ring
      · rw [List.length_drop]
        rw [Nat.div_eq_sub_div hc h] at hk
        omega

theorem groups_flatten {c : ℕ} (hc : 0 < c) (l : List ℚ) : (groups c l).flatten.Subperm l := by
  have h := groups_take hc l (l.length / c) le_rfl
  rw [List.take_of_length_le (by rw [groups_length hc])] at h
  rw [h]
  exact (List.take_sublist _ _).subperm

theorem groups_sums_take {c : ℕ} (hc : 0 < c) (l : List ℚ) (k : ℕ) (hk : k ≤ l.length / c) :
    (((groups c l).map List.sum).take k).sum = (l.take (c * k)).sum := by
  rw [← List.map_take, ← List.sum_flatten, groups_take hc l k hk]

theorem groups_sorted {c : ℕ} (hc : 0 < c) {l : List ℚ} (h : SortedDesc l) : SortedDesc ((groups c l).map List.sum) := by
  induction l using groups_induction hc with
  | h0 l hl => rw [groups_short hl]; exact List.Pairwise.nil
  | h1 l hl ih =>
    rw [groups_long hc hl, List.map_cons]
    refine List.Pairwise.cons ?_ (ih (h.drop c))
    intro s hs
    obtain ⟨b, hb, rfl⟩ := List.mem_map.1 hs
    have hmem : ∀ y ∈ b, y ∈ l.drop c := by
      intro y hy
      exact (groups_flatten hc (l.drop c)).subset (List.mem_flatten.2 ⟨b, hb, hy⟩)
    have hbl := groups_size hc _ b hb
    have hge := h.take_ge_drop c
    have hlen : (l.take c).length = b.length := by simp; omega
    generalize l.take c = a at hge hlen
    have : ∀ a b : List ℚ, a.length = b.length → (∀ x ∈ a, ∀ y ∈ b, y ≤ x) → b.sum ≤ a.sum := by
      intro a
      induction a with
      | nil => intro b hb _; have : b = [] := List.length_eq_zero_iff.1 (by simpa using hb.symm)
               simp [this]
      | cons x a ih =>
        intro b hb hxy
        cases b with
        | nil => simp at hb
        | cons y b =>
          have h1 := ih b (by simpa using hb) (fun x hx y hy => hxy x (by simp [hx]) y (by simp [hy]))
          have h2 := hxy x (by simp) y (by simp)
          simp only [List.sum_cons]; linarith
    exact this a b hlen (fun x hx y hy => hge x hx y (hmem y hy))

theorem groups_one (l : List ℚ) : groups 1 l = l.map (fun x => [x]) := by
  induction l with
  | nil => rfl
  | cons x l ih => rw [groups_long (by omega) (by simp)]; simp [ih]

theorem sortBySumDesc_of_sorted {l : List (List ℚ)} (h : SortedDesc (l.map List.sum)) : sortBySumDesc l = l := by
  unfold sortBySumDesc
  apply List.Pairwise.insertionSort_eq
  exact List.pairwise_map.1 h

theorem sortBySumDesc_groups {c : ℕ} (hc : 0 < c) (l : List ℚ) :
    sortBySumDesc (blocks c [] (sortDesc l)) = groups c (sortDesc l) :=
  sortBySumDesc_of_sorted (groups_sorted hc (sortDesc_sorted l))

end Auctions.IntegerTree
