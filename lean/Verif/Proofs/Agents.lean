import Verif.Model.Agents
import Verif.Proofs.Lists
import Mathlib.Algebra.Order.Group.Multiset

set_option autoImplicit false

/-! # Lemmas about the category model -/

namespace Auctions

open Spec

namespace AgentCategory

theorem removeHighestAgents_eq (c : AgentCategory) (n : ℕ) :
    c.removeHighestAgents n =
      if n ≤ c.values.length then .ok { c with values := c.values.drop n } else .error .indexError := by
  induction n generalizing c with
  | zero => simp [removeHighestAgents]
  | succ n ih =>
    obtain ⟨name, values⟩ := c
    cases values with
    | nil => simp [removeHighestAgents, removeHighestAgent, bind, Except.bind]
    | cons v vs => simp [removeHighestAgents, removeHighestAgent, bind, Except.bind, ih]

/-- The model's interpretation of a user operation. -/
def applyOp (c : AgentCategory) : CatOp → Py AgentCategory
  | .append v => .ok (c.append v)
  | .appendList vs => .ok (c.appendList vs)
  | .removeHighest => c.removeHighestAgent
  | .removeHighestN n => c.removeHighestAgents n
  | .removeLowest => c.removeLowestAgent
  | .clone => .ok c.clone

/-- A history of user operations; the first exception ends it. -/
def applyOps (c : AgentCategory) : List CatOp → Py AgentCategory
  | [] => .ok c
  | op :: ops => do
    let c' ← c.applyOp op
    c'.applyOps ops

theorem isTop_take {l : List ℚ} (h : SortedDesc l) {n : ℕ} (hn : n ≤ l.length) :
    IsTop n (l.take n : List ℚ) (l : Multiset ℚ) ∧ ((l : Multiset ℚ) - (l.take n : List ℚ)) = (l.drop n : List ℚ) := by
  have e : (l : Multiset ℚ) = ((l.take n : List ℚ) : Multiset ℚ) + (l.drop n : List ℚ) := by
    rw [Multiset.coe_add, List.take_append_drop]
  have e2 : ((l : Multiset ℚ) - (l.take n : List ℚ)) = (l.drop n : List ℚ) := by
    conv_lhs => rw [e]
    exact add_tsub_cancel_left _ _
  refine ⟨⟨?_, ?_, ?_⟩, e2⟩
  · conv_rhs => rw [e]
    exact Multiset.le_add_right _ _
  · simp [hn]
  · rw [e2]
    intro x hx y hy
    exact h.take_ge_drop n x (by simpa using hx) y (by simpa using hy)

theorem isTop_unique {n : ℕ} {s t t' : Multiset ℚ} (h : IsTop n t s) (h' : IsTop n t' s) : t = t' := by
  obtain ⟨hle, hc, ht⟩ := h
  obtain ⟨hle', hc', ht'⟩ := h'
  -- the two differ by replacements of equal elements
  by_contra hne
  have hcard : Multiset.card (t - t') = Multiset.card (t' - t) := by
    have h1 : Multiset.card (t - t') + Multiset.card (t ∩ t') = Multiset.card t := by
      rw [← Multiset.card_add, Multiset.sub_add_inter]
    have h2 : Multiset.card (t' - t) + Multiset.card (t' ∩ t) = Multiset.card t' := by
      rw [← Multiset.card_add, Multiset.sub_add_inter]
    rw [Multiset.inter_comm] at h2
    omega
  have hpos : t - t' ≠ 0 := by
    intro h0
    have hsub : t ≤ t' := by
      have := Multiset.sub_le_iff_le_add.1 (le_of_eq h0)
      simpa using this
    exact hne (Multiset.eq_of_le_of_card_le hsub (by omega))
  obtain ⟨x, hx⟩ := Multiset.exists_mem_of_ne_zero hpos
  have hpos' : t' - t ≠ 0 := by
    intro h0
    rw [h0, Multiset.card_zero] at hcard
    exact hpos (Multiset.card_eq_zero.1 hcard)
  obtain ⟨y, hy⟩ := Multiset.exists_mem_of_ne_zero hpos'
  have hxc : t'.count x < t.count x := by
    have := Multiset.count_pos.2 hx
    rw [Multiset.count_sub] at this; omega
  have hyc : t.count y < t'.count y := by
    have := Multiset.count_pos.2 hy
    rw [Multiset.count_sub] at this; omega
  have hxt : x ∈ t := Multiset.count_pos.1 (by omega)
  have hyt : y ∈ t' := Multiset.count_pos.1 (by omega)
  have hxs : x ∈ s - t' := by
    rw [← Multiset.count_pos, Multiset.count_sub]
    have := Multiset.le_iff_count.1 hle x; omega
  have hys : y ∈ s - t := by
    rw [← Multiset.count_pos, Multiset.count_sub]
    have := Multiset.le_iff_count.1 hle' y; omega
  have h1 := ht x hxt y hys
  have h2 := ht' y hyt x hxs
  have : x = y := le_antisymm h2 h1
  subst this; omega

/-- One operation: the model's outcome is the specified one, and it fails exactly when the specification
has no outcome. -/
theorem applyOp_spec (c : AgentCategory) (hc : SortedDesc c.values) (op : CatOp) :
    (∃ c', c.applyOp op = .ok c' ∧ c'.name = c.name ∧ SortedDesc c'.values ∧
        ∀ s', CatStep c.values op s' ↔ s' = (c'.values : Multiset ℚ)) ∨
      (c.applyOp op = .error .indexError ∧ ∀ s', ¬ CatStep c.values op s') := by
  obtain ⟨name, values⟩ := c
  cases op with
  | append v =>
    refine Or.inl ⟨_, rfl, rfl, sortDesc_sorted _, fun s' => ?_⟩
    simp [CatStep, AgentCategory.append]
    rw [← Multiset.coe_add, add_comm]; rfl
  | appendList vs =>
    refine Or.inl ⟨_, rfl, rfl, sortDesc_sorted _, fun s' => ?_⟩
    simp [CatStep, appendList]
  | removeHighest =>
    cases values with
    | nil => exact Or.inr ⟨rfl, by simp [CatStep]⟩
    | cons v vs =>
      refine Or.inl ⟨⟨name, vs⟩, rfl, rfl, (List.pairwise_cons.1 hc).2, fun s' => ?_⟩
      constructor
      · rintro ⟨x, hx, hmax, rfl⟩
        have : x = v := le_antisymm (hc.le_head x (by simpa using hx)) (hmax v (by simp))
        subst this; simp
      · rintro rfl
        exact ⟨v, by simp, fun y hy => hc.le_head y (by simpa using hy), by simp⟩
  | removeHighestN n =>
    show (∃ c', removeHighestAgents _ n = .ok c' ∧ _) ∨ (removeHighestAgents _ n = _ ∧ _)
    rw [removeHighestAgents_eq]
    by_cases hn : n ≤ values.length
    · left
      have htop := isTop_take hc hn
      refine ⟨⟨name, values.drop n⟩, by simp [hn], rfl, hc.drop n, fun s' => ?_⟩
      constructor
      · rintro ⟨top, ht, rfl⟩
        rw [isTop_unique ht htop.1]; exact htop.2
      · rintro rfl
        exact ⟨_, htop.1, htop.2.symm⟩
    · right
      refine ⟨by simp [hn], ?_⟩
      rintro s' ⟨top, ⟨hle, hcard, -⟩, -⟩
      have := Multiset.card_le_card hle
      simp at this; omega
  | removeLowest =>
    cases hv : values with
    | nil => exact Or.inr ⟨rfl, by simp [CatStep]⟩
    | cons v vs =>
      rw [← hv]
      have hlast : ∃ x, values.getLast? = some x := ⟨_, List.getLast?_eq_getLast_of_ne_nil (by simp [hv])⟩
      obtain ⟨x, hx⟩ := hlast
      have hsplit : values = values.dropLast ++ [x] := by
        have := List.dropLast_append_getLast? x hx
        exact this.symm
      refine Or.inl ⟨⟨name, values.dropLast⟩, by simp [applyOp, removeLowestAgent, hv], rfl,
        Spec.SortedDesc.dropLast (l := values) hc, fun s' => ?_⟩
      have hmin := Spec.SortedDesc.getLast_le (l := values) hc hx
      have herase : ((values : Multiset ℚ).erase x) = (values.dropLast : List ℚ) := by
        conv_lhs => rw [hsplit]
        rw [← Multiset.coe_add, add_comm]
        show (x ::ₘ ((values.dropLast : List ℚ) : Multiset ℚ)).erase x = _
        simp
      have hxm : x ∈ values := by rw [hsplit]; simp
      constructor
      · rintro ⟨z, hz, hzmin, rfl⟩
        have : z = x := le_antisymm (hzmin x (by simpa using hxm)) (hmin z (by simpa using hz))
        subst this; exact herase
      · rintro rfl
        exact ⟨x, by simpa using hxm, fun y hy => hmin y (by simpa using hy), herase.symm⟩
  | clone =>
    refine Or.inl ⟨_, rfl, rfl, sortDesc_sorted _, fun s' => ?_⟩
    simp [CatStep, clone, init]

end AgentCategory

end Auctions
