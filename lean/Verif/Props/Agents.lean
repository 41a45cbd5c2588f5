import Verif.Proofs.Agents

set_option autoImplicit false

/-!
# C01, C02 — properties of `AgentCategory`
-/

namespace Auctions.Props

open Auctions Spec AgentCategory

/-- **C01**. A category built from any values and subjected to any history of operations stays sorted in descending order
and holds exactly the multiset the history prescribes; the history raises (and then only `IndexError`)
exactly when the specification allows no outcome, i.e. some removal asks for an agent that is not there. -/
theorem category_history (name : String) (vs : List ℚ) (ops : List CatOp) :
    (∃ c, (AgentCategory.init name vs).applyOps ops = .ok c ∧ c.name = name ∧ SortedDesc c.values ∧
        ∀ s, CatRun (vs : Multiset ℚ) ops s ↔ s = (c.values : Multiset ℚ)) ∨
      ((AgentCategory.init name vs).applyOps ops = .error .indexError ∧ ∀ s, ¬ CatRun (vs : Multiset ℚ) ops s) := by
  suffices H : ∀ (ops : List CatOp) (c0 : AgentCategory), SortedDesc c0.values →
      (∃ c, c0.applyOps ops = .ok c ∧ c.name = c0.name ∧ SortedDesc c.values ∧
          ∀ s, CatRun (c0.values : Multiset ℚ) ops s ↔ s = (c.values : Multiset ℚ)) ∨
        (c0.applyOps ops = .error .indexError ∧ ∀ s, ¬ CatRun (c0.values : Multiset ℚ) ops s) by
    have := H ops (AgentCategory.init name vs) (sortDesc_sorted _)
    simpa [AgentCategory.init] using this
  intro ops
  induction ops with
  | nil => intro c0 h0; exact Or.inl ⟨c0, rfl, rfl, h0, fun s => Iff.rfl⟩
  | cons op ops ih =>
    intro c0 h0
    rcases applyOp_spec c0 h0 op with ⟨c1, hok, hname, hs, hstep⟩ | ⟨herr, hstep⟩
    · rcases ih c1 hs with ⟨c, hc, hn, hcs, hrun⟩ | ⟨hc, hrun⟩
      · refine Or.inl ⟨c, ?_, hn.trans hname, hcs, fun s => ?_⟩
        · simp [applyOps, hok, bind, Except.bind, hc]
        · simp only [CatRun, hstep]
          constructor
          · rintro ⟨t, rfl, h⟩; exact (hrun s).1 h
          · intro h; exact ⟨_, rfl, (hrun s).2 h⟩
      · refine Or.inr ⟨?_, ?_⟩
        · simp [applyOps, hok, bind, Except.bind, hc]
        · rintro s ⟨t, ht, h⟩
          rw [hstep] at ht; subst ht
          exact hrun s h
    · refine Or.inr ⟨?_, ?_⟩
      · simp [applyOps, herr, bind, Except.bind]
      · rintro s ⟨t, ht, -⟩
        exact hstep t ht

/-- Non-vacuity of `category_history`: a successful history and a failing one (the doctest of `agents.py:21-38`). -/
example :
    (AgentCategory.init "buyer" [1, 6, 3, 7, 4, 9]).applyOps
        [.removeHighest, .removeHighestN 2, .removeLowest, .append (7/2), .appendList [16/5, 19/5]]
      = .ok ⟨"buyer", [4, 19/5, 7/2, 16/5, 3]⟩ ∧
    (AgentCategory.init "buyer" [1, 6]).applyOps [.removeHighestN 3] = .error .indexError := by
  decide +kernel

/-- **C02**, `highest_agent_value`: on a category with descending values (every category, by C01) it returns the maximum,
and raises exactly on an empty category. -/
theorem highest_is_max (c : AgentCategory) (hc : SortedDesc c.values) :
    (c.values = [] ∧ c.highestAgentValue = .error .indexError) ∨
      ∃ v, c.highestAgentValue = .ok v ∧ v ∈ c.values ∧ ∀ w ∈ c.values, w ≤ v := by
  obtain ⟨name, values⟩ := c
  cases values with
  | nil => exact Or.inl ⟨rfl, rfl⟩
  | cons v vs => exact Or.inr ⟨v, rfl, by simp, fun w hw => Spec.SortedDesc.le_head hc w hw⟩

/-- **C02**, `lowest_agent_value`. -/
theorem lowest_is_min (c : AgentCategory) (hc : SortedDesc c.values) :
    (c.values = [] ∧ c.lowestAgentValue = .error .indexError) ∨
      ∃ v, c.lowestAgentValue = .ok v ∧ v ∈ c.values ∧ ∀ w ∈ c.values, v ≤ w := by
  obtain ⟨name, values⟩ := c
  cases h : values.getLast? with
  | none => exact Or.inl ⟨by simpa using h, by simp [lowestAgentValue, h]⟩
  | some v =>
    exact Or.inr ⟨v, by simp [lowestAgentValue, h], List.mem_of_getLast? h,
      Spec.SortedDesc.getLast_le (l := values) hc h⟩

/-- **C02**, `highest_agent_values(n)`: the `n` largest agents (all of them if there are fewer), in descending order. -/
theorem highest_values_are_top (c : AgentCategory) (hc : SortedDesc c.values) (n : ℕ) :
    SortedDesc (c.highestAgentValues n) ∧
      IsTop (min n c.values.length) (c.highestAgentValues n : Multiset ℚ) (c.values : Multiset ℚ) := by
  refine ⟨hc.take n, ?_⟩
  have h := (isTop_take hc (n := min n c.values.length) (by omega)).1
  have e : c.values.take (min n c.values.length) = c.values.take n := by
    rcases le_total n c.values.length with h | h
    · rw [min_eq_left h]
    · rw [min_eq_right h, List.take_length, List.take_of_length_le h]
  rw [e] at h
  exact h

example : SortedDesc (AgentCategory.init "seller" [-4, -3, -9]).values ∧
    (AgentCategory.init "seller" [-4, -3, -9]).highestAgentValue = .ok (-3) ∧
    (AgentCategory.init "seller" [-4, -3, -9]).lowestAgentValue = .ok (-9) ∧
    (AgentCategory.init "seller" [-4, -3, -9]).highestAgentValues 2 = [-3, -4] :=
  ⟨sortDesc_sorted _, by decide +kernel, by decide +kernel, by decide +kernel⟩

end Auctions.Props
