import Verif.Props.Markets
import Verif.Proofs.Simultaneous

set_option autoImplicit false

/-!
# C49, C50 — other operations on markets, and the constructor of simultaneous price vectors
-/

namespace Auctions.Props

open Auctions Spec

theorem appendTrader_spec (m : Market) (i : ℕ) (v : ℚ) :
    (m.categories.length ≤ i ∧ m.appendTrader i v = .error .indexError) ∨
    ∃ c, m.categories[i]? = some c ∧ m.appendTrader i v = .ok ⟨m.categories.set i (c.append v)⟩ := by
  unfold Market.appendTrader
  cases h : m.categories[i]? with
  | none => left; exact ⟨List.getElem?_eq_none_iff.1 h, rfl⟩
  | some c => right; exact ⟨c, rfl, rfl⟩

/-- **C49**. `append_trader(i, v)`: `IndexError` if there is no category `i`; otherwise that category gets one more agent, of value `v`,
and stays sorted; the other categories and the names do not change. -/
theorem append_trader (m : Market) (i : ℕ) (v : ℚ) :
    (m.categories.length ≤ i ∧ m.appendTrader i v = .error .indexError) ∨
    (i < m.categories.length ∧ ∃ m', m.appendTrader i v = .ok m' ∧
      m'.categories.map AgentCategory.name = m.categories.map AgentCategory.name ∧
      (m'.valueLists.getD i [] : Multiset ℚ) = v ::ₘ (m.valueLists.getD i [] : Multiset ℚ) ∧
      SortedDesc (m'.valueLists.getD i []) ∧
      ∀ j, j ≠ i → m'.valueLists.getD j [] = m.valueLists.getD j []) := by
  rcases appendTrader_spec m i v with h | ⟨c, hc, h⟩
  · exact Or.inl h
  · right
    obtain ⟨hi, rfl⟩ := List.getElem?_eq_some_iff.1 hc
    refine ⟨hi, _, h, ?_, ?_, ?_, ?_⟩
    · simp only [List.map_set]
      apply List.ext_getElem
      · simp
      · intro k h1 h2
        rw [List.getElem_set]
        split
        · rename_i hk; subst hk; simp [AgentCategory.append]
        · rfl
    · simp only [Market.valueLists, List.map_set]
      rw [List.getD_eq_getElem?_getD, List.getElem?_set_self (by simpa using hi)]
      simp only [Option.getD_some, AgentCategory.append, sortDesc_coe]
      simp only [List.getD_eq_getElem?_getD, List.getElem?_map, List.getElem?_eq_getElem hi, Option.map_some, Option.getD_some]
      rw [← Multiset.coe_add, add_comm, ← Multiset.singleton_add]; rfl
    · simp only [Market.valueLists, List.map_set]
      rw [List.getD_eq_getElem?_getD, List.getElem?_set_self (by simpa using hi)]
      simp only [Option.getD_some, AgentCategory.append]
      exact sortDesc_sorted _
    · intro j hj
      simp only [Market.valueLists, List.map_set]
      rw [List.getD_eq_getElem?_getD, List.getElem?_set_ne (Ne.symm hj), ← List.getD_eq_getElem?_getD]

theorem appendPSLoop_spec (ps : List ℚ) (i : ℕ) (m : Market) (h : i + ps.length = m.categories.length) :
    ∃ m', m.appendPSLoop i ps = .ok m' ∧
      m'.categories.map AgentCategory.name = m.categories.map AgentCategory.name ∧
      (∀ j < i, m'.valueLists.getD j [] = m.valueLists.getD j []) ∧
      ∀ j x, ps[j]? = some x → (m'.valueLists.getD (i + j) [] : Multiset ℚ) = x ::ₘ (m.valueLists.getD (i + j) [] : Multiset ℚ) ∧
        SortedDesc (m'.valueLists.getD (i + j) []) := by
  induction ps generalizing i m with
  | nil => exact ⟨m, rfl, rfl, fun _ _ => rfl, by simp⟩
  | cons v ps ih =>
    rcases append_trader m i v with ⟨h1, -⟩ | ⟨-, m1, e1, e2, e3, e4, e5⟩
    · simp at h; omega
    · have hl : m1.categories.length = m.categories.length := by
        have := congrArg List.length e2; simpa using this
      obtain ⟨m', f1, f2, f3, f4⟩ := ih (i + 1) m1 (by rw [hl]; simp at h; omega)
      refine ⟨m', by simp [Market.appendPSLoop, e1, f1, bind, Except.bind], f2.trans e2, ?_, ?_⟩
      · intro j hj; rw [f3 j (by omega), e5 j (by omega)]
      · intro j x hj
        cases j with
        | zero =>
          simp only [List.getElem?_cons_zero, Option.some.injEq] at hj
          subst hj
          rw [add_zero, f3 i (by omega)]
          exact ⟨e3, e4⟩
        | succ j =>
          simp only [List.getElem?_cons_succ] at hj
          have := f4 j x hj
          rw [show i + 1 + j = i + (j + 1) by omega] at this
          rw [← e5 (i + (j + 1)) (by omega)]
          exact this

/-- **C49**. `append_PS(ps)`: `ValueError` unless `ps` has one value per category; otherwise every category gets exactly one more agent,
with its value in `ps`, and stays sorted. -/
theorem append_ps (m : Market) (ps : List ℚ) :
    (ps.length ≠ m.categories.length ∧ m.appendPS ps = .error .valueError) ∨
    (ps.length = m.categories.length ∧ ∃ m', m.appendPS ps = .ok m' ∧
      m'.categories.map AgentCategory.name = m.categories.map AgentCategory.name ∧
      ∀ j x, ps[j]? = some x → (m'.valueLists.getD j [] : Multiset ℚ) = x ::ₘ (m.valueLists.getD j [] : Multiset ℚ) ∧
        SortedDesc (m'.valueLists.getD j [])) := by
  by_cases h : ps.length = m.categories.length
  · right
    obtain ⟨m', h1, h2, -, h4⟩ := appendPSLoop_spec ps 0 m (by omega)
    refine ⟨h, m', by simp [Market.appendPS, h, h1], h2, ?_⟩
    intro j x hj
    simpa using h4 j x hj
  · left; exact ⟨h, by simp [Market.appendPS, h]⟩

/-- **C49**. `has_empty_category()` tells whether some category has no agent. -/
theorem has_empty_category (m : Market) : m.hasEmptyCategory = true ↔ [] ∈ m.valueLists := by
  simp [Market.hasEmptyCategory, Market.valueLists, AgentCategory.size]

/-- **C49**. `empty_agent_categories()`: categories of the same names without agents. -/
theorem empty_agent_categories (m : Market) :
    m.emptyAgentCategories.map AgentCategory.name = m.categories.map AgentCategory.name ∧
      ∀ c ∈ m.emptyAgentCategories, c.values = [] := by
  constructor
  · simp [Market.emptyAgentCategories, AgentCategory.init, Function.comp_def]
  · intro c hc
    simp only [Market.emptyAgentCategories, List.mem_map] at hc
    obtain ⟨c', -, rfl⟩ := hc
    rfl

/-- Non-vacuity of C49. -/
example :
    let m : Market := ⟨[⟨"buyers", [9, 5]⟩, ⟨"sellers", []⟩]⟩
    m.hasEmptyCategory = true ∧ m.appendPS [7, -3] = .ok ⟨[⟨"buyers", [9, 7, 5]⟩, ⟨"sellers", [-3]⟩]⟩ ∧
    m.appendPS [7] = .error .valueError ∧ m.appendTrader 2 7 = .error .indexError ∧
    m.appendTrader 0 6 = .ok ⟨[⟨"buyers", [9, 6, 5]⟩, ⟨"sellers", []⟩]⟩ := by
  decide +kernel

/-- **C50**. The constructor of a simultaneous price vector raises `ValueError` exactly when there is no recipe or two recipes have
different lengths; otherwise the vector has the given recipes, the initial prices, and no status. -/
theorem price_vector_constructor (rs : List (List ℕ)) (p : List ℚ) :
    ((rs = [] ∨ ∃ r ∈ rs, ∃ r' ∈ rs, r.length ≠ r'.length) ∧
      SimultaneousAscendingPriceVectors.init rs p = .error .valueError) ∨
    ((rs ≠ [] ∧ ∀ r ∈ rs, ∀ r' ∈ rs, r.length = r'.length) ∧
      SimultaneousAscendingPriceVectors.init rs p = .ok ⟨rs, p, none⟩) := by
  cases rs with
  | nil => left; exact ⟨Or.inl rfl, rfl⟩
  | cons r rs =>
    by_cases h : (r :: rs).any (fun q => q.length ≠ r.length) = true
    · left
      refine ⟨Or.inr ?_, by rw [SimultaneousAscendingPriceVectors.init, if_pos h]⟩
      obtain ⟨q, hq, hql⟩ := List.any_eq_true.1 h
      exact ⟨q, hq, r, by simp, by simpa using hql⟩
    · right
      refine ⟨⟨by simp, ?_⟩, by rw [SimultaneousAscendingPriceVectors.init, if_neg h]⟩
      have key : ∀ q ∈ r :: rs, q.length = r.length := by
        intro q hq
        by_contra hne
        exact h (List.any_eq_true.2 ⟨q, hq, by simpa using hne⟩)
      intro a ha b hb
      rw [key a ha, key b hb]

/-- Non-vacuity of C50. -/
example :
    SimultaneousAscendingPriceVectors.init [[1, 1], [1, 0]] [-2, -3] = .ok ⟨[[1, 1], [1, 0]], [-2, -3], none⟩ ∧
    SimultaneousAscendingPriceVectors.init [[1, 1], [1]] [-2, -3] = .error .valueError := by
  decide +kernel

end Auctions.Props
