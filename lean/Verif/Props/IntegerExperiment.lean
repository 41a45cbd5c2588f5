import Verif.Model.IntegerExperiment
import Verif.Proofs.IntegerBlocks
import Verif.Props.Counters
import Verif.Props.TreeStockExperiment

set_option autoImplicit false

/-!
# C76: the experiment on integer recipe trees never fills a row
-/

namespace Auctions.Props

open Auctions Spec TreeExperiment

theorem withCounters_length (bs : List (List ℚ)) (store : List ℕ) : (IntegerTree.withCounters bs store).1.length = bs.length := by
  induction bs generalizing store with
  | nil => rfl
  | cons b bs ih => simp [IntegerTree.withCounters, ih]

theorem blocks_nonempty {n : ℕ} (hn : 0 < n) : ∀ (l acc : List ℚ), acc.length < n → n ≤ acc.length + l.length → IntegerTree.blocks n acc l ≠ [] := by
  intro l
  induction l with
  | nil => intro acc h1 h2; simp at h2; omega
  | cons v l ih =>
    intro acc h1 h2
    rw [IntegerTree.blocks]
    split_ifs with h
    · simp
    · refine ih _ ?_ ?_
      · simp at h ⊢; omega
      · simp at h2 ⊢; omega

/-- **C76**. If there is a complete set of agents in every category of a tree with at least two categories, the exception of
`optimal_trade_with_counters()` is `TypeError`. -/
theorem integer_counters_type_error (t : RecipeTree) (cnt : ℕ → ℕ) (vals : ℕ → List ℚ) (h : t.children ≠ .nil)
    (hc : ∀ i ∈ treeNodes t, 0 < cnt i ∧ cnt i ≤ (vals i).length) : IntegerTree.optimalTradeWithCounters t cnt vals = .error .typeError := by
  have hb : ∀ i, 0 < cnt i → cnt i ≤ (vals i).length → IntegerTree.blocks (cnt i) [] (sortDesc (vals i)) ≠ [] := fun i h1 h2 =>
    blocks_nonempty h1 _ _ h1 (by rw [(sortDesc_perm _).length_eq]; simpa using h2)
  have hjoin : ∀ (bs : List (List ℚ)) (x : List IntegerTree.CountedSet) (xs : List (List IntegerTree.CountedSet)), bs ≠ [] → x ≠ [] →
      IntegerTree.joinCounted bs (x :: xs) = .error .typeError := by
    intro bs x xs h1 h2
    simp [IntegerTree.joinCounted, List.length_pos_iff.2 h1, h2]
  have key : ∀ (f : Forest) (store : List ℕ), (∀ i ∈ nodes f, 0 < cnt i ∧ cnt i ≤ (vals i).length) →
      (∃ r, IntegerTree.combinedWithCountersList cnt vals f store = .ok r ∧ (∀ x ∈ r.1, x ≠ []) ∧ (f ≠ .nil → r.1 ≠ [])) ∨
      IntegerTree.combinedWithCountersList cnt vals f store = .error .typeError := by
    intro f
    induction f with
    | nil => intro store _; exact Or.inl ⟨_, rfl, by simp, by simp⟩
    | cons i ch s ih1 ih2 =>
      intro store hf
      have hi := hf i (by simp [nodes])
      have hbi := hb i hi.1 hi.2
      cases ch with
      | nil =>
        rw [IntegerTree.combinedWithCountersList]
        simp only [bind, Except.bind]
        rcases ih2 (IntegerTree.withCounters (IntegerTree.blocks (cnt i) [] (sortDesc (vals i))) store).2 (fun x hx => hf x (by simp only [nodes, List.mem_cons, List.mem_append]; tauto)) with
          ⟨r, h1, h2, -⟩ | h1
        · rw [h1]
          refine Or.inl ⟨_, rfl, ?_, by simp⟩
          intro x hx
          rcases List.mem_cons.1 hx with rfl | hx
          · intro h0
            have := congrArg List.length h0
            rw [List.length_insertionSort, withCounters_length] at this
            exact hbi (List.length_eq_zero_iff.1 this)
          · exact h2 x hx
        · rw [h1]; simp
      | cons j c s' =>
        rw [IntegerTree.combinedWithCountersList]
        simp only [bind, Except.bind]
        rcases ih1 (IntegerTree.withCounters (IntegerTree.blocks (cnt i) [] (sortDesc (vals i))) store).2 (fun x hx => hf x (by rw [nodes]; exact List.mem_cons_of_mem _ (List.mem_append_left _ hx))) with
          ⟨⟨xs, st⟩, h1, h2, h3⟩ | h1
        · rw [h1]
          cases xs with
          | nil => exact absurd rfl (h3 (by simp))
          | cons x xs => simp only [hjoin _ _ _ hbi (h2 x (by simp))]; simp
        · rw [h1]; simp
  unfold IntegerTree.optimalTradeWithCounters RecipeTree.forest
  obtain ⟨i, ch⟩ := t
  cases ch with
  | nil => exact absurd rfl h
  | cons j c s' =>
    have hi := hc i (by simp [treeNodes])
    have hbi := hb i hi.1 hi.2
    rw [IntegerTree.combinedWithCountersList]
    simp only [bind, Except.bind]
    rcases key (.cons j c s') (IntegerTree.withCounters (IntegerTree.blocks (cnt i) [] (sortDesc (vals i))) []).2
      (fun x hx => hc x (by simp only [treeNodes, List.mem_cons]; exact Or.inr hx)) with ⟨⟨xs, st⟩, h1, h2, h3⟩ | h1
    · rw [h1]
      cases xs with
      | nil => exact absurd rfl (h3 (by simp))
      | cons x xs => simp only [hjoin _ _ _ hbi (h2 x (by simp))]
    · rw [h1]

section

variable {fuel : ℕ} {root : ℕ} {ch : Forest} {ranges : List (ℚ × ℚ)} {n : ℕ} {ns : List ℕ} {N : ℕ} {counts values : List ℚ} {treeCounts : List ℕ}
  {random : ℕ → ℕ → ℕ → ℕ → ℚ}

theorem integer_addMarket_fails (hch : ch ≠ .nil) (m : Market) (s : Sums) :
    ∃ e, IntegerExperiment.addMarket fuel (written (.cons root ch .nil)) treeCounts m s = .error e := by
  unfold IntegerExperiment.addMarket
  rcases ht : IntegerTree.init m.numCategories (written (.cons root ch .nil)) treeCounts with e | t
  · exact ⟨e, by simp only [bind, Except.bind]⟩
  · have : t = ⟨root, ch⟩ := init_written_unique ht
    subst this
    rcases integer_counters_always_fail ⟨root, ch⟩ (IntegerTree.countOf treeCounts) (TreeAuction.valuesAt m.categories) hch with h | h
    · exact ⟨_, by simp only [h, bind, Except.bind]; rfl⟩
    · exact ⟨_, by simp only [h, bind, Except.bind]; rfl⟩

/-- **C76**. Whatever the parameters and the random numbers: for a tree with at least two categories, `experiment` raises an exception, unless the list
`nums_of_agents` is empty. It never returns a table with a row, and it never gets as far as running an auction. -/
theorem integer_experiment_always_fails (hch : ch ≠ .nil) (hns : ns ≠ []) :
    ∃ e, IntegerExperiment.experiment fuel (written (.cons root ch .nil)) ranges ns N counts values treeCounts random = .error e := by
  cases ns with
  | nil => exact absurd rfl hns
  | cons n ns =>
    rw [IntegerExperiment.experiment, IntegerExperiment.rows]
    cases N with
    | zero => exact ⟨_, by simp only [IntegerExperiment.iterations, IntegerExperiment.mkRow, pyDiv, bind, Except.bind, Nat.cast_zero, if_true]; rfl⟩
    | succ N =>
      rw [IntegerExperiment.iterations]
      rcases hm : randomMarket treeCounts.length ranges n counts values (random 0 0) with e | m
      · exact ⟨e, by simp only [bind, Except.bind]⟩
      · obtain ⟨e, he⟩ := integer_addMarket_fails (fuel := fuel) (root := root) (treeCounts := treeCounts) hch m ⟨0, 0, 0, 0, 0, 0, 0⟩
        exact ⟨e, by simp only [he, bind, Except.bind]⟩

/-- **C76**. With sensible parameters - as in C73, with a count, at least 1, in `recipe_tree_agent_counts` for every category of the tree, and a complete set
of agents in every category - the exception is `TypeError`. -/
theorem integer_experiment_type_error (hch : ch ≠ .nil) (hN : 0 < N) (hK : ∀ c ∈ nodes (.cons root ch .nil), c < treeCounts.length)
    (hs : TreeSensible treeCounts.length ranges counts values random)
    (hc : ∀ c ∈ nodes (.cons root ch .nil), 1 ≤ treeCounts.getD c 0 ∧ (treeCounts.getD c 0 : ℚ) ≤ n * counts.getD c 0) :
    IntegerExperiment.experiment fuel (written (.cons root ch .nil)) ranges (n :: ns) N counts values treeCounts random = .error .typeError := by
  have hK0 : 0 < treeCounts.length := by
    have := hK root (by simp [nodes])
    omega
  obtain ⟨m, hm, hd⟩ := tree_random_market (n := n) hK0 hs.two hs.ordered hs.enough hs.counts_nonneg hs.factors hs.factors_nonneg (hs.unit 0 0)
  have hne : treeCounts ≠ [] := by rintro rfl; simp at hK0
  have ht : IntegerTree.init m.numCategories (written (.cons root ch .nil)) treeCounts = .ok ⟨root, ch⟩ := by
    rw [IntegerTree.init, if_neg hne, hd.1, Nat.min_self]
    exact init_written hK
  have hcnt : ∀ i, IntegerTree.countOf treeCounts i = treeCounts.getD i 0 := fun i => by rw [IntegerTree.countOf, if_neg hne]
  have hfail : IntegerTree.optimalTradeWithCounters ⟨root, ch⟩ (IntegerTree.countOf treeCounts) (TreeAuction.valuesAt m.categories) = .error .typeError := by
    refine integer_counters_type_error _ _ _ hch ?_
    intro i hi
    have hi' : i ∈ nodes (.cons root ch .nil) := by simpa [treeNodes, nodes] using hi
    obtain ⟨h1, h2⟩ := hc i hi'
    have him : i < m.categories.length := by rw [show m.categories.length = treeCounts.length from hd.1]; exact hK i hi'
    rw [hcnt]
    refine ⟨h1, ?_⟩
    have h3 := (hd.2 i him).1.2
    have h4 : TreeAuction.valuesAt m.categories i = m.categories[i].values := by
      rw [TreeAuction.valuesAt, List.getElem?_eq_getElem him]
    rw [h4]
    have : (treeCounts.getD i 0 : ℚ) < m.categories[i].size + 1 := lt_of_le_of_lt h2 h3
    have : treeCounts.getD i 0 < m.categories[i].size + 1 := by exact_mod_cast this
    simp only [AgentCategory.size] at this
    omega
  obtain ⟨k, rfl⟩ : ∃ k, N = k + 1 := ⟨N - 1, by omega⟩
  rw [IntegerExperiment.experiment, IntegerExperiment.rows, IntegerExperiment.iterations]
  simp only [hm, IntegerExperiment.addMarket, ht, hfail, bind, Except.bind]

end

/-- The parameters of `experiment_recpietree_integer.py`. -/
def paperTree : Forest := .cons 0 (.cons 1 .nil (.cons 2 (.cons 3 .nil .nil) .nil)) .nil

/-- **C76** for the script `experiment_recpietree_integer.py`: with its parameters - tree `[0, [1, None, 2, [3, None]]]`, values between 1 and 1000, sizes from 2
on, 50 iterations, `agent_counts = [2,2,1,2]`, `agent_values = [3,1.5,1,1]`, `recipe_tree_agent_counts = [1,2,1,2]` - and any random numbers, it ends
with `TypeError`. -/
theorem integer_experiment_script (fuel : ℕ) (random : ℕ → ℕ → ℕ → ℕ → ℚ) (hr : ∀ i j c a, 0 ≤ random i j c a ∧ random i j c a ≤ 1) :
    IntegerExperiment.experiment fuel [.int 0, .list [.int 1, .none, .int 2, .list [.int 3, .none]]] [(1, 1000), (-1000, -1)]
      [2, 4, 6, 10, 16, 26, 50, 100, 500, 1000, 2000, 5000] 50 [2, 2, 1, 2] [3, 3 / 2, 1, 1] [1, 2, 1, 2] random = .error .typeError := by
  have hw : [PyObj.int 0, .list [.int 1, .none, .int 2, .list [.int 3, .none]]] = written paperTree := by
    simp [written, paperTree]
  rw [hw]
  exact integer_experiment_type_error (by simp) (by norm_num) (by decide +kernel)
    ⟨by decide +kernel, by decide +kernel, by decide +kernel, by decide +kernel, by decide +kernel, by decide +kernel, by decide +kernel, hr⟩
    (by decide +kernel)

/-- Non-vacuity of C73 for the script `experiment_recpietree.py`: its parameters are sensible, whatever the random numbers; its tree has two leaves, so that no
warning is printed unless there are ties. -/
example (random : ℕ → ℕ → ℕ → ℕ → ℚ) (hr : ∀ i j c a, 0 ≤ random i j c a ∧ random i j c a ≤ 1) :
    TreeSensible 4 [(1, 1000), (-1000, -1)] [1, 1 / 2, 1 / 2, 1 / 2] [2, 2, 1, 1] random ∧ (nodes paperTree).Nodup ∧
    (leaves paperTree).length = 2 :=
  ⟨⟨by decide +kernel, by decide +kernel, by decide +kernel, by decide +kernel, by decide +kernel, by decide +kernel, by decide +kernel, hr⟩,
    by decide +kernel, by simp [leaves, paperTree]⟩

end Auctions.Props
