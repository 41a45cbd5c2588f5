import Verif.Proofs.IntegerAuction
import Verif.Proofs.IntegerCut
import Verif.Proofs.IntegerPrices
import Verif.Proofs.TreeAuctionStart

set_option autoImplicit false

/-!
# The loop of the tree auction with agent counts
-/

namespace Auctions.IntegerAuction

open Auctions Spec TreeAuction

/-- The categories chosen in an iteration. -/
def chosen (cnt : ℕ → ℕ) (t : RecipeTree) (cats : List AgentCategory) : List ℕ :=
  (IntegerTree.largestCategories cnt (sizeAt cats) t.forest).2.2

theorem chosen_lt {t : RecipeTree} {n : ℕ} (ht : TreeOn t n) (cnt : ℕ → ℕ) (cats : List AgentCategory) :
    ∀ i ∈ chosen cnt t cats, i < n := by
  intro i hi
  apply ht.lt
  have := IntegerTree.largest_subset cnt (sizeAt cats) t.forest i hi
  simpa [RecipeTree.forest, nodes, treeNodes] using this

theorem chosen_nodup {t : RecipeTree} {n : ℕ} (ht : TreeOn t n) (cnt : ℕ → ℕ) (cats : List AgentCategory) :
    (chosen cnt t cats).Nodup :=
  (IntegerTree.largest_cut cnt (sizeAt cats) (f := t.forest) (by simpa [RecipeTree.forest, nodes, treeNodes] using ht.nodup)).1

theorem chosen_ne_nil {t : RecipeTree} {n : ℕ} (ht : TreeOn t n) (cnt : ℕ → ℕ) (cats : List AgentCategory) :
    chosen cnt t cats ≠ [] := by
  obtain ⟨p, hp⟩ := treePath_exists t
  have := (IntegerTree.largest_cut cnt (sizeAt cats) (f := t.forest)
    (by simpa [RecipeTree.forest, nodes, treeNodes] using ht.nodup)).2 p hp
  intro h
  unfold chosen at h
  rw [h] at this; simp at this

/-- What holds of the state at the start of every iteration. -/
structure IInv (n : ℕ) (cats0 cats : List AgentCategory) (v : IntegerPrices.SimultaneousAscendingPriceVectors) : Prop where
  len : cats.length = n
  names : cats.map AgentCategory.name = cats0.map AgentCategory.name
  pre : ∀ i, ∃ k, valuesAt cats i = (valuesAt cats0 i).take k
  sorted : ∀ i, SortedDesc (valuesAt cats i)
  rlen : ∀ r ∈ v.psRecipes, r.length = n
  ones : v.agentCounts = List.replicate n 1
  plen : v.prices.length = n

/-- A raise of the chosen categories. -/
theorem raise_integer {t : RecipeTree} {n : ℕ} (ht : TreeOn t n) (cnt : ℕ → ℕ) {cats0 cats : List AgentCategory}
    {v : IntegerPrices.SimultaneousAscendingPriceVectors} (h : IInv n cats0 cats v) :
    ∃ incs v' d, increases cats (chosen cnt t cats) = .ok incs ∧ v.increasePrices incs = .ok v' ∧
      (∃ i ∈ chosen cnt t cats, target cats i - v.prices.getD i 0 = d) ∧
      (∀ i ∈ chosen cnt t cats, d ≤ target cats i - v.prices.getD i 0) ∧
      (∀ j, v'.prices.getD j 0 = v.prices.getD j 0 + if j ∈ chosen cnt t cats then min d (-v.priceSum) else 0) ∧
      IInv n cats0 cats v' ∧ (v'.status = some .stoppedAtZeroSum ↔ -v.priceSum ≤ d) := by
  have hlt := chosen_lt ht cnt cats
  have hnd := chosen_nodup ht cnt cats
  have hne := chosen_ne_nil ht cnt cats
  generalize chosen cnt t cats = is at hlt hnd hne
  have hinc := increases_eq (cats := cats) (is := is) (by rw [h.len]; exact hlt)
  have hidx : ∀ a ∈ is.map (fun i => (i, target cats i)), a.1 < n := by
    intro a ha
    obtain ⟨i, hi, rfl⟩ := List.mem_map.1 ha
    exact hlt i hi
  obtain ⟨x, hx⟩ := perRecipe_ok (counts := v.agentCounts) (rs := v.psRecipes) (incs := is.map (fun i => (i, target cats i))) (by
    intro r hr a ha
    refine ⟨by rw [h.rlen r hr]; exact hidx a ha, 1, by rw [h.ones]; simp [hidx a ha], by omega⟩)
  have htn := increasesToNewPrices_eq (prices := v.prices)
    (incs := is.map (fun i => (i, target cats i))) (by rw [h.plen]; exact hidx)
  rw [← toNew_eq, List.map_map] at htn
  obtain ⟨d, hd1, hd2, hd3⟩ := pyMin_spec
    (l := is.map ((fun inc : ℕ × ℚ => inc.2 - v.prices.getD inc.1 0) ∘ fun i => (i, target cats i))) (by simpa using hne)
  obtain ⟨ps, hps, hps1, hps2, -⟩ := applyIncreases_spec (min d (0 - v.priceSum)) (prices := v.prices)
    (incs := is.map (fun i => (i, target cats i))) (by rw [h.plen]; exact hidx)
  rw [← apply_ones (n := n) _ hidx, ← h.ones] at hps
  have hprice : ∀ j, ps.getD j 0 = v.prices.getD j 0 + if j ∈ is then min d (-v.priceSum) else 0 := by
    intro j
    by_cases hj : j < n
    · rw [hps2 j (by rw [h.plen]; exact hj), listed_nodup _ hnd]
      split <;> simp
    · rw [List.getD_eq_getElem?_getD, List.getD_eq_getElem?_getD, List.getElem?_eq_none (by rw [hps1, h.plen]; omega),
        List.getElem?_eq_none (by rw [h.plen]; omega), if_neg (fun hm => hj (hlt j hm))]
      simp
  have hev : v.increasePrices (is.map (fun i => (i, target cats i)))
      = .ok ⟨v.psRecipes, v.agentCounts, ps, some (if min d (0 - v.priceSum) = 0 - v.priceSum then .stoppedAtZeroSum else .stoppedAtAgentValue)⟩ := by
    unfold IntegerPrices.SimultaneousAscendingPriceVectors.increasePrices
    simp only [hx, htn, hd1, hps, bind, Except.bind]
    split <;> rfl
  refine ⟨_, _, d, hinc, hev, ?_, ?_, hprice, ⟨h.len, h.names, h.pre, h.sorted, h.rlen, h.ones, by rw [← h.plen]; exact hps1⟩, ?_⟩
  · obtain ⟨i, hi, he⟩ := List.mem_map.1 hd2
    exact ⟨i, hi, he⟩
  · intro i hi
    exact hd3 _ (List.mem_map.2 ⟨i, hi, rfl⟩)
  · simp only [Option.some.injEq, zero_sub, min_eq_right_iff]
    split
    · rename_i hle; simp [hle]
    · rename_i hle; simp [hle]

/-- One iteration. -/
theorem integer_loop_step {t : RecipeTree} {n : ℕ} (ht : TreeOn t n) (cnt : ℕ → ℕ) {cats0 cats : List AgentCategory}
    {v : IntegerPrices.SimultaneousAscendingPriceVectors} (h : IInv n cats0 cats v) (fuel : ℕ) :
    ((sizeAt cats t.index : ℚ) / cnt t.index = 0 ∧ loop cnt t (fuel + 1) cats v = .ok (some (cats, v))) ∨
    ((sizeAt cats t.index : ℚ) / cnt t.index ≠ 0 ∧ ∃ v' d,
      (∃ i ∈ chosen cnt t cats, target cats i - v.prices.getD i 0 = d) ∧
      (∀ i ∈ chosen cnt t cats, d ≤ target cats i - v.prices.getD i 0) ∧
      (∀ j, v'.prices.getD j 0 = v.prices.getD j 0 + if j ∈ chosen cnt t cats then min d (-v.priceSum) else 0) ∧
      v'.psRecipes = v.psRecipes ∧ IInv n cats0 cats v' ∧
      ((-v.priceSum ≤ d ∧ loop cnt t (fuel + 1) cats v = .ok (some (cats, v'))) ∨
       (d < -v.priceSum ∧ ∃ cats', IInv n cats0 cats' v' ∧ loop cnt t (fuel + 1) cats v = loop cnt t fuel cats' v' ∧
        ∀ i, valuesAt cats' i = afterRemoval (valuesAt cats i) (v'.prices.getD i 0)))) := by
  have hroot := IntegerTree.largest_root cnt (sizeAt cats) t
  rw [loop]
  by_cases h0 : (IntegerTree.largestCategories cnt (sizeAt cats) t.forest).2.1 = 0
  · left
    refine ⟨by rw [← hroot]; exact h0, ?_⟩
    simp only [h0, if_true]
  · right
    refine ⟨by rw [← hroot]; exact h0, ?_⟩
    obtain ⟨incs, v', d, h1, h2, h3, h4, h5, h6, h7⟩ := raise_integer ht cnt h
    have hrec : v'.psRecipes = v.psRecipes := by
      unfold IntegerPrices.SimultaneousAscendingPriceVectors.increasePrices at h2
      rw [bind_ok_iff] at h2
      obtain ⟨_, -, h2⟩ := h2
      rw [bind_ok_iff] at h2
      obtain ⟨_, -, h2⟩ := h2
      rw [bind_ok_iff] at h2
      obtain ⟨_, -, h2⟩ := h2
      rw [bind_ok_iff] at h2
      obtain ⟨_, -, h2⟩ := h2
      split at h2 <;>
      · simp only [Except.ok.injEq] at h2
        rw [← h2]
    refine ⟨v', d, h3, h4, h5, hrec, h6, ?_⟩
    have h1' : increases cats (IntegerTree.largestCategories cnt (sizeAt cats) t.forest).2.2 = .ok incs := h1
    simp only [if_neg h0, h1', bind, Except.bind, h2]
    by_cases hs : v'.status = some .stoppedAtZeroSum
    · left
      exact ⟨h7.1 hs, by rw [if_pos hs]⟩
    · right
      refine ⟨lt_of_not_ge (fun hle => hs (h7.2 hle)), _, ?_, by rw [if_neg hs, removeLosers_eq (by rw [h6.plen, h.len])], ?_⟩
      · have hva := valuesAt_removal (cats := cats) (ps := v'.prices) (by rw [h6.plen, h.len])
        refine ⟨by rw [List.length_zipWith, h6.plen, h.len]; omega, ?_, ?_, ?_, h6.rlen, h6.ones, h6.plen⟩
        · rw [← h.names]
          apply List.ext_getElem
          · simp [h6.plen, h.len]
          · intro i hi1 hi2; simp
        · intro i
          rw [hva]
          obtain ⟨k, hk⟩ := h.pre i
          obtain ⟨k', hk'⟩ := afterRemoval_take (valuesAt cats i) (v'.prices.getD i 0)
          exact ⟨min k' k, by rw [hk', hk, List.take_take]⟩
        · intro i
          rw [hva]
          obtain ⟨k', hk'⟩ := afterRemoval_take (valuesAt cats i) (v'.prices.getD i 0)
          rw [hk']
          exact (h.sorted i).sublist (List.take_sublist _ _)
      · exact valuesAt_removal (by rw [h6.plen, h.len])

/-- Every remaining agent has a value of at least the price of its category. -/
def RationalAt (cats : List AgentCategory) (v : IntegerPrices.SimultaneousAscendingPriceVectors) : Prop :=
  ∀ i, ∀ x ∈ valuesAt cats i, v.prices.getD i 0 ≤ x

theorem integer_loop_end {t : RecipeTree} {n : ℕ} (ht : TreeOn t n) (cnt : ℕ → ℕ) {cats0 : List AgentCategory} (fuel : ℕ)
    {cats : List AgentCategory} {v : IntegerPrices.SimultaneousAscendingPriceVectors} (h : IInv n cats0 cats v) (hr : RationalAt cats v) :
    loop cnt t fuel cats v = .ok none ∨
      ∃ cats' v', loop cnt t fuel cats v = .ok (some (cats', v')) ∧ IInv n cats0 cats' v' ∧ RationalAt cats' v' := by
  induction fuel generalizing cats v with
  | zero => left; rfl
  | succ fuel ih =>
    rcases integer_loop_step ht cnt h fuel with ⟨-, e⟩ | ⟨-, v', d, -, h2, h3, -, h5, h6⟩
    · right; exact ⟨cats, v, e, h, hr⟩
    · have hr' : RationalAt cats v' := by
        intro i x hx
        rw [h3]
        split
        · rename_i hm
          have := h2 i hm
          have := target_le (h.sorted i) x hx
          have := min_le_left d (-v.priceSum)
          linarith
        · have := hr i x hx; linarith
      rcases h6 with ⟨-, e⟩ | ⟨-, cats', g1, e, g3⟩
      · right; exact ⟨cats, v', e, h5, hr'⟩
      · rw [e]
        refine ih g1 ?_
        intro i x hx
        rw [g3] at hx
        exact hr' i x (afterRemoval_subset hx)

end Auctions.IntegerAuction

namespace Auctions.IntegerPrices

open Auctions Spec

theorem lastPositive_pos {r : List ℕ} {k j : ℕ} (h : lastPositive r k = .ok (some j)) : 0 < r.getD j 0 := by
  induction k with
  | zero => simp [lastPositive] at h
  | succ k ih =>
    rw [lastPositive, bind_ok_iff] at h
    obtain ⟨x, hx, h⟩ := h
    split at h
    · rename_i hp
      simp only [Except.ok.injEq, Option.some.injEq] at h
      subst h
      unfold pyGet at hx
      split at hx
      · rename_i y hy
        simp only [Except.ok.injEq] at hx
        subst hx
        rw [List.getD_eq_getElem?_getD, hy]; exact hp
      · simp at hx
    · exact ih h

theorem initialPricesLoop_le {bound : ℚ} (hb : bound ≤ 0) {n D : ℕ} {T : List (List ℕ)} (hD : ∀ r ∈ T, r.sum ≤ D) {prices p : List ℚ}
    (hle : ∀ x ∈ prices, x ≤ bound) (h : initialPricesLoop bound n D T prices = .ok p) : ∀ x ∈ p, x ≤ bound := by
  induction T generalizing prices with
  | nil => simp only [initialPricesLoop, Except.ok.injEq] at h; rw [← h]; exact hle
  | cons r T ih =>
    rw [initialPricesLoop, bind_ok_iff] at h
    obtain ⟨o, ho, h⟩ := h
    cases o with
    | none => exact ih (fun r hr => hD r (by simp [hr])) hle h
    | some j =>
      simp only at h
      rw [bind_ok_iff] at h
      obtain ⟨pj, -, h⟩ := h
      split at h
      · simp at h
      · rw [bind_ok_iff] at h
        obtain ⟨rj, hrj, h⟩ := h
        refine ih (fun r hr => hD r (by simp [hr])) ?_ h
        intro x hx
        rcases List.mem_or_eq_of_mem_set hx with hx | rfl
        · exact hle x hx
        · have hpos := lastPositive_pos ho
          have hget : r.getD j 0 = rj := by
            unfold pyGet at hrj
            split at hrj
            · rename_i y hy
              simp only [Except.ok.injEq] at hrj
              rw [List.getD_eq_getElem?_getD, hy, ← hrj]; rfl
            · simp at hrj
          rw [hget] at hpos
          have hq : (0 : ℚ) < rj := by exact_mod_cast hpos
          have hs : ((r.sum : ℕ) : ℚ) ≤ (D : ℚ) := by exact_mod_cast hD r (by simp)
          rw [div_le_iff₀ hq]
          nlinarith

theorem calculateInitialPrices_le {recipes : List (List ℕ)} {bound : ℚ} (hb : bound ≤ 0) {p : List ℚ}
    (h : calculateInitialPrices recipes bound = .ok p) : ∀ x ∈ p, x ≤ bound := by
  cases recipes with
  | nil => simp [calculateInitialPrices] at h
  | cons r rs =>
    rw [calculateInitialPrices] at h
    refine initialPricesLoop_le hb ?_ ?_ h
    · intro q hq
      have := (foldl_max_spec (rs.map List.sum) r.sum).2 q.sum
      apply this
      rw [← List.map_cons (f := List.sum)]
      exact List.mem_map_of_mem hq
    · intro x hx
      rw [List.eq_of_mem_replicate hx]

end Auctions.IntegerPrices
