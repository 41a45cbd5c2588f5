import Verif.Props.CoalitionMcAfee
import Verif.Props.Comparison
import Verif.Props.TradeReduction

set_option autoImplicit false

/-!
# C81 — no coalition of agents can make all its members better off: trade reduction by external competition
-/

namespace Auctions.Props

open Auctions Spec Ascending TradeReduction

/-- **C81**. In trade reduction by external competition with a recipe `(1,…,1,x)` (in particular a recipe of ones), in a market in which the size of every category is a
multiple of its count and values are moderate: whichever agents agree on whatever reports, at least one of them is not better off than when all of them tell the truth. -/
theorem trade_reduction_coalition {m : Market} {c x : ℕ} {C : List Member} {tT tB : TradeWithSinglePrice} (hx : 0 < x)
    (hdvd : ∀ i (hi : i < (withAgents m (reports C)).categories.length), (List.replicate c 1 ++ [x]).getD i 0 ∣ (withAgents m (reports C)).categories[i].size)
    (hlow : ∀ A, A = truth C ∨ A = reports C → ∀ k ∈ (withAgents m A).categories, ∀ v ∈ k.values, -MAX_VALUE ≤ v)
    (hhigh : ∀ A, A = truth C ∨ A = reports C → ∀ k ∈ (withAgents m A).categories, ∀ v ∈ k.values, ((c + x : ℕ) : ℚ) * v < MAX_VALUE)
    (hN : (withAgents m (reports C)).numAgents ≤ 2000000)
    (hT : tradeReduction (withAgents m (truth C)) (List.replicate c 1 ++ [x]) = .ok tT)
    (hB : tradeReduction (withAgents m (reports C)) (List.replicate c 1 ++ [x]) = .ok tB) : NoCoalition m C tT tB := by
  have hsize : ∀ i : ℕ, ((withAgents m (truth C)).categories[i]?.map AgentCategory.size) = ((withAgents m (reports C)).categories[i]?.map AgentCategory.size) := by
    intro i
    simp only [withAgents, List.getElem?_mapIdx, Option.map_map]
    congr 1
    funext k
    simp [AgentCategory.size, length_given_truth]
  have hdvdT : ∀ i (hi : i < (withAgents m (truth C)).categories.length), (List.replicate c 1 ++ [x]).getD i 0 ∣ (withAgents m (truth C)).categories[i].size := by
    intro i hi
    have hi' : i < (withAgents m (reports C)).categories.length := by simpa [withAgents] using hi
    have := hsize i
    rw [List.getElem?_eq_getElem hi, List.getElem?_eq_getElem hi'] at this
    simp only [Option.map_some, Option.some.injEq] at this
    rw [this]
    exact hdvd i hi'
  have hNT : (withAgents m (truth C)).numAgents ≤ 2000000 := by
    have : (withAgents m (truth C)).valueLists.map List.length = (withAgents m (reports C)).valueLists.map List.length := by
      apply List.ext_getElem?
      intro i
      have := hsize i
      simp only [Market.valueLists, List.map_map, List.getElem?_map]
      exact this
    unfold Market.numAgents
    rw [this]
    exact hN
  have hpos : ∃ y ∈ List.replicate c 1 ++ [x], 0 < y := ⟨x, by simp, hx⟩
  obtain ⟨hlT, hcatT⟩ := tr_ok_inv hT
  obtain ⟨hlB, hcatB⟩ := tr_ok_inv hB
  obtain ⟨aT, haT⟩ := ascending_total hlT hcatT hpos
  obtain ⟨aB, haB⟩ := ascending_total hlB hcatB hpos
  have haT' := haT 2000001 0 (by omega)
  have haB' := haB 2000001 0 (by omega)
  have hsameT := sbb_same_outcome hx hdvdT (hlow _ (Or.inl rfl)) (hhigh _ (Or.inl rfl)) hNT hT haT'
  have hsameB := sbb_same_outcome hx hdvd (hlow _ (Or.inr rfl)) (hhigh _ (Or.inr rfl)) hN hB haB'
  have hzero : ∀ {t : TradeWithSinglePrice}, t.numOfDeals = 0 → ∀ j, singleChance t j = 0 := by
    intro t h0 j
    unfold singleChance
    simp [h0]
  refine no_coalition_of ?_ ?_
  · intro j v hmem _ _
    obtain ⟨p, hp, hle⟩ := trade_reduction_individually_rational hpos (hlow _ (Or.inl rfl)) hT j v hmem
    unfold singlePrice
    rw [hp]
    exact hle
  · intro hst hC hval hch
    obtain ⟨y, hy⟩ := List.exists_mem_of_ne_nil C hC
    have hB0 : aB = tB := by
      rcases hsameB with h1 | ⟨h1, -⟩
      · exact h1
      · have := hch y hy
        rw [hzero h1] at this
        exact absurd this (lt_irrefl _)
    subst hB0
    have hres := ascending_same haT' haB' hst hval
    have hT0 : aT = tT := by
      rcases hsameT with h1 | ⟨-, h1⟩
      · exact h1
      · have h2 := hch y hy
        rw [← (hres y hy).1, hzero h1] at h2
        exact absurd h2 (lt_irrefl _)
    rw [← hT0]
    exact hres

/-- Non-vacuity of C81: the same market and coalition as for McAfee's protocol. -/
example :
    (∀ i (hi : i < (withAgents coalitionMarket (reports coalitionMembers)).categories.length),
      (List.replicate 1 1 ++ [1]).getD i 0 ∣ (withAgents coalitionMarket (reports coalitionMembers)).categories[i].size) ∧
    (∀ A, A = truth coalitionMembers ∨ A = reports coalitionMembers → ∀ k ∈ (withAgents coalitionMarket A).categories, ∀ v ∈ k.values,
      -MAX_VALUE ≤ v ∧ ((1 + 1 : ℕ) : ℚ) * v < MAX_VALUE) ∧
    tradeReduction (withAgents coalitionMarket (truth coalitionMembers)) (List.replicate 1 1 ++ [1]) =
      .ok ⟨[⟨"seller", [-1, -2]⟩, ⟨"buyer", [9, 7, 4]⟩], [1, 1], some [-3, 3], 2⟩ ∧
    tradeReduction (withAgents coalitionMarket (reports coalitionMembers)) (List.replicate 1 1 ++ [1]) =
      .ok ⟨[⟨"seller", [-1, -3]⟩, ⟨"buyer", [7, 6, 4]⟩], [1, 1], some [-4, 4], 2⟩ := by
  refine ⟨by decide +kernel, ?_, by decide +kernel, by decide +kernel⟩
  rintro A (rfl | rfl) <;> decide +kernel

end Auctions.Props
