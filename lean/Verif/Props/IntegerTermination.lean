import Verif.Props.IntegerRational
import Verif.Props.TreeTermination

set_option autoImplicit false

/-!
# C53 — when the tree auction with agent counts ends
-/

namespace Auctions.Props

open Auctions Spec TreeAuction IntegerAuction

/-- In a chain with agents at the root, the chosen category has agents. -/
theorem chosen_chain {cnt size : ℕ → ℕ} {i : ℕ} {ch : Forest} (hch : ∀ j c, IsNode (.cons i ch .nil) j c → (trees c).length ≤ 1)
    (hi : 0 < size i) : ∀ j ∈ (IntegerTree.largestCategories cnt size (.cons i ch .nil)).2.2, 0 < size j := by
  induction ch generalizing i with
  | nil =>
    intro j hj
    rw [IntegerTree.largest_cons, IntegerTree.nodeLargest] at hj
    simp only [IntegerTree.rootSizes, IntegerTree.largestCategories, List.append_nil] at hj
    split at hj
    · simp only [List.mem_singleton] at hj; rw [hj]; exact hi
    · simp at hj
  | cons i' ch' s ih1 ih2 =>
    have hs : s = .nil := by
      have := hch i _ (.here _ _ _)
      cases s with
      | nil => rfl
      | cons a b c => simp [trees] at this
    subst hs
    intro j hj
    rw [IntegerTree.largest_cons, IntegerTree.nodeLargest] at hj
    simp only [IntegerTree.largestCategories, List.append_nil] at hj
    split at hj
    · simp only [List.mem_singleton] at hj; rw [hj]; exact hi
    · rename_i h
      push Not at h
      have h2 := h.2
      refine ih1 (fun j c h => hch j c (.down h)) ?_ j (by simpa [IntegerTree.largestCategories] using hj)
      by_contra h0
      apply h2
      simp [IntegerTree.rootSizes, show size i' = 0 by omega]

/-- **C53**. If no category of the tree has two children (so that there is one recipe), the auction ends, whatever the (positive) counts and the values, within as many
iterations as there are agents, plus one; it then returns a trade, unless the construction of the tree or of the initial prices
raises. -/
theorem integer_auction_terminates_chain {m : Market} {struct : List PyObj} {counts : List ℕ} {t : RecipeTree} {fuel : ℕ}
    (ht : IntegerTree.init m.numCategories struct counts = .ok t) (hn : (treeNodes t).Nodup)
    (hch : ∀ i ch, IsNode (.cons t.index t.children .nil) i ch → (trees ch).length ≤ 1)
    (hfuel : (m.valueLists.map List.length).sum < fuel) : IntegerAuction.auction m struct counts fuel ≠ .ok none := by
  intro h
  obtain ⟨hc, t', v, ht', -, -, -, hto, hinv, hp, hl⟩ := integer_auction_inv h
  rw [ht, Except.ok.injEq] at ht'
  subst ht'
  have hto := hto hn
  rcases hl with ⟨-, hl⟩ | ⟨_, _, -, hl⟩
  swap
  · simp at hl
  have key : ∀ fuel cats v, IInv m.numCategories m.sorted cats v → agentsLeft m.numCategories cats < fuel →
      loop (IntegerTree.countOf counts) t fuel cats v ≠ .ok none := by
    intro fuel
    induction fuel with
    | zero => intro cats v _ h; omega
    | succ fuel ih =>
      intro cats v h hf
      rcases integer_loop_step hto (IntegerTree.countOf counts) h fuel with ⟨-, e⟩ | ⟨h0, v', d, ⟨i, hi1, hi2⟩, -, h3, -, -, ⟨-, e⟩ | ⟨hd, cats', g1, e, g3⟩⟩
      · rw [e]; simp
      · rw [e]; simp
      · rw [e]
        apply ih _ _ g1
        have hroot : 0 < sizeAt cats t.index := by
          by_contra hz
          apply h0
          simp [show sizeAt cats t.index = 0 by omega]
        have hsi := chosen_chain (cnt := IntegerTree.countOf counts) hch hroot i hi1
        have hle : ∀ j, sizeAt cats' j ≤ sizeAt cats j := by
          intro j
          rw [sizeAt_eq, sizeAt_eq, g3]
          obtain ⟨k, hk⟩ := afterRemoval_take (valuesAt cats j) (v'.prices.getD j 0)
          rw [hk, List.length_take]; omega
        have hlt : sizeAt cats' i < sizeAt cats i := by
          have hpi : v'.prices.getD i 0 = target cats i := by
            rw [h3, if_pos hi1, min_eq_left hd.le]; linarith
          rw [sizeAt_eq] at hsi
          rw [sizeAt_eq, sizeAt_eq, g3, hpi, afterRemoval]
          have hne : valuesAt cats i ≠ [] := by intro h; rw [h] at hsi; simp at hsi
          rw [if_pos]
          · rw [List.length_dropLast]; omega
          · refine ⟨(valuesAt cats i).getLast hne, by simp [List.getLast?_eq_some_getLast hne], ?_⟩
            simp [target, List.getLast?_eq_some_getLast hne]
        have := sum_lt_of_lt (l := List.range m.numCategories) hle (List.mem_range.2 (chosen_lt hto _ _ i hi1)) hlt
        unfold agentsLeft at hf ⊢
        omega
  exact key fuel m.sorted v hinv (by rw [agentsLeft_sorted]; exact hfuel) hl

/-- One iteration of the loop, when it does not end the loop. -/
def integerIteration (cnt : ℕ → ℕ) (t : RecipeTree)
    (w : List AgentCategory × IntegerPrices.SimultaneousAscendingPriceVectors) :
    Option (List AgentCategory × IntegerPrices.SimultaneousAscendingPriceVectors) :=
  let l := IntegerTree.largestCategories cnt (sizeAt w.1) t.forest
  if l.2.1 = 0 then none
  else match increases w.1 l.2.2 with
    | .error _ => none
    | .ok incs => match w.2.increasePrices incs with
      | .error _ => none
      | .ok v' => if v'.status = some .stoppedAtZeroSum then none
        else match removeLosers w.1 v'.prices with
          | .error _ => none
          | .ok cats' => some (cats', v')

theorem integerIteration_loop {cnt : ℕ → ℕ} {t : RecipeTree} {w w' : List AgentCategory × IntegerPrices.SimultaneousAscendingPriceVectors}
    (h : integerIteration cnt t w = some w') (fuel : ℕ) : loop cnt t (fuel + 1) w.1 w.2 = loop cnt t fuel w'.1 w'.2 := by
  unfold integerIteration at h
  simp only at h
  rw [IntegerAuction.loop]
  split at h
  · simp at h
  · rename_i h0
    split at h
    · simp at h
    · rename_i incs h1
      split at h
      · simp at h
      · rename_i v' h2
        split at h
        · simp at h
        · rename_i h3
          split at h
          · simp at h
          · rename_i cats' h4
            simp only [Option.some.injEq] at h
            subst h
            simp only [if_neg h0, h1, h2, bind, Except.bind]
            rw [if_neg h3]
            simp only [h4]

/-- `k` iterations. -/
def integerIterations (cnt : ℕ → ℕ) (t : RecipeTree) : ℕ → List AgentCategory × IntegerPrices.SimultaneousAscendingPriceVectors →
    Option (List AgentCategory × IntegerPrices.SimultaneousAscendingPriceVectors)
  | 0, w => some w
  | k + 1, w => match integerIteration cnt t w with
    | none => none
    | some w' => integerIterations cnt t k w'

theorem integer_diverges {cnt : ℕ → ℕ} {t : RecipeTree} {w w' : List AgentCategory × IntegerPrices.SimultaneousAscendingPriceVectors} (k : ℕ)
    (h : integerIterations cnt t k w = some w') (hw : integerIteration cnt t w' = some w') (fuel : ℕ) :
    loop cnt t fuel w.1 w.2 = .ok none := by
  induction fuel generalizing k w with
  | zero => rfl
  | succ n ih =>
    cases k with
    | zero =>
      rw [integerIterations, Option.some.injEq] at h
      subst h
      rw [integerIteration_loop hw]
      exact ih 0 rfl
    | succ k =>
      rw [integerIterations] at h
      split at h
      · simp at h
      · rename_i w1 h1
        rw [integerIteration_loop h1]
        exact ih k h

/-- **C53**. The auction does not always end: with counts 1, 2, 1, 1 on the tree `[1, [0, None, 2, [3, None]]]` it runs forever on this market, in which
every category has agents, all of different, small values. -/
theorem integer_auction_runs_forever (fuel : ℕ) :
    IntegerAuction.auction ⟨[⟨"buyer", [9, 8]⟩, ⟨"seller", [-1, -2, -3]⟩, ⟨"A", [-1, -2]⟩, ⟨"B", [7, 6]⟩]⟩
      [.int 1, .list [.int 0, .none, .int 2, .list [.int 3, .none]]] [1, 2, 1, 1] fuel = .ok none := by
  have ht : IntegerTree.init 4 [.int 1, .list [.int 0, .none, .int 2, .list [.int 3, .none]]] [1, 2, 1, 1]
      = .ok ⟨1, .cons 0 .nil (.cons 2 (.cons 3 .nil .nil) .nil)⟩ := by decide +kernel
  have hr : IntegerTree.recipes ⟨1, .cons 0 .nil (.cons 2 (.cons 3 .nil .nil) .nil)⟩ 4 [1, 2, 1, 1] = .ok [[1, 2, 0, 0], [0, 2, 1, 1]] := by
    decide +kernel
  have hv : ∃ v, IntegerPrices.SimultaneousAscendingPriceVectors.init [[1, 2, 0, 0], [0, 2, 1, 1]] (-MAX_VALUE) [] = .ok v ∧
      integerIterations (IntegerTree.countOf [1, 2, 1, 1]) ⟨1, .cons 0 .nil (.cons 2 (.cons 3 .nil .nil) .nil)⟩ 4
        ([⟨"buyer", [9, 8]⟩, ⟨"seller", [-1, -2, -3]⟩, ⟨"A", [-1, -2]⟩, ⟨"B", [7, 6]⟩], v)
        = some ([⟨"buyer", []⟩, ⟨"seller", [-1, -2, -3]⟩, ⟨"A", [-1, -2]⟩, ⟨"B", [7]⟩],
            ⟨[[1, 2, 0, 0], [0, 2, 1, 1]], [1, 1, 1, 1], [100000000, -150000000, -6, 6], some .stoppedAtAgentValue⟩) :=
    ⟨⟨[[1, 2, 0, 0], [0, 2, 1, 1]], [1, 1, 1, 1], [-MAX_VALUE, -MAX_VALUE * 3 / 2, -MAX_VALUE, -MAX_VALUE], none⟩, by decide +kernel, by decide +kernel⟩
  obtain ⟨v, hv1, hv2⟩ := hv
  have hclone : Market.clone ⟨[⟨"buyer", [9, 8]⟩, ⟨"seller", [-1, -2, -3]⟩, ⟨"A", [-1, -2]⟩, ⟨"B", [7, 6]⟩]⟩
      = .ok ⟨[⟨"buyer", [9, 8]⟩, ⟨"seller", [-1, -2, -3]⟩, ⟨"A", [-1, -2]⟩, ⟨"B", [7, 6]⟩]⟩ := by decide +kernel
  have hd := integer_diverges 4 hv2 (by decide +kernel) fuel
  unfold IntegerAuction.auction
  rw [hclone]
  simp only [bind, Except.bind, Market.numCategories, List.length_cons, List.length_nil, Nat.zero_add, Nat.reduceAdd, ht, hr, hv1, hd]

/-- Non-vacuity of `integer_auction_terminates_chain`: a chain of three categories with counts 2, 1, 3. -/
example :
    let t : RecipeTree := ⟨0, .cons 1 (.cons 2 .nil .nil) .nil⟩
    IntegerTree.init 3 [.int 0, .list [.int 1, .list [.int 2, .none]]] [2, 1, 3] = .ok t ∧ (treeNodes t).Nodup ∧
      ∀ i ch, IsNode (.cons t.index t.children .nil) i ch → (trees ch).length ≤ 1 := by
  refine ⟨by decide +kernel, by decide, ?_⟩
  intro i ch h
  cases h with
  | here => simp [trees]
  | down h => cases h with
    | here => simp [trees]
    | down h => cases h with
      | here => simp [trees]
      | down h => cases h
      | next h => cases h
    | next h => cases h
  | next h => cases h

end Auctions.Props
