import Verif.Proofs.Coalition
import Verif.Proofs.TreeCoalition
import Verif.Props.TreeTruthful

set_option autoImplicit false

/-!
# C82 — no coalition of agents can make all its members better off: the auction with a recipe tree
-/

namespace Auctions.Props

open Auctions Spec TreeAuction

theorem valueLists_withAgents (m : Market) (A : List (ℕ × ℚ)) (i : ℕ) :
    (withAgents m A).valueLists.getD i [] = if i < m.numCategories then given A i ++ m.valueLists.getD i [] else [] := by
  split
  · rename_i hi
    exact vAt_withAgents m A hi
  · rename_i hi
    exact vAt_of_ge (by have := withAgents_length m A; unfold Market.numCategories at this hi; omega)

/-- If the members all remain when they report `reports C`, and their values are above their prices, then with the reports `truth C` the auction ends at the same prices, and the same
other agents remain. -/
theorem tree_same {f : List (List ℕ) → ℚ → Py (List ℚ)} {m : Market} {struct : List PyObj} {f₁ f₂ : ℕ} {C : List Member}
    {t : RecipeTree} {tT tB : TradeWithMultipleRecipes} (hf : PriceContract f)
    (ht : RecipeTree.init m.numCategories struct = .ok t) (hn : (treeNodes t).Nodup)
    (hlow : ∀ l ∈ m.valueLists, ∀ x ∈ l, -MAX_VALUE ≤ x ∧ x ≤ MAX_VALUE)
    (hBm : ∀ x ∈ reports C, -MAX_VALUE ≤ x.2 ∧ x.2 ≤ MAX_VALUE)
    (hT : auction f (withAgents m (truth C)) struct f₁ = .ok (some tT)) (hB : auction f (withAgents m (reports C)) struct f₂ = .ok (some tB))
    (hst : ∀ j, ∃ others, others.Subperm (m.valueLists.getD j []) ∧ (remaining tB j).Perm (given (reports C) j ++ others))
    (hval : ∀ x ∈ C, finalPrice tB x.category < x.value) :
    (∀ x ∈ C, x.category < m.numCategories) ∧ ∀ j, finalPrice tT j = finalPrice tB j ∧
      ∃ X, (remaining tB j).Perm (given (reports C) j ++ X) ∧ (remaining tT j).Perm (given (truth C) j ++ X) := by
  have htT : RecipeTree.init (withAgents m (truth C)).numCategories struct = .ok t := by rw [withAgents_length]; exact ht
  have htB : RecipeTree.init (withAgents m (reports C)).numCategories struct = .ok t := by rw [withAgents_length]; exact ht
  have hto := treeOn_of_init ht hn
  have hbnd : ∀ A : List (ℕ × ℚ), (∀ x ∈ A, -MAX_VALUE ≤ x.2 ∧ x.2 ≤ MAX_VALUE) →
      ∀ i, ∀ x ∈ (withAgents m A).valueLists.getD i [], -MAX_VALUE ≤ x ∧ x ≤ MAX_VALUE := by
    intro A hA i x hx
    rw [valueLists_withAgents] at hx
    split at hx
    · rename_i hi
      rcases List.mem_append.1 hx with h | h
      · exact hA _ (mem_given.1 h)
      · refine hlow (m.valueLists.getD i []) ?_ x h
        have hil : i < m.valueLists.length := by simpa [Market.valueLists, Market.numCategories] using hi
        rw [List.getD_eq_getElem?_getD, List.getElem?_eq_getElem hil]; exact List.getElem_mem hil
    · simp at hx
  -- the two runs
  obtain ⟨p0, catsT, wT, a1, a2, rfl⟩ := auction_inv htT hn hT
  obtain ⟨p0', catsB, wB, b1, b2, rfl⟩ := auction_inv htB hn hB
  rw [withAgents_length] at a1 a2 b1 b2
  obtain rfl : p0' = p0 := by rw [a1] at b1; simpa using b1.symm
  have hip := hf _ _ _ a1
  obtain ⟨sT, iT, hsT, hpT⟩ := start_inv (m := withAgents m (truth C)) (by rw [withAgents_length]; exact hto) (by rw [withAgents_length]; exact hip)
  obtain ⟨sB, iB, hsB, hpB⟩ := start_inv (m := withAgents m (reports C)) (by rw [withAgents_length]; exact hto) (by rw [withAgents_length]; exact hip)
  have hbB : ∀ i, ∀ x ∈ valuesAt (withAgents m (reports C)).sorted i, -MAX_VALUE ≤ x ∧ x ≤ MAX_VALUE := by
    intro i x hx
    rw [valuesAt_sorted, mem_sortDesc] at hx
    exact hbnd _ hBm i x hx
  have hfair := fair_start iB hbB hpB
  rw [withAgents_length] at iT iB hpT hpB hfair
  obtain rfl : sT = sB := by
    obtain ⟨q, hq⟩ := treePath_exists t
    rw [← iT.fits.balanced q hq, ← iB.fits.balanced q hq]
  have hin : AllIn (given (reports C)) (given (truth C)) catsB wB := by
    constructor
    · intro j
      obtain ⟨O, -, h2⟩ := hst j
      rw [remaining_eq] at h2
      exact (List.sublist_append_left (given (reports C) j) O).subperm.trans h2.symm.subperm
    · intro j v hv
      obtain ⟨x, hx, hxe⟩ := List.mem_map.1 (mem_given.1 hv)
      simp only [Prod.mk.injEq] at hxe
      have := hval x hx
      rw [hxe.1, hxe.2] at this
      exact this
  -- no member is outside the market
  have hcat : ∀ x ∈ C, x.category < m.numCategories := by
    intro x hx
    by_contra hj
    obtain ⟨O, -, hO⟩ := hst x.category
    have h1 : x.report ∈ given (reports C) x.category := mem_given.2 (List.mem_map.2 ⟨x, hx, rfl⟩)
    have h2 := hO.mem_iff.2 (List.mem_append_left O h1)
    rw [remaining_eq] at h2
    obtain ⟨cats, w, s, he, hlen, -⟩ := outcome hf htB hn (fun _ _ _ => True) (by intros; trivial) (by intros; trivial) (by intros; trivial) hB
    rw [he] at h2
    rw [valuesAt_ge (by change cats.length ≤ x.category; rw [hlen.len, withAgents_length]; omega)] at h2
    simp at h2
  have hR0 : SameFor (given (reports C)) (given (truth C)) (withAgents m (reports C)).sorted (startVector t m.numCategories p0')
      (withAgents m (truth C)).sorted (startVector t m.numCategories p0') := by
    refine ⟨fun _ => rfl, fun j => ?_⟩
    rw [valuesAt_sorted, valuesAt_sorted, valueLists_withAgents, valueLists_withAgents]
    by_cases hj : j < m.numCategories
    · rw [if_pos hj, if_pos hj]
      exact ⟨m.valueLists.getD j [], sortDesc_perm _, sortDesc_perm _⟩
    · rw [if_neg hj, if_neg hj]
      have hnil : ∀ A, (∀ x ∈ A, x.1 < m.numCategories) → given A j = [] := by
        intro A hA
        rw [List.eq_nil_iff_forall_not_mem]
        intro v hv
        exact hj (hA _ (mem_given.1 hv))
      refine ⟨[], ?_, ?_⟩
      · rw [hnil]
        · simp [sortDesc]
        · intro x hx
          obtain ⟨y, hy, rfl⟩ := List.mem_map.1 hx
          exact hcat y hy
      · rw [hnil]
        · simp [sortDesc]
        · intro x hx
          obtain ⟨y, hy, rfl⟩ := List.mem_map.1 hx
          exact hcat y hy
  obtain ⟨cT, vT, h1, hsame⟩ := tree_together hto (length_given_truth C) (fun i x hx => (hbB i x hx).2) f₂ iB iT (by linarith [max_value_pos])
    hfair hR0 b2 hin
  obtain ⟨rfl, rfl⟩ := Prod.ext_iff.1 (tree_loop_unique a2 h1)
  refine ⟨hcat, fun j => ⟨hsame.prices _, ?_⟩⟩
  obtain ⟨X, x1, x2⟩ := hsame.lists j
  exact ⟨X, by rw [remaining_eq]; exact x1, by rw [remaining_eq]; exact x2⟩

/-- **C82**. Whatever the other agents report, and whichever agents with whatever true values agree on whatever reports (all between `-MAX_VALUE` and `MAX_VALUE`): in the auction
with a recipe tree at least one of them is not better off than when all of them tell the truth, and no one loses by the truth. Which of the remaining agents trade is decided by a
lottery: `chance sizes j` is the probability that a remaining agent of category `j` trades, any function of the numbers of remaining agents. -/
theorem tree_coalition {f : List (List ℕ) → ℚ → Py (List ℚ)} {m : Market} {struct : List PyObj} {f₁ f₂ : ℕ} {C : List Member}
    {t : RecipeTree} {tT tB : TradeWithMultipleRecipes} (hf : PriceContract f)
    (ht : RecipeTree.init m.numCategories struct = .ok t) (hn : (treeNodes t).Nodup)
    (hlow : ∀ l ∈ m.valueLists, ∀ x ∈ l, -MAX_VALUE ≤ x ∧ x ≤ MAX_VALUE)
    (hC : ∀ x ∈ C, (-MAX_VALUE ≤ x.value ∧ x.value ≤ MAX_VALUE) ∧ -MAX_VALUE ≤ x.report ∧ x.report ≤ MAX_VALUE)
    (hT : auction f (withAgents m (truth C)) struct f₁ = .ok (some tT)) (hB : auction f (withAgents m (reports C)) struct f₂ = .ok (some tB))
    (chance : (ℕ → ℕ) → ℕ → ℚ) (hchance : ∀ sizes j, 0 ≤ chance sizes j) :
    Unprofitable m C (remaining tT) (remaining tB) (chance fun j => (remaining tT j).length) (chance fun j => (remaining tB j).length)
      (finalPrice tT) (finalPrice tB) := by
  have htT : RecipeTree.init (withAgents m (truth C)).numCategories struct = .ok t := by rw [withAgents_length]; exact ht
  have hbnd : ∀ A : List (ℕ × ℚ), (∀ x ∈ A, -MAX_VALUE ≤ x.2 ∧ x.2 ≤ MAX_VALUE) →
      ∀ i, ∀ x ∈ (withAgents m A).valueLists.getD i [], -MAX_VALUE ≤ x ∧ x ≤ MAX_VALUE := by
    intro A hA i x hx
    rw [valueLists_withAgents] at hx
    split at hx
    · rename_i hi
      rcases List.mem_append.1 hx with h | h
      · exact hA _ (mem_given.1 h)
      · refine hlow (m.valueLists.getD i []) ?_ x h
        have hil : i < m.valueLists.length := by simpa [Market.valueLists, Market.numCategories] using hi
        rw [List.getD_eq_getElem?_getD, List.getElem?_eq_getElem hil]; exact List.getElem_mem hil
    · simp at hx
  have hTm : ∀ x ∈ truth C, -MAX_VALUE ≤ x.2 ∧ x.2 ≤ MAX_VALUE := by
    intro x hx
    obtain ⟨y, hy, rfl⟩ := List.mem_map.1 hx
    exact (hC y hy).1
  have hBm : ∀ x ∈ reports C, -MAX_VALUE ≤ x.2 ∧ x.2 ≤ MAX_VALUE := by
    intro x hx
    obtain ⟨y, hy, rfl⟩ := List.mem_map.1 hx
    exact (hC y hy).2
  have hbl : ∀ A : List (ℕ × ℚ), (∀ x ∈ A, -MAX_VALUE ≤ x.2 ∧ x.2 ≤ MAX_VALUE) →
      ∀ l ∈ (withAgents m A).valueLists, ∀ x ∈ l, -MAX_VALUE ≤ x ∧ x ≤ MAX_VALUE := by
    intro A hA l hl x hx
    obtain ⟨i, hi, rfl⟩ := List.getElem_of_mem hl
    refine hbnd A hA i x ?_
    rw [List.getD_eq_getElem?_getD, List.getElem?_eq_getElem hi]; exact hx
  have hir := tree_auction_individually_rational hf htT hn (hbl _ hTm) hT
  refine unprofitable_of (fun _ => hchance _ _) (fun _ => hchance _ _) (fun j v hv _ _ => (hir j).1 v hv) ?_
  intro hst _ hval _
  obtain ⟨hcat, hsame⟩ := tree_same hf ht hn hlow hBm hT hB hst hval
  intro x hx
  refine ⟨?_, (hsame _).1, ?_⟩
  · have hlen : (fun j => (remaining tT j).length) = fun j => (remaining tB j).length := by
      funext j
      obtain ⟨-, X, x1, x2⟩ := hsame j
      rw [x1.length_eq, x2.length_eq, List.length_append, List.length_append, length_given_truth]
    rw [hlen]
  · obtain ⟨out, ho1, ho2⟩ := (hir x.category).2
    refine ⟨out, ?_, ho2⟩
    rw [valueLists_withAgents, if_pos (hcat x hx)] at ho1
    exact ho1.symm

/-- Non-vacuity of C82: a buyer with value 17 agrees to report 20, a seller with value -3 to report -6, in a market with two recipes. With the truth both remain, at prices 5
and -5; with the agreement the seller leaves, at price -6. Whoever remains at the end is determined here, and the price that the buyer pays is higher than with the truth. -/
example :
    let m : Market := ⟨[⟨"buyer", [27, 21, 11, 3]⟩, ⟨"seller", [-4, -11]⟩, ⟨"A", [-2, -3, -11]⟩, ⟨"B", [-1, -2, -8]⟩]⟩
    let s : List PyObj := [.int 0, .list [.int 1, .none, .int 2, .list [.int 3, .none]]]
    let f := fixedSolver [-100000000, -200000000, -100000000, -100000000]
    let C : List Member := [⟨0, 17, 20⟩, ⟨1, -3, -6⟩]
    let run := fun A => (auction f (withAgents m A) s 100).map (fun o => o.map (fun t => ((List.range 4).map (remaining t), (List.range 4).map (finalPrice t))))
    RecipeTree.init 4 s = .ok ⟨0, .cons 1 .nil (.cons 2 (.cons 3 .nil .nil) .nil)⟩ ∧
    run (truth C) = .ok (some ([[27, 21, 17, 11], [-3, -4], [-2], [-1]], [5, -5, -3, -2])) ∧
    run (reports C) = .ok (some ([[27, 21, 20, 11], [-4], [-2, -3], [-1]], [6, -6, -4, -2])) := by
  decide +kernel

end Auctions.Props
