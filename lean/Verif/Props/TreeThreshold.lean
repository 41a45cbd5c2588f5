import Verif.Props.TreeCoalition
import Verif.Spec.Threshold

set_option autoImplicit false

/-!
# C84 — the outcome of the auction with a recipe tree does not depend on what the remaining agents report
-/

namespace Auctions.Props

open Auctions Spec TreeAuction

/-- **C84**, recipe trees. The agents in the list `C` report something, and all of them remain. If they report something else, above the price of their category, then they remain
again, the same other agents remain, and all prices are the same. -/
theorem tree_thresholds {f : List (List ℕ) → ℚ → Py (List ℚ)} {m : Market} {struct : List PyObj} {f₁ f₂ : ℕ} {C : List Member}
    {t : RecipeTree} {t₁ t₂ : TradeWithMultipleRecipes} (hf : PriceContract f)
    (ht : RecipeTree.init m.numCategories struct = .ok t) (hn : (treeNodes t).Nodup)
    (hlow : ∀ l ∈ m.valueLists, ∀ x ∈ l, -MAX_VALUE ≤ x ∧ x ≤ MAX_VALUE)
    (hC : ∀ x ∈ before C, -MAX_VALUE ≤ x.2 ∧ x.2 ≤ MAX_VALUE)
    (h₁ : auction f (withAgents m (before C)) struct f₁ = .ok (some t₁)) (h₂ : auction f (withAgents m (after C)) struct f₂ = .ok (some t₂))
    (hst : ∀ j, ∃ others, others.Subperm (m.valueLists.getD j []) ∧ (remaining t₁ j).Perm (given (before C) j ++ others))
    (hval : ∀ x ∈ after C, finalPrice t₁ x.1 < x.2) :
    ∀ j, finalPrice t₂ j = finalPrice t₁ j ∧
      ∃ others, (remaining t₁ j).Perm (given (before C) j ++ others) ∧ (remaining t₂ j).Perm (given (after C) j ++ others) :=
  (tree_same hf ht hn hlow hC h₂ h₁ hst (fun x hx => hval _ (List.mem_map.2 ⟨x, hx, rfl⟩))).2

/-- Non-vacuity of C84 for trees: two buyers that report 17 and 11 and a seller that reports -3 remain, at prices 5 and -5; if they report 6, 1000 and 0, nothing changes. -/
example :
    let m : Market := ⟨[⟨"buyer", [27, 21, 3]⟩, ⟨"seller", [-4, -11]⟩, ⟨"A", [-2, -3, -11]⟩, ⟨"B", [-1, -2, -8]⟩]⟩
    let s : List PyObj := [.int 0, .list [.int 1, .none, .int 2, .list [.int 3, .none]]]
    let f := fixedSolver [-100000000, -200000000, -100000000, -100000000]
    let C : List Member := [⟨0, 6, 17⟩, ⟨0, 1000, 11⟩, ⟨1, 0, -3⟩]
    let run := fun A => (auction f (withAgents m A) s 100).map (fun o => o.map (fun t => ((List.range 4).map (remaining t), (List.range 4).map (finalPrice t))))
    run (before C) = .ok (some ([[27, 21, 17, 11], [-3, -4], [-2], [-1]], [5, -5, -3, -2])) ∧
    run (after C) = .ok (some ([[1000, 27, 21, 6], [0, -4], [-2], [-1]], [5, -5, -3, -2])) := by
  decide +kernel

end Auctions.Props
