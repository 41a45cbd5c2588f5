import Verif.Spec.View
import Verif.Spec.Tree

set_option autoImplicit false

/-!
# Specification: the same market and recipe tree, written differently

The categories may have other numbers, the alternatives in the recipe tree may be listed in another order, the agents of each category may have reported in another order,
all amounts may be in another currency, and each category may receive an amount (or pay a fee) such that the amounts of every recipe cancel out.
-/

namespace Auctions.Spec

/-- The market `m'` with the recipe tree `t'` is the market `m` with the recipe tree `t`, written differently: category `i` has the number `σ i`, and a value `x` of
category `i` is written as `c * x + b i`. -/
structure SameMarket (σ : ℕ → ℕ) (c : ℚ) (b : ℕ → ℚ) (m : Market) (t : RecipeTree) (m' : Market) (t' : RecipeTree) : Prop where
  pos : 0 < c
  different : ∀ i ∈ treeNodes t, ∀ j ∈ treeNodes t, σ i = σ j → i = j
  recipes : ∀ q, TreePath t' q ↔ ∃ p, TreePath t p ∧ q = p.map σ
  cancel : ∀ p, TreePath t p → (p.map b).sum = 0
  values : ∀ i ∈ treeNodes t, (m'.valueLists.getD (σ i) []).Perm ((m.valueLists.getD i []).map (fun x => c * x + b i))

end Auctions.Spec
