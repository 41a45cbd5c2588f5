import Verif.Spec.Tree

set_option autoImplicit false

/-!
# Specification of trades in recipe trees with agent counts

A deal takes, from every category on some path from the root to a leaf, as many agents as the count of the category says.
-/

namespace Auctions.Spec

/-- Each deal takes `cnt i` agents of every category `i` of some path from the root to a leaf, and no other agents; no agent is used twice. -/
def WeightedFeasible (t : RecipeTree) (cnt : ℕ → ℕ) (vals : ℕ → List ℚ) (deals : List TreeDeal) : Prop :=
  (∀ d ∈ deals, ∃ p, TreePath t p ∧ ∀ i, (agentsOf i d).length = if i ∈ p then cnt i else 0) ∧
    ∀ i, (agentsOf i deals.flatten).Subperm (vals i)

/-- The vector of length `n` with `cnt i` at the positions `i` in `p` and 0 elsewhere. -/
def weightedIndicator (n : ℕ) (cnt : ℕ → ℕ) (p : List ℕ) : List ℕ := (List.range n).map (fun i => if i ∈ p then cnt i else 0)

end Auctions.Spec
