import Verif.Spec.Tree

set_option autoImplicit false

/-!
# Specification: sizes of categories in a tree, and cuts
-/

namespace Auctions.Spec

/-- The categories of the roots of the trees of a forest. -/
def roots : Forest → List ℕ
  | .nil => []
  | .cons i _ s => i :: roots s

/-- Every category that is not a leaf has exactly as many agents as its children together. -/
def ExactSizes (size : ℕ → ℕ) : Forest → Prop
  | .nil => True
  | .cons i ch s => (ch ≠ .nil → size i = ((roots ch).map size).sum) ∧ ExactSizes size ch ∧ ExactSizes size s

/-- A cut: every path from the root to a leaf contains exactly one of these different categories of the tree. -/
structure IsCut (t : RecipeTree) (cut : List ℕ) : Prop where
  nodup : cut.Nodup
  inTree : ∀ i ∈ cut, i ∈ treeNodes t
  one : ∀ p, TreePath t p → (cut.filter (· ∈ p)).length = 1

end Auctions.Spec
