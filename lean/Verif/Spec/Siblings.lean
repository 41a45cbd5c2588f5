import Verif.Spec.Tree

set_option autoImplicit false

/-! # Specification: nodes, children and siblings in a recipe tree -/

namespace Auctions.Spec

/-- `IsNode f i ch`: the forest contains a node of category `i` whose children are the forest `ch`. -/
inductive IsNode : Forest → ℕ → Forest → Prop
  | here (i : ℕ) (ch s : Forest) : IsNode (.cons i ch s) i ch
  | down {i j : ℕ} {ch s c : Forest} : IsNode ch j c → IsNode (.cons i ch s) j c
  | next {i j : ℕ} {ch s c : Forest} : IsNode s j c → IsNode (.cons i ch s) j c

/-- The trees of a forest, each as its root category and the forest of children. -/
def trees : Forest → List (ℕ × Forest)
  | .nil => []
  | .cons i ch s => (i, ch) :: trees s

/-- Every node of the tree that has a sibling is a leaf, or all categories of its subtree are in `G`. -/
def SiblingsLeafOr (G : ℕ → Prop) (t : RecipeTree) : Prop :=
  ∀ i ch, IsNode (.cons t.index t.children .nil) i ch → 2 ≤ (trees ch).length →
    ∀ c ∈ trees ch, c.2 = .nil ∨ ∀ k ∈ c.1 :: nodes c.2, G k

end Auctions.Spec
