import Verif.Model.RecipeTree

set_option autoImplicit false

/-!
# Specification: categories with children that are leaves
-/

namespace Auctions.Spec

/-- One of the trees of the forest is a single category. -/
def HasLeaf : Forest → Prop
  | .nil => False
  | .cons _ ch s => ch = .nil ∨ HasLeaf s

open Classical in
/-- The number of categories that have a child without children. -/
noncomputable def leafParents : Forest → ℕ
  | .nil => 0
  | .cons _ ch s => (if HasLeaf ch then 1 else 0) + leafParents ch + leafParents s

end Auctions.Spec
