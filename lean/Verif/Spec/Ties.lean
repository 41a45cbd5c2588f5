import Verif.Spec.Tree

set_option autoImplicit false

/-! # Specification: markets without ties -/

namespace Auctions.Spec

/-- `Selects f vals d`: the deal `d` follows a path from a root of the forest to a leaf, and takes from every category of the path an agent of
the market. -/
def Selects (f : Forest) (vals : ℕ → List ℚ) (d : TreeDeal) : Prop :=
  IsPath f (d.map Prod.fst) ∧ ∀ a ∈ d, a.2 ∈ vals a.1

/-- All agents of a category have different values, and whenever two different children of a node are followed down to leaves, the total values
of the agents taken on the way are different. -/
def TieFree (vals : ℕ → List ℚ) : Forest → Prop
  | .nil => True
  | .cons i ch s => (vals i).Nodup ∧ TieFree vals ch ∧ TieFree vals s ∧
      ∀ d d', Selects (.cons i ch .nil) vals d → Selects s vals d' → treeGain d ≠ treeGain d'

end Auctions.Spec
