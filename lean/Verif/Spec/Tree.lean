import Verif.Model.RecipeTree
import Mathlib.Algebra.BigOperators.Group.List.Basic
import Mathlib.Data.Multiset.Basic

set_option autoImplicit false

/-!
# Specification of recipe trees and of trades in them

Only the data types `Forest` and `RecipeTree` of the model are used here, none of its functions.
-/

namespace Auctions.Spec

/-- `AtAddress f a p`: going from the top of the forest to a leaf by taking first tree number `a[0]` of the forest, then child
number `a[1]` of its root, and so on, one meets exactly the categories `p`. -/
inductive AtAddress : Forest → List ℕ → List ℕ → Prop
  | leaf (i : ℕ) (s : Forest) : AtAddress (.cons i .nil s) [0] [i]
  | down {i : ℕ} {ch s : Forest} {a p : List ℕ} : AtAddress ch a p → AtAddress (.cons i ch s) (0 :: a) (i :: p)
  | next {i : ℕ} {ch s : Forest} {k : ℕ} {a p : List ℕ} : AtAddress s (k :: a) p → AtAddress (.cons i ch s) ((k + 1) :: a) p

/-- `p` lists the categories on a path from a root of the forest to a leaf. -/
def IsPath (f : Forest) (p : List ℕ) : Prop := ∃ a, AtAddress f a p

/-- `p` lists the categories on a path from the root of the tree to a leaf. -/
def TreePath (t : RecipeTree) (p : List ℕ) : Prop := Spec.IsPath (.cons t.index t.children .nil) p

/-- The categories of the nodes of the forest. -/
def nodes : Forest → List ℕ
  | .nil => []
  | .cons i ch s => i :: (nodes ch ++ nodes s)

/-- The categories of the leaves of the forest. -/
def leaves : Forest → List ℕ
  | .nil => []
  | .cons i .nil s => i :: leaves s
  | .cons _ ch@(.cons ..) s => leaves ch ++ leaves s

/-- The categories of the nodes of the tree. -/
def treeNodes (t : RecipeTree) : List ℕ := t.index :: Spec.nodes t.children

/-- The categories of the leaves of the tree. -/
def treeLeaves (t : RecipeTree) : List ℕ := Spec.leaves (.cons t.index t.children .nil)

/-- `Denotes l f`: the Python list `l` (such as `[1, None, 2, [3, None]]`) lists the trees of the forest `f`: alternately the
category of a root, and its children as `None` (no children) or as such a list. -/
inductive Denotes : List PyObj → Forest → Prop
  | nil : Denotes [] .nil
  | leaf {i : ℕ} {rest : List PyObj} {s : Forest} : Denotes rest s → Denotes (.int i :: .none :: rest) (.cons i .nil s)
  | node {i : ℕ} {items rest : List PyObj} {ch s : Forest} :
      Denotes items ch → Denotes rest s → Denotes (.int i :: .list items :: rest) (.cons i ch s)

/-- A deal in a tree: a list of agents, each given by its category and its value. -/
abbrev TreeDeal := List (ℕ × ℚ)

/-- The values of the agents of category `i` in a list of agents. -/
def agentsOf (i : ℕ) (l : List (ℕ × ℚ)) : List ℚ := (l.filter (fun a => a.1 = i)).map Prod.snd

/-- Each deal takes one agent from every category of some path from a root to a leaf, and no agent is used twice: in every
category the agents used are, as a multiset, contained in the agents of the market. -/
def TreeFeasible (f : Forest) (vals : ℕ → List ℚ) (deals : List TreeDeal) : Prop :=
  (∀ d ∈ deals, IsPath f (d.map Prod.fst)) ∧ ∀ i, (agentsOf i deals.flatten).Subperm (vals i)

/-- Total value of the agents in a deal. -/
def treeGain (d : TreeDeal) : ℚ := (d.map Prod.snd).sum

/-- Total value of the agents in the deals. -/
def treeTotalGain (deals : List TreeDeal) : ℚ := (deals.map treeGain).sum

/-- The number of deals that follow the same path as `d`. -/
def dealsOnPath (deals : List TreeDeal) (d : TreeDeal) : ℕ := (deals.filter (fun e => e.map Prod.fst = d.map Prod.fst)).length

/-- Feasibility of deals in a tree. -/
def FeasibleDeals (t : RecipeTree) (vals : ℕ → List ℚ) (deals : List TreeDeal) : Prop :=
  TreeFeasible (.cons t.index t.children .nil) vals deals

/-- The 0/1 vector of length `n` with 1 exactly at the positions in `p`. -/
def indicator (n : ℕ) (p : List ℕ) : List ℕ := (List.range n).map (fun i => if i ∈ p then 1 else 0)

end Auctions.Spec
