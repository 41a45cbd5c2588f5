import Verif.Model.Reports
import Verif.Spec.Tree
import Mathlib.Logic.Function.Basic

set_option autoImplicit false

/-!
# Specification: following the instructions in the text that describes a trade in a recipe tree

The text lists, for every category of the tree, which of its agents and which of the deals of its children are selected. An auctioneer who follows
it keeps for every category a list of partial deals, made of one agent of each category from there down to a leaf.
-/

namespace Auctions.Spec

/-- `pool i`: the partial deals that start in category `i`; `chosen`: the category whose agents were selected last, and these agents. -/
structure Lottery where
  pool : ℕ → List TreeDeal
  chosen : ℕ × List ℚ

/-- The partial deals obtained by giving each of the chosen agents one of the partial deals `ds`. -/
def Lottery.combine (s : Lottery) (ds : List TreeDeal) : Lottery :=
  ⟨Function.update s.pool s.chosen.1 (List.zipWith (fun a d => (s.chosen.1, a) :: d) s.chosen.2 ds), s.chosen⟩

/-- `Obeys vals s l s'`: obeying the line `l` in the state `s` may lead to the state `s'`; the agents of category `i` have the values `vals i`.
The numbers in the line have to agree with the state: one cannot take "all 5" agents of a category that has 6. -/
inductive Obeys (vals : ℕ → List ℚ) : Lottery → Line → Lottery → Prop
  | potential {s : Lottery} {i : ℕ} {p : ℚ} :
      Obeys vals s (.potential i (vals i).length p) ⟨Function.update s.pool i ((vals i).map (fun a => [(i, a)])), s.chosen⟩
  | allTraders {s : Lottery} {i : ℕ} {p : ℚ} : Obeys vals s (.allTraders i (vals i).length p) ⟨s.pool, (i, vals i)⟩
  | someTraders {s : Lottery} {i : ℕ} {p : ℚ} {sel : List ℚ} : sel.Subperm (vals i) →
      Obeys vals s (.someTraders i sel.length (vals i).length p) ⟨s.pool, (i, sel)⟩
  | allOf {s : Lottery} {is : List ℕ} {ds : List TreeDeal} : ds.Perm (is.flatMap s.pool) → ds.length = s.chosen.2.length →
      Obeys vals s (.allOf is (is.flatMap s.pool).length) (s.combine ds)
  | someOf {s : Lottery} {is : List ℕ} {ds : List TreeDeal} : ds.Subperm (is.flatMap s.pool) → ds.length = s.chosen.2.length →
      Obeys vals s (.someOf is ds.length (is.flatMap s.pool).length) (s.combine ds)
  | overall {s : Lottery} {k : ℕ} : Obeys vals s (.overall k) s

/-- It is possible to follow the lines from the state `s` on: for each line there is a way to obey it, and whatever way is taken, one can go on with
the next line; and at the end `Q` holds. -/
def Always (vals : ℕ → List ℚ) (Q : Lottery → Prop) : List Line → Lottery → Prop
  | [], s => Q s
  | l :: ls, s => (∃ s', Obeys vals s l s') ∧ ∀ s', Obeys vals s l s' → Always vals Q ls s'

/-- Following the lines from the state `s` on may lead to the state `s'`. -/
def MayLead (vals : ℕ → List ℚ) : List Line → Lottery → Lottery → Prop
  | [], s, s' => s = s'
  | l :: ls, s, s' => ∃ s₁, Obeys vals s l s₁ ∧ MayLead vals ls s₁ s'

/-- The category and the price that a line shows, if it shows a price. -/
def shownPrice : Line → Option (ℕ × ℚ)
  | .potential i _ p => some (i, p)
  | .allTraders i _ p => some (i, p)
  | .someTraders i _ _ p => some (i, p)
  | .allOf _ _ => none
  | .someOf _ _ _ => none
  | .overall _ => none

end Auctions.Spec
