import Verif.Model.TreeAuction

set_option autoImplicit false

/-!
# Specification: leaving out the categories that the recipe does not need
-/

namespace Auctions.Spec

/-- The entries of `l` at the places where the recipe has a positive count, in the same order. -/
def needed {α : Type} (r : List ℕ) (l : List α) : List α := ((l.zip r).filter fun x => 0 < x.2).map Prod.fst

/-- The market without the categories that the recipe does not need. -/
def neededMarket (r : List ℕ) (m : Market) : Market := ⟨needed r m.categories⟩

/-- The trade without the categories that the recipe does not need. -/
def neededTrade (r : List ℕ) (t : TradeWithSinglePrice) : TradeWithSinglePrice :=
  ⟨needed r t.categories, needed r t.psRecipe, t.prices.map (needed r), t.numOfDealsCache⟩

/-- The two lists of categories have the same length and the same categories at the places `ns`. -/
def AgreeAt (ns : List ℕ) (cs cs' : List AgentCategory) : Prop := cs.length = cs'.length ∧ ∀ i ∈ ns, cs[i]? = cs'[i]?

/-- Two outcomes of a recipe-tree auction that differ at most in the categories outside the places `ns`: the same error, or both have not ended, or the same tree, prices, numbers and gain,
and the same agents in the categories `ns`. -/
def SameTreeOutcome (ns : List ℕ) : Py (Option TreeAuction.TradeWithMultipleRecipes) → Py (Option TreeAuction.TradeWithMultipleRecipes) → Prop
  | .error e, .error e' => e = e'
  | .ok none, .ok none => True
  | .ok (some t), .ok (some t') => AgreeAt ns t.categories t'.categories ∧ t' = { t with categories := t'.categories }
  | _, _ => False

end Auctions.Spec
