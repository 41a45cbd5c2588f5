import Verif.Spec.Coalition

set_option autoImplicit false

/-!
# Specification: what an outcome depends on
-/

namespace Auctions.Spec

/-- Both lists have the same highest number (or both are empty). -/
def SameHighest (L D : List ℚ) : Prop := (∀ x ∈ L, ∃ y ∈ D, x ≤ y) ∧ ∀ y ∈ D, ∃ x ∈ L, y ≤ x

/-- Compare a market `m'` with a market `m` in which the trade `t` was found. In each category `j` the agents of `m'` are `W j` and `L j`; `m'` has as many agents `W j` as
there are agents of `m` that remain, and these report at least the price; and it has as many agents `L j` as there are agents of `m` that left, and the highest report
among them is the same. All other reports may differ. -/
def SameThresholds (m m' : Market) (t : TradeWithSinglePrice) (W L : ℕ → List ℚ) : Prop :=
  ∀ j < m.numCategories, (m'.valueLists.getD j []).Perm (W j ++ L j) ∧ (W j).length = (singleRemaining t j).length ∧ (∀ x ∈ W j, singlePrice t j ≤ x) ∧
    ∃ D, (m.valueLists.getD j []).Perm (singleRemaining t j ++ D) ∧ (L j).length = D.length ∧ SameHighest (L j) D

/-- What the agents in the list `C` report at first. -/
def before (C : List Member) : List (ℕ × ℚ) := reports C

/-- What the agents in the list `C` report later (their field `value`). -/
def after (C : List Member) : List (ℕ × ℚ) := truth C

end Auctions.Spec
