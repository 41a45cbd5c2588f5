import Verif.Spec.View
import Mathlib.Algebra.BigOperators.Group.Finset.Basic

set_option autoImplicit false

/-!
# Specification: another currency, and fees that cancel out

A market in which all values are multiplied by `c` (another currency), and the agents of each category number `i` get an additional `b i` (negative: they pay a fee).
-/

namespace Auctions.Spec

/-- Every value `x` in category number `i` becomes `c * x + b i`. -/
def changed (c : ℚ) (b : ℕ → ℚ) (cats : List AgentCategory) : List AgentCategory :=
  cats.mapIdx (fun i cat => ⟨cat.name, cat.values.map (fun x => c * x + b i)⟩)

/-- The additional amounts in a procurement-set of recipe `r` sum to 0. -/
def CancelOut (r : List ℕ) (b : ℕ → ℚ) : Prop := ∑ i ∈ Finset.range r.length, (r.getD i 0 : ℚ) * b i = 0

/-- The values in the market are between `-MAX_VALUE` and `bound`, and a procurement-set of agents with this value is worth less than `MAX_VALUE`. -/
structure Moderate (m : Market) (r : List ℕ) (bound : ℚ) : Prop where
  nonneg : 0 ≤ bound
  small : bound * r.sum < MAX_VALUE
  values : ∀ l ∈ m.valueLists, ∀ x ∈ l, -MAX_VALUE ≤ x ∧ x ≤ bound

end Auctions.Spec
