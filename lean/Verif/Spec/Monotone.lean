import Mathlib.Data.Rat.Defs
import Mathlib.Algebra.Order.Ring.Unbundled.Rat

set_option autoImplicit false

/-! # Specification: comparing two categories -/

namespace Auctions.Spec

/-- A category with the values `w` is at least as good as one with the values `v`: whatever the threshold `x`, at least as many of its agents
have a value of `x` or more. (Agents may have been added, values may have been raised; the order of the values does not matter.) -/
def AsGood (v w : List ℚ) : Prop := ∀ x : ℚ, (v.filter (fun y => x ≤ y)).length ≤ (w.filter (fun y => x ≤ y)).length

end Auctions.Spec
