import Mathlib.Data.Rat.Defs
import Mathlib.Algebra.Order.Field.Rat
import Mathlib.Data.List.Sublists

set_option autoImplicit false

/-!
# Specification of a random selection of traders
-/

namespace Auctions.Spec

/-- Expected total value of `n` agents chosen uniformly at random from `agents`: the average, over all ways of choosing
`n` positions, of the sum of the chosen values. -/
def expectedTotal (agents : List ℚ) (n : ℕ) : ℚ :=
  ((agents.sublistsLen n).map List.sum).sum / (agents.sublistsLen n).length

end Auctions.Spec
