import Verif.Spec.View

set_option autoImplicit false

/-!
# Specification: the list without every n-th entry
-/

namespace Auctions.Spec

/-- The entries of `l` at the positions that are not divisible by `n`. -/
def withoutMultiples (n : ℕ) (l : List ℚ) : List ℚ := ((List.range l.length).filter (fun i => ¬ n ∣ i)).map (fun i => l.getD i 0)

end Auctions.Spec
