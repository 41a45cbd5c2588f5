import Verif.Spec.View

set_option autoImplicit false

/-!
# Specification: the same market with the categories in another order
-/

namespace Auctions.Spec

/-- The market `m'` with the recipe `r'` is the market `m` with the recipe `r`, with the categories (and their recipe entries) in another order. -/
structure Reordered (m : Market) (r : List ℕ) (m' : Market) (r' : List ℕ) : Prop where
  fits : r.length = m.categories.length
  fits' : r'.length = m'.categories.length
  same : (m'.categories.zip r').Perm (m.categories.zip r)

end Auctions.Spec
