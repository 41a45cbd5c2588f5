import Verif.Spec.Siblings

set_option autoImplicit false

/-! # Specification: how a forest is written as a Python list -/

namespace Auctions.Spec

/-- The structure that describes the forest: for each tree its root category and then its children, written as `None` if there are none. -/
def written : Forest → List PyObj
  | .nil => []
  | .cons i .nil s => .int i :: .none :: written s
  | .cons i (.cons j c s') s => .int i :: .list (written (.cons j c s')) :: written s

end Auctions.Spec
