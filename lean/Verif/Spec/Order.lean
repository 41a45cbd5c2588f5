import Verif.Spec.View

set_option autoImplicit false

/-! # Specification: markets that differ only in the order of the reports -/

namespace Auctions.Spec

/-- The two markets have the same categories with the same names, and the agents of each category report the same values, perhaps in a different
order. -/
def SameReports (m m' : Market) : Prop :=
  List.Forall₂ (fun c c' : AgentCategory => c.name = c'.name ∧ c.values.Perm c'.values) m.categories m'.categories

end Auctions.Spec
