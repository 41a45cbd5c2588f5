import Verif.Model.Markets
import Verif.Spec.Trades

set_option autoImplicit false

/-! # How the specification sees a market of the model: the list of its categories' values. -/

namespace Auctions

/-- The values of the agents of each category, in order. -/
def Market.valueLists (m : Market) : List (List ℚ) := m.categories.map AgentCategory.values

/-- Number of agents in the market. -/
def Market.numAgents (m : Market) : ℕ := (m.valueLists.map List.length).sum

end Auctions
