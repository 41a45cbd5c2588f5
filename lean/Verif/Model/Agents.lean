import Verif.Py

set_option autoImplicit false

/-!
# Model of `agents.py`
-/

namespace Auctions

/-- `agents.py:14` — `MAX_VALUE=100000000`.
(The same constant is repeated in `mcafee_protocol.py:21` and `trade_reduction_protocol.py:22`.) -/
def MAX_VALUE : ℚ := 100000000

/-- `agents.py:16-43` — `class AgentCategory`: a name and a list of values. -/
structure AgentCategory where
  name : String
  values : List ℚ
  deriving DecidableEq, Repr

namespace AgentCategory

/-- `agents.py:40-43` — `__init__`: copies the values and sorts them in descending order. -/
def init (name : String) (values : List ℚ) : AgentCategory := ⟨name, sortDesc values⟩

/-- `agents.py:45-49` — `size()` and `__len__`. -/
def size (c : AgentCategory) : ℕ := c.values.length

/-- `agents.py:57-67` — `append(value)` for a single (non-list) value. -/
def append (c : AgentCategory) (v : ℚ) : AgentCategory := { c with values := sortDesc (c.values ++ [v]) }

/-- `agents.py:57-67` — `append(value)` for a list of values. -/
def appendList (c : AgentCategory) (vs : List ℚ) : AgentCategory := { c with values := sortDesc (c.values ++ vs) }

/-- `agents.py:70-74` — `highest_agent_value()`: `self.values[0]`. -/
def highestAgentValue (c : AgentCategory) : Py ℚ :=
  match c.values with
  | [] => .error .indexError
  | v :: _ => .ok v

/-- `agents.py:76-80` — `highest_agent_values(count)`: `self.values[0:count]`. -/
def highestAgentValues (c : AgentCategory) (count : ℕ) : List ℚ := c.values.take count

/-- `agents.py:82-86` — `lowest_agent_value()`: `self.values[-1]`. -/
def lowestAgentValue (c : AgentCategory) : Py ℚ :=
  match c.values.getLast? with
  | none => .error .indexError
  | some v => .ok v

/-- `agents.py:88-93` — `remove_highest_agent()`: `self.values.pop(0)`. -/
def removeHighestAgent (c : AgentCategory) : Py AgentCategory :=
  match c.values with
  | [] => .error .indexError
  | _ :: vs => .ok { c with values := vs }

/-- `agents.py:95-101` — `remove_highest_agents(count)`: `count` times `self.values.pop(0)`.
Simplification: when it raises half-way, the partially emptied object is not returned. -/
def removeHighestAgents (c : AgentCategory) : ℕ → Py AgentCategory
  | 0 => .ok c
  | n + 1 => do
    let c' ← c.removeHighestAgent
    c'.removeHighestAgents n

/-- `agents.py:103-108` — `remove_lowest_agent()`: `self.values.pop(-1)`. -/
def removeLowestAgent (c : AgentCategory) : Py AgentCategory :=
  match c.values with
  | [] => .error .indexError
  | _ :: _ => .ok { c with values := c.values.dropLast }

/-- `agents.py:110-111` — `clone()`: a new category constructed from the same name and values. -/
def clone (c : AgentCategory) : AgentCategory := init c.name c.values

end AgentCategory

end Auctions
