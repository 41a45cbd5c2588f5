import Verif.Model.RecipeTree
import Mathlib.Order.Bounds.Basic

set_option autoImplicit false

/-!
# Specification: what the children of a category offer

The agents of a category can only trade together with agents of the categories below it. What these are worth together is called an offer.
-/

namespace Auctions.Spec

/-- From the best to the worst. -/
def bestFirst (l : List ℚ) : List ℚ := l.insertionSort (fun x y => x ≥ y)

/-- The offers of a forest. An agent of a leaf is an offer by itself. At a category with children the best agent is put together with the best offer of the
children, the second-best agent with the second-best offer, and so on; what is left over is no offer. -/
def offers (vals : ℕ → List ℚ) : Forest → List ℚ
  | .nil => []
  | .cons i .nil s => vals i ++ offers vals s
  | .cons i (.cons j c r) s => List.zipWith (· + ·) (bestFirst (vals i)) (bestFirst (offers vals (.cons j c r))) ++ offers vals s

/-- A price clears the market of a category whose agents have the values `demand`, if no more agents are willing to pay more than the price than there are offers that
can be had for the price. -/
def Clears (demand supply : List ℚ) (p : ℚ) : Prop := (demand.filter (fun x => p < x)).length ≤ (supply.filter (fun y => 0 ≤ p + y)).length

/-- The number of pairs that gain, or at least do not lose, when the best agent is put together with the best offer, the second-best with the second-best, and so on. -/
def gainfulPairs (demand supply : List ℚ) : ℕ := ((List.zipWith (· + ·) (bestFirst demand) (bestFirst supply)).filter (fun g => 0 ≤ g)).length

/-- The same, when an agent and an offer together have to reach a given total: no more agents are willing to pay more than the price `p` than there are offers that reach the total
with the price. -/
def ClearsFor (total : ℚ) (demand supply : List ℚ) (p : ℚ) : Prop :=
  (demand.filter (fun x => p < x)).length ≤ (supply.filter (fun y => total ≤ p + y)).length

/-- The prices of the categories of a forest in which every deal has to reach the given total, top down: the price of a leaf is the total; the price of another category is the lowest one that
clears the market between its agents and the offers of its children, and its children have to reach the rest of the total. (Only for categories of which agents stay.) -/
def PricesClear (vals : ℕ → List ℚ) (price : ℕ → ℚ) (stays : ℕ → Prop) : Forest → ℚ → Prop
  | .nil, _ => True
  | .cons i .nil s, total => (stays i → price i = total) ∧ PricesClear vals price stays s total
  | .cons i (.cons j c r) s, total =>
    (stays i → IsLeast {p | ClearsFor total (vals i) (offers vals (.cons j c r)) p} (price i) ∧
      PricesClear vals price stays (.cons j c r) (total - price i)) ∧
    PricesClear vals price stays s total

/-- The category is reached from the top through categories of which agents stay. -/
def Reached (stays : ℕ → Prop) : Forest → ℕ → Prop
  | .nil, _ => False
  | .cons i ch s, k => stays i ∧ (k = i ∨ Reached stays ch k) ∨ Reached stays s k

end Auctions.Spec
