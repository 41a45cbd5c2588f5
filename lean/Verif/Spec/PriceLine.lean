import Verif.Model.Reports

set_option autoImplicit false

/-! # Specification: what a line of the text of a single-price trade says -/

namespace Auctions.Spec

/-- The number of agents that trade according to the line. -/
def traders : PriceLine → ℕ
  | .all _ n _ => n
  | .random _ k _ _ => k

/-- The number of agents among whom they are selected. -/
def candidates : PriceLine → ℕ
  | .all _ n _ => n
  | .random _ _ n _ => n

/-- The price that they pay. -/
def linePrice : PriceLine → ℚ
  | .all _ _ p => p
  | .random _ _ _ p => p

/-- The category that the line shows. -/
def lineCategory : PriceLine → AgentCategory
  | .all c _ _ => c
  | .random c _ _ _ => c

/-- The line says "random … out of …". -/
def isRandom : PriceLine → Prop
  | .all _ _ _ => False
  | .random _ _ _ _ => True

/-- `Describes cs r p d i l`: the line `l` describes category `i` in `d` deals of the recipe `r` among the categories `cs` with prices `p`. -/
structure Describes (cs : List AgentCategory) (r : List ℕ) (p : List ℚ) (d i : ℕ) (l : PriceLine) : Prop where
  category : cs[i]? = some (lineCategory l)
  traders : r[i]?.map (d * ·) = some (traders l)
  candidates : candidates l = (lineCategory l).values.length
  enough : Spec.traders l ≤ Spec.candidates l
  random : isRandom l ↔ Spec.traders l < Spec.candidates l
  price : p[i]? = some (linePrice l)

/-- What the agents pay in total according to the lines. -/
def totalPaid (lines : List PriceLine) : ℚ := (lines.map (fun l => traders l * linePrice l)).sum

end Auctions.Spec
