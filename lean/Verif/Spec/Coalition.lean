import Verif.Spec.View

set_option autoImplicit false

/-!
# Specification of coalitions

Several agents agree on what to report. They join a market in which everybody else reports what they like.
-/

namespace Auctions.Spec

/-- A member of a coalition: an agent of a category, with its true value and what it reports. -/
structure Member where
  category : ℕ
  value : ℚ
  report : ℚ
  deriving DecidableEq, Repr

/-- The numbers given for category `j`, in a list of pairs of a category and a number. -/
def given (A : List (ℕ × ℚ)) (j : ℕ) : List ℚ := (A.filter fun x => x.1 = j).map Prod.snd

/-- The market in which, in addition to the agents of `m`, there are the agents in the list `A`: pairs of a category and what is reported. -/
def withAgents (m : Market) (A : List (ℕ × ℚ)) : Market :=
  ⟨m.categories.mapIdx fun j c => { c with values := given A j ++ c.values }⟩

/-- What the members report when they tell the truth. -/
def truth (C : List Member) : List (ℕ × ℚ) := C.map fun x => (x.category, x.value)

/-- What the members report. -/
def reports (C : List Member) : List (ℕ × ℚ) := C.map fun x => (x.category, x.report)

/-- The agents of the list `A` that stay; `stays k` tells it for agent number `k`. -/
def staying (A : List (ℕ × ℚ)) (stays : ℕ → Bool) : List (ℕ × ℚ) := (A.zipIdx.filter fun x => stays x.2).map Prod.fst

/-- `remaining j` are the reports in category `j` that remain at the end. Among agents with the same report it is left open who remains: here `stays` says so for the agents
in the list `A`, and it is possible: the reports that remain are those of the agents in `A` that stay and of some of the other agents, `m`. -/
def Stay (m : Market) (A : List (ℕ × ℚ)) (remaining : ℕ → List ℚ) (stays : ℕ → Bool) : Prop :=
  ∀ j, ∃ others, others.Subperm (m.valueLists.getD j []) ∧ (remaining j).Perm (given (staying A stays) j ++ others)

/-- Expected utility of a member that knows whether it `stays`: the `chance` that an agent of its category who remains trades, times its gain at the `price`. -/
def memberUtility (chance price : ℕ → ℚ) (stays : Bool) (x : Member) : ℚ :=
  if stays then chance x.category * (x.value - price x.category) else 0

/-- In a trade with a single price vector, the chance to trade of an agent of category `i` who remains: (agents of the category that trade) / (agents of the category
that remain). -/
def singleChance (t : TradeWithSinglePrice) (i : ℕ) : ℚ :=
  ((t.psRecipe.getD i 0 * t.numOfDeals : ℕ) : ℚ) / ((t.categories.map AgentCategory.values).getD i []).length

/-- The price for category `i`. -/
def singlePrice (t : TradeWithSinglePrice) (i : ℕ) : ℚ := (t.prices.getD []).getD i 0

/-- The reports that remain in category `i`. -/
def singleRemaining (t : TradeWithSinglePrice) (i : ℕ) : List ℚ := (t.categories.map AgentCategory.values).getD i []

/-- The members of the coalition `C` do not all win, for the outcomes when all tell the truth (`T`) and when they report what they agreed on (`B`). An outcome is given by the
reports that remain, and by the chance to trade and the price for each category. Whoever of equal agents remains, no member loses by the truth, and for at least one of them
the truth is as good as the agreement. -/
def Unprofitable (m : Market) (C : List Member) (remainingT remainingB : ℕ → List ℚ) (chanceT chanceB priceT priceB : ℕ → ℚ) : Prop :=
  ∀ staysT staysB, Stay m (truth C) remainingT staysT → Stay m (reports C) remainingB staysB →
    (∀ (k : ℕ) (hk : k < C.length), 0 ≤ memberUtility chanceT priceT (staysT k) C[k]) ∧
    (C ≠ [] → ∃ (k : ℕ) (hk : k < C.length), memberUtility chanceB priceB (staysB k) C[k] ≤ memberUtility chanceT priceT (staysT k) C[k])

/-- The members of the coalition `C` do not all win, for the trades `tT` when all tell the truth and `tB` when they report what they agreed on. -/
def NoCoalition (m : Market) (C : List Member) (tT tB : TradeWithSinglePrice) : Prop :=
  Unprofitable m C (singleRemaining tT) (singleRemaining tB) (singleChance tT) (singleChance tB) (singlePrice tT) (singlePrice tB)

end Auctions.Spec
