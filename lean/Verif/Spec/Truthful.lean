import Verif.Spec.View

set_option autoImplicit false

/-!
# Specification of truthfulness

An agent with true value `v` joins category `i` of a market with a reported value `b`.
-/

namespace Auctions.Spec

/-- The market in which, in addition to the agents of `m`, an agent of category `i` reports `b`. -/
def withAgent (m : Market) (i : ℕ) (b : ℚ) : Market :=
  ⟨m.categories.modify i (fun c => { c with values := b :: c.values })⟩

/-- Expected utility of that agent: if its report is among the remaining agents of its category, it trades with probability
(agents of the category that trade) / (agents of the category that remain), and then gains its true value minus the price;
otherwise it gets 0. -/
def utility (t : TradeWithSinglePrice) (i : ℕ) (v b : ℚ) : ℚ :=
  let remaining := (t.categories.map AgentCategory.values).getD i []
  if b ∈ remaining then
    ((t.psRecipe.getD i 0 * t.numOfDeals : ℕ) : ℚ) / remaining.length * (v - (t.prices.getD []).getD i 0)
  else 0

/-- Expected utility of that agent in an auction that leaves it to a lottery which of the remaining agents trade: `remaining j` are the values
of the agents of category `j` that remain, `price j` is the price of the category. The probability `chance` that a remaining agent of the
category `i` trades may be any function of the numbers of remaining agents. -/
def lotteryUtility (chance : (ℕ → ℕ) → ℚ) (remaining : ℕ → List ℚ) (price : ℕ → ℚ) (i : ℕ) (v b : ℚ) : ℚ :=
  if b ∈ remaining i then chance (fun j => (remaining j).length) * (v - price i) else 0

end Auctions.Spec
