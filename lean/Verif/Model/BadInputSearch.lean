import Verif.Model.Ascending

set_option autoImplicit false

/-!
# Model of `stock/finding_bad_input_for_ascending_auction.py`

`random.shuffle` is an arbitrary function of the number of earlier calls and of the list. The two lists and the recipe `[1,4]` of the script are
parameters; `scriptBuyers` and `scriptSellers` are the lists of the script, with exact decimals. What is printed is not modelled.
-/

namespace Auctions

namespace BadInputSearch

/-- `stock/finding_bad_input_for_ascending_auction.py:19-24` — the loop of `removeSeconds` from index `i` on. -/
def removeSecondsFrom (reduceNumber : ℕ) : ℕ → List ℚ → List ℚ
  | _, [] => []
  | i, p :: rest => if i % reduceNumber ≠ 0 then p :: removeSecondsFrom reduceNumber (i + 1) rest else removeSecondsFrom reduceNumber (i + 1) rest

/-- `stock/finding_bad_input_for_ascending_auction.py:19-24` — `removeSeconds(prices, reduce_number)`. -/
def removeSeconds (prices : List ℚ) (reduceNumber : ℕ) : List ℚ := removeSecondsFrom reduceNumber 0 prices

/-- `stock/finding_bad_input_for_ascending_auction.py:30-32` — the variables of the loop, and the lists of the last round. -/
structure State where
  auctionDeals : ℕ
  optimalDeals : ℕ
  reduceNumber : ℕ
  rounds : ℕ
  buyers : List ℚ
  sellers : List ℚ
  deriving DecidableEq, Repr

/-- `stock/finding_bad_input_for_ascending_auction.py:34-57` — the body of the loop. `fuel` is for the auction. -/
def round (buyers sellers : List ℚ) (recipe : List ℕ) (shuffle : ℕ → List ℚ → List ℚ) (fuel : ℕ) (s : State) : Py (Option State) := do
  let reduceNumber := s.reduceNumber + 1
  let buyers := removeSeconds (shuffle (2 * s.rounds) buyers) reduceNumber
  let sellers := removeSeconds (shuffle (2 * s.rounds + 1) sellers) reduceNumber
  let market ← Market.init [AgentCategory.init "buyer" buyers, AgentCategory.init "seller" sellers]
  match ← Ascending.auction market recipe fuel with
  | none => .ok none
  | some trade => do
    let (optimal, _) ← market.optimalTrade recipe
    .ok (some ⟨trade.numOfDeals, optimal.numOfDeals, reduceNumber, s.rounds + 1, buyers, sellers⟩)

/-- `stock/finding_bad_input_for_ascending_auction.py:33-57` — the `while` loop, at most `n` rounds (`none`: it has not ended). -/
def loop (buyers sellers : List ℚ) (recipe : List ℕ) (shuffle : ℕ → List ℚ → List ℚ) (fuel : ℕ) : ℕ → State → Py (Option State)
  | n, s =>
    if s.auctionDeals ≤ s.optimalDeals ∧ s.reduceNumber < 10 then
      match n with
      | 0 => .ok none
      | n + 1 => do
        match ← round buyers sellers recipe shuffle fuel s with
        | none => .ok none
        | some s' => loop buyers sellers recipe shuffle fuel n s'
    else .ok (some s)

/-- `stock/finding_bad_input_for_ascending_auction.py:30-57` — the script for given lists: the loop starts with one and two deals and `reduce_number = 1`. -/
def search (buyers sellers : List ℚ) (recipe : List ℕ) (shuffle : ℕ → List ℚ → List ℚ) (fuel n : ℕ) : Py (Option State) :=
  loop buyers sellers recipe shuffle fuel n ⟨1, 2, 1, 0, [], []⟩

/-- `stock/finding_bad_input_for_ascending_auction.py:34`. -/
def scriptBuyers : List ℚ := [5272 / 100, 448 / 10, 33375 / 1000]

/-- `stock/finding_bad_input_for_ascending_auction.py:35`. -/
def scriptSellers : List ℚ :=
  [-(1523 / 10000), -(1445 / 10000), -(112 / 10), -(112 / 10), -(31406 / 10000), -(112 / 10), -(112 / 10), -(26875 / 10000), -(112 / 10)]

end BadInputSearch

end Auctions
