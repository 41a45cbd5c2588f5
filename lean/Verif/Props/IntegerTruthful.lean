import Verif.Props.TreeTruthful
import Verif.Props.IntegerRational

set_option autoImplicit false

/-!
# C58 — truthfulness of the tree auction with counts
-/

namespace Auctions.Props

open Auctions Spec IntegerPrices TreeAuction IntegerAuction

/-- The tree auction with counts 1 in an increasing tree is the other tree auction, for some prices that meet the contract. -/
theorem integer_ones_as_tree {n : ℕ} {struct : List PyObj} {counts : List ℕ} {t : RecipeTree}
    (ht : RecipeTree.init n struct = .ok t) (hn : (treeNodes t).Nodup)
    (hch : t.children ≠ .nil) (hcounts : OnesFor counts n) (hinc : ∀ p, TreePath t p → p.Pairwise (· < ·)) :
    ∃ p0, ∀ m : Market, m.numCategories = n → ∀ fuel trade, IntegerAuction.auction m struct counts fuel = .ok (some trade) →
      ∃ tr, TreeAuction.auction (fixedSolver p0) m struct fuel = .ok (some tr) ∧ trade.categories = tr.categories ∧
        trade.prices = tr.prices ∧ trade.numOfDeals = tr.numOfDeals ∧ trade.gainFromTrade = tr.gainFromTrade := by
  have hto := treeOn_of_init ht hn
  have hw : t.pathsToLeaf.map (weightedIndicator n (fun _ => 1)) = t.pathsToLeaf.map (indicator n) := by
    apply List.map_congr_left
    intro p _
    unfold weightedIndicator indicator
    rfl
  have hown := increasing_tree_ownLast (n := n) (cnt := fun _ => 1) hn hto.lt (fun _ _ => by omega) hinc
  rw [hw] at hown
  obtain ⟨p0, hp0, hip, -⟩ := integer_initial_prices (bound := -MAX_VALUE) (n := n) (by linarith [max_value_pos])
    (by simpa using paths_ne_nil t) (by
      intro r hr
      obtain ⟨p, -, rfl⟩ := List.mem_map.1 hr
      simp [indicator]) hown
  refine ⟨p0, ?_⟩
  rintro m rfl fuel trade h
  have hag := integer_auction_agrees ht hn hch hcounts fuel
  rw [h, auction_congr (g := fixedSolver p0) fuel ht hn (by rw [hp0, fixedSolver_eq hip])] at hag
  cases hA : TreeAuction.auction (fixedSolver p0) m struct fuel with
  | error e => rw [hA] at hag; simp [Except.map] at hag
  | ok o =>
    rw [hA] at hag
    cases o with
    | none => simp [Except.map] at hag
    | some tr =>
      simp only [Except.map, Option.map, Except.ok.injEq, Option.some.injEq] at hag
      have e1 := congrArg TradeWithMultipleRecipes.categories hag
      have e2 := congrArg TradeWithMultipleRecipes.prices hag
      have e3 := congrArg TradeWithMultipleRecipes.numOfDeals hag
      have e4 := congrArg TradeWithMultipleRecipes.gainFromTrade hag
      exact ⟨tr, rfl, e1, e2, e3, e4⟩

/-- **C58**. With `agent_counts` omitted or all 1, in a tree of at least two categories whose indices increase along every path, an agent with
the true value `v` cannot gain by reporting another value `b`, and does not lose by reporting the truth. -/
theorem integer_auction_ones_truthful {m : Market} {struct : List PyObj} {counts : List ℕ} {f₁ f₂ c : ℕ} {v b : ℚ}
    {t : RecipeTree} {tT tB : TradeWithMultipleRecipes} (ht : RecipeTree.init m.numCategories struct = .ok t) (hn : (treeNodes t).Nodup)
    (hch : t.children ≠ .nil) (hcounts : OnesFor counts m.numCategories) (hinc : ∀ p, TreePath t p → p.Pairwise (· < ·))
    (hlow : ∀ l ∈ m.valueLists, ∀ x ∈ l, -MAX_VALUE ≤ x ∧ x ≤ MAX_VALUE)
    (hv : -MAX_VALUE ≤ v ∧ v ≤ MAX_VALUE) (hb : -MAX_VALUE ≤ b ∧ b ≤ MAX_VALUE)
    (hT : IntegerAuction.auction (withAgent m c v) struct counts f₁ = .ok (some tT))
    (hB : IntegerAuction.auction (withAgent m c b) struct counts f₂ = .ok (some tB))
    (chance : (ℕ → ℕ) → ℚ) (hchance : ∀ sizes, 0 ≤ chance sizes) :
    lotteryUtility chance (remaining tB) (finalPrice tB) c v b ≤ lotteryUtility chance (remaining tT) (finalPrice tT) c v v ∧
      0 ≤ lotteryUtility chance (remaining tT) (finalPrice tT) c v v := by
  obtain ⟨p0, key⟩ := integer_ones_as_tree ht hn hch hcounts hinc
  obtain ⟨rT, gT, e1, e2, -⟩ := key _ (withAgent_length m c v) _ _ hT
  obtain ⟨rB, gB, e3, e4, -⟩ := key _ (withAgent_length m c b) _ _ hB
  have := tree_auction_truthful (fixedSolver_contract p0) ht hn hlow hv hb gT gB chance hchance
  have hT1 : remaining tT = remaining rT := by unfold remaining; rw [e1]
  have hT2 : finalPrice tT = finalPrice rT := by unfold finalPrice; rw [e2]
  have hB1 : remaining tB = remaining rB := by unfold remaining; rw [e3]
  have hB2 : finalPrice tB = finalPrice rB := by unfold finalPrice; rw [e4]
  rw [hT1, hT2, hB1, hB2]
  exact this

/-- **C58**. With counts 1 and 2 the auction is not truthful. A buyer of value 15 joins buyers of values 30 and 19 and sellers of values -1, -2 and -5,
two of which are needed for a deal. If it reports 15, it leaves at price 15, and then the price falls: the remaining buyers of value 30 and 19 pay 10.
If it reports 25 it stays, the final price is 10 again, and it trades with probability 1/2. (There is one deal, with one buyer.) -/
theorem integer_auction_not_truthful :
    ∃ (m : Market) (v b : ℚ) (tT tB : TradeWithMultipleRecipes),
      IntegerAuction.auction (withAgent m 0 v) [.int 0, .list [.int 1, .none]] [1, 2] 20 = .ok (some tT) ∧
      IntegerAuction.auction (withAgent m 0 b) [.int 0, .list [.int 1, .none]] [1, 2] 20 = .ok (some tB) ∧
      tB.numOfDeals = 1 ∧
      ∀ chance : (ℕ → ℕ) → ℚ, chance (fun j => (remaining tB j).length) = 1 / (remaining tB 0).length →
        lotteryUtility chance (remaining tT) (finalPrice tT) 0 v v < lotteryUtility chance (remaining tB) (finalPrice tB) 0 v b := by
  refine ⟨⟨[⟨"buyer", [30, 19]⟩, ⟨"seller", [-1, -2, -5]⟩]⟩, 15, 25,
    mkTrade (IntegerTree.countOf [1, 2]) [⟨"buyer", [30, 19]⟩, ⟨"seller", [-1, -2]⟩] ⟨0, .cons 1 .nil .nil⟩ [10, -5],
    mkTrade (IntegerTree.countOf [1, 2]) [⟨"buyer", [30, 25]⟩, ⟨"seller", [-1, -2]⟩] ⟨0, .cons 1 .nil .nil⟩ [10, -5],
    by decide +kernel, by decide +kernel, by decide +kernel, ?_⟩
  intro chance hchance
  unfold lotteryUtility
  rw [hchance, if_neg (by decide +kernel), if_pos (by decide +kernel)]
  decide +kernel

/-- Non-vacuity of the truthful case: with counts 1 the buyer of value 15 gets 0 when it reports 3, and its share of the trade otherwise. -/
example :
    let m : Market := ⟨[⟨"buyer", [27, 21, 11, 3]⟩, ⟨"seller", [-4, -5, -11]⟩, ⟨"A", [-2, -3, -11]⟩, ⟨"B", [-1, -2, -8]⟩]⟩
    let s : List PyObj := [.int 0, .list [.int 1, .none, .int 2, .list [.int 3, .none]]]
    let t : RecipeTree := ⟨0, .cons 1 .nil (.cons 2 (.cons 3 .nil .nil) .nil)⟩
    let run := fun (b : ℚ) => (IntegerAuction.auction (withAgent m 0 b) s [1, 1, 1, 1] 100).map
      (fun o => o.map (fun t => lotteryUtility (fun sizes => 2 / sizes 0) (remaining t) (finalPrice t) 0 15 b))
    RecipeTree.init 4 s = .ok t ∧ (treeNodes t).Nodup ∧ (∀ p ∈ t.pathsToLeaf, p.Pairwise (· < ·)) ∧
      run 15 = .ok (some 5) ∧ run 3 = .ok (some 0) := by
  decide +kernel

end Auctions.Props
