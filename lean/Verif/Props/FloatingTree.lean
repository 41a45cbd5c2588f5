import Verif.Proofs.FloatingTree
import Verif.Proofs.FloatingRounding
import Verif.Props.Floating
import Verif.Props.TreeAuction

set_option autoImplicit false

/-!
# C96: the recipe-tree auction on whole-number reports has no rounding at all
-/

namespace Auctions.Props

open Auctions Auctions.Spec Auctions.TreeAuction

/-- The auction with rounding after each operation returns exactly what it returns with exact numbers: the same agents, deals, prices, gain and errors. -/
theorem float_tree_auction {fl : ℚ → ℚ} (hf : Rounding fl) {g : List (List ℕ) → ℚ → Py (List ℚ)} (hg : PriceContract g) {m : Market} {P A : ℕ}
    (hr : WholeTreeReports m A) (hw : ∀ recipes p0, g recipes (-MAX_VALUE) = .ok p0 → WholePrices P p0) (hP : (m.categories.length + 3) * P ≤ 2 ^ 53) {struct : List PyObj}
    (hn : ∀ t, RecipeTree.init m.numCategories struct = .ok t → (treeNodes t).Nodup) (fuel : ℕ) :
    Floating.treeAuction fl g m struct fuel = auction g m struct fuel :=
  Floating.treeAuction_eq hf hg hr hw hP hn fuel

/-- The optimal trade of a recipe tree, and its gain, are exactly the same. -/
theorem float_tree_optimal_trade {fl : ℚ → ℚ} (hf : Rounding fl) {vals : ℕ → List ℚ} {M A : ℕ} (hv : ∀ i, ∀ v ∈ vals i, ∃ z : ℤ, v = z ∧ |z| ≤ M) (t : RecipeTree)
    (hA : (vals t.index).length ≤ A) (hb : M * (treeNodes t).length * (A + 1) ≤ 2 ^ 53) :
    Floating.treeOptimalTrade fl t vals = t.optimalTrade vals ∧ Floating.treeOptimalTradeGFT fl t vals = t.optimalTradeGFT vals := by
  have h0 : M * (treeNodes t).length ≤ 2 ^ 53 := le_trans (Nat.le_mul_of_pos_right _ (by omega)) hb
  have h1 : M * (treeNodes t).length * A ≤ 2 ^ 53 := le_trans (Nat.mul_le_mul_left _ (by omega)) hb
  exact ⟨Floating.treeOptimalTrade_eq hf hv t hA h0 h1, Floating.treeOptimalTradeGFT_eq hf hv t hA h0 h1⟩

theorem _root_.Auctions.Spec.InUnits.add {u a b : ℚ} (ha : InUnits u a) (hb : InUnits u b) : InUnits u (a + b) := by
  obtain ⟨x, rfl⟩ := ha; obtain ⟨y, rfl⟩ := hb; exact ⟨x + y, by push_cast; ring⟩

theorem _root_.Auctions.Spec.InUnits.neg {u a : ℚ} (ha : InUnits u a) : InUnits u (-a) := by
  obtain ⟨x, rfl⟩ := ha; exact ⟨-x, by push_cast; ring⟩

theorem _root_.Auctions.Spec.InUnits.zero (u : ℚ) : InUnits u 0 := ⟨0, by simp⟩

theorem _root_.Auctions.Spec.InUnits.sub {u a b : ℚ} (ha : InUnits u a) (hb : InUnits u b) : InUnits u (a - b) := by
  rw [sub_eq_add_neg]; exact ha.add hb.neg

theorem _root_.Auctions.Spec.InUnits.sum {u : ℚ} {l : List ℚ} (h : ∀ q ∈ l, InUnits u q) : InUnits u l.sum := by
  induction l with
  | nil => exact InUnits.zero u
  | cons a l ih => rw [List.sum_cons]; exact (h a (by simp)).add (ih fun q hq => h q (by simp [hq]))

/-- Without any limit on the sizes of the numbers: if all reports, the constant 100000000 and the initial prices are whole multiples of a unit, so are all prices of the outcome. -/
theorem tree_prices_in_units {g : List (List ℕ) → ℚ → Py (List ℚ)} (hg : PriceContract g) {m : Market} {u : ℚ} (hu : InUnits u MAX_VALUE)
    (hr : ∀ c ∈ m.categories, ∀ x ∈ c.values, InUnits u x) (hw : ∀ recipes p0, g recipes (-MAX_VALUE) = .ok p0 → ∀ q ∈ p0, InUnits u q) {struct : List PyObj} {t : RecipeTree}
    (ht : RecipeTree.init m.numCategories struct = .ok t) (hn : (treeNodes t).Nodup) {fuel : ℕ} {trade : TradeWithMultipleRecipes}
    (h : auction g m struct fuel = .ok (some trade)) : ∀ q ∈ trade.prices, InUnits u q := by
  have hto := treeOn_of_init ht hn
  obtain ⟨p0, cats, v, h1, h2, rfl⟩ := auction_inv ht hn h
  obtain ⟨s, hs, hs0, -⟩ := start_inv hto (hg _ _ _ h1)
  have hneg : s < 0 := by have := max_value_pos; linarith
  have hgetD : ∀ {l : List ℚ}, (∀ q ∈ l, InUnits u q) → ∀ i, InUnits u (l.getD i 0) := by
    intro l hl i
    rw [List.getD_eq_getElem?_getD]
    cases hi : l[i]? with
    | none => exact InUnits.zero u
    | some q => exact hl q (List.mem_of_getElem? hi)
  have hvals : ∀ i, ∀ x ∈ valuesAt m.sorted i, InUnits u x := by
    intro i x hx
    rw [valuesAt_sorted] at hx
    have hx := (List.mem_insertionSort _).1 hx
    rw [Market.valueLists, List.getD_eq_getElem?_getD, List.getElem?_map] at hx
    cases hi : m.categories[i]? with
    | none => simp [hi] at hx
    | some c => rw [hi] at hx; exact hr c (List.mem_of_getElem? hi) x hx
  have htarget : ∀ {cats' v' s'}, TInv t m.numCategories m.sorted cats' v' s' → ∀ i, InUnits u (target cats' i) := by
    intro cats' v' s' hi i
    unfold target
    cases hl : (valuesAt cats' i).getLast? with
    | none => exact hu
    | some y =>
      obtain ⟨k, hk⟩ := hi.pre i
      have := List.mem_of_getLast? hl
      rw [hk] at this
      exact hvals i y (List.mem_of_mem_take this)
  obtain ⟨p, hp⟩ := treePath_exists t
  have hsum : ∀ {cats' v' s'}, TInv t m.numCategories m.sorted cats' v' s' → (∀ i, InUnits u (priceAt v' i)) → InUnits u s' := by
    intro cats' v' s' hi hpr
    rw [← hi.fits.balanced p hp]
    exact InUnits.sum (by intro q hq; obtain ⟨i, -, rfl⟩ := List.mem_map.1 hq; exact hpr i)
  have hend := tree_loop_end hto (cats0 := m.sorted) (P := fun _ v _ => ∀ i, InUnits u (priceAt v i))
    (by
      intro cats v s cats' v' d hi _ hp' _ _ hn' i
      rw [hn'.price]
      refine (hp' i).add ?_
      split
      · obtain ⟨j, -, hj⟩ := hn'.reached
        have : d = target cats j - priceAt v j := by linarith
        rw [this]
        exact (htarget hi j).sub (hp' j)
      · exact InUnits.zero u)
    (by
      intro cats v s v' d hi _ hp' _ _ _ _ hpr i
      rw [hpr]
      refine (hp' i).add ?_
      split
      · exact (hsum hi hp').neg
      · exact InUnits.zero u)
    fuel hs hneg (hgetD (hw _ _ h1))
  rcases hend with h3 | ⟨cats', v', s', h3, h4, h5, -⟩
  · rw [h3] at h2; cases h2
  · rw [h3] at h2
    cases h2
    intro q hq
    have hq : q ∈ v.prices := hq
    obtain ⟨i, hi, rfl⟩ := List.mem_iff_getElem.1 hq
    have := h5 i
    unfold priceAt at this
    rw [List.getD_eq_getElem?_getD, List.getElem?_eq_getElem hi] at this
    exact this

/-! ### Examples -/

/-- The market of the doctest of `ascending_auction_recipetree_protocol.py:96-107`. -/
def floatTreeMarket : Market := ⟨[⟨"buyer", [27, 21, 17, 11, 3]⟩, ⟨"seller", [-4, -5, -11]⟩, ⟨"A", [-2, -3, -11]⟩, ⟨"B", [-1, -2, -8]⟩]⟩
/-- Its tree. -/
def floatTreeStruct : List PyObj := [.int 0, .list [.int 1, .none, .int 2, .list [.int 3, .none]]]
/-- Its initial prices. -/
def floatTreeSolver := fixedSolver [-100000000, -200000000, -100000000, -100000000]

theorem whole_of_den {q : ℚ} (h : q.den = 1) (hb : |q.num| ≤ 100000000) : ∃ z : ℤ, q = z ∧ |z| ≤ 100000000 := ⟨q.num, (Rat.den_eq_one_iff q).1 h |>.symm, hb⟩

theorem floatTreeMarket_whole : WholeTreeReports floatTreeMarket 5 where
  whole := by
    have h : ∀ c ∈ floatTreeMarket.categories, ∀ v ∈ c.values, v.den = 1 ∧ |v.num| ≤ 100000000 := by decide +kernel
    exact fun c hc v hv => whole_of_den (h c hc v hv).1 (h c hc v hv).2
  agents := by decide +kernel
  gains := by decide +kernel

theorem floatTreeSolver_whole (recipes : List (List ℕ)) (p0 : List ℚ) (h : floatTreeSolver recipes (-MAX_VALUE) = .ok p0) : WholePrices 200000000 p0 := by
  unfold floatTreeSolver fixedSolver at h
  split at h
  · cases h
    intro q hq
    simp only [List.mem_cons, List.not_mem_nil, or_false] at hq
    rcases hq with rfl | rfl | rfl | rfl
    · exact ⟨-100000000, by norm_num, by norm_num⟩
    · exact ⟨-200000000, by norm_num, by norm_num⟩
    · exact ⟨-100000000, by norm_num, by norm_num⟩
    · exact ⟨-100000000, by norm_num, by norm_num⟩
  · cases h

theorem floatTree_nodup : ∀ t, RecipeTree.init floatTreeMarket.numCategories floatTreeStruct = .ok t → (treeNodes t).Nodup := by
  intro t ht
  have : RecipeTree.init floatTreeMarket.numCategories floatTreeStruct = .ok ⟨0, .cons 1 .nil (.cons 2 (.cons 3 .nil .nil) .nil)⟩ := by decide +kernel
  rw [this] at ht
  cases ht
  decide +kernel

/-- All assumptions hold of the doctest, for the rounding of Python and for rounding towards zero. -/
example : (∀ fuel, Floating.treeAuction nearestFloat floatTreeSolver floatTreeMarket floatTreeStruct fuel = auction floatTreeSolver floatTreeMarket floatTreeStruct fuel) ∧
    ∀ fuel, Floating.treeAuction towardsZero floatTreeSolver floatTreeMarket floatTreeStruct fuel = auction floatTreeSolver floatTreeMarket floatTreeStruct fuel :=
  ⟨float_tree_auction python_rounding.1 (fixedSolver_contract _) floatTreeMarket_whole floatTreeSolver_whole (by decide +kernel) floatTree_nodup,
    float_tree_auction python_rounding.2 (fixedSolver_contract _) floatTreeMarket_whole floatTreeSolver_whole (by decide +kernel) floatTree_nodup⟩

example : (Floating.treeAuction nearestFloat floatTreeSolver floatTreeMarket floatTreeStruct 100).map (fun o => o.map (fun t => (t.numOfDeals, t.prices, t.gainFromTrade)))
    = .ok (some (2, [5, -5, -3, -2], 41)) := by decide +kernel

/-- With reports that are not whole numbers the rounding matters: a half is lost beside a very large number. -/
theorem float_tree_limit : ∃ (t : RecipeTree) (vals : ℕ → List ℚ), (∀ i, ∀ v ∈ vals i, Double v) ∧
    Floating.treeOptimalTradeGFT nearestFloat t vals ≠ t.optimalTradeGFT vals := by
  refine ⟨⟨0, .cons 1 .nil .nil⟩, fun i => if i = 0 then [2 ^ 53 - 1] else if i = 1 then [1 / 2] else [], ?_, by decide +kernel⟩
  intro i v hv
  dsimp only at hv
  split_ifs at hv
  · simp only [List.mem_cons, List.not_mem_nil, or_false] at hv; subst hv
    exact ⟨2 ^ 53 - 1, 0, by norm_num, by norm_num, by norm_num, by norm_num⟩
  · simp only [List.mem_cons, List.not_mem_nil, or_false] at hv; subst hv
    exact ⟨1, -1, by norm_num, by norm_num, by norm_num, by norm_num⟩
  · simp at hv

/-- Prices in cents: with unit 1/100 the prices of the outcome are whole cents. -/
example : InUnits (1 / 100) MAX_VALUE ∧ (auction floatTreeSolver ⟨[⟨"buyer", [27 / 4, 61 / 10, 17 / 2]⟩, ⟨"seller", [-4 / 5, -63 / 20]⟩, ⟨"A", [-2, -3, -11]⟩, ⟨"B", [-1, -2, -8]⟩]⟩ floatTreeStruct 100).map
    (fun o => o.map (fun t => t.prices)) = .ok (some [63 / 20, -63 / 20, -43 / 20, -1]) := by
  constructor
  · exact ⟨10000000000, by norm_num [MAX_VALUE]⟩
  · decide +kernel

end Auctions.Props
