import Verif.Proofs.FloatingMcAfee
import Verif.Proofs.FloatingRounding

set_option autoImplicit false

/-!
# C95: Python's floating-point arithmetic makes no difference for whole-number reports

The other theorems are about exact numbers. Here the same functions run with a rounding after every operation.
-/

namespace Auctions.Props

open Auctions Auctions.Spec Auctions.Floating

/-- The rounding of Python's floats, and rounding towards zero, are such roundings. -/
theorem python_rounding : Rounding nearestFloat ∧ Rounding towardsZero := ⟨nearestFloat_rounding, towardsZero_rounding⟩

section
variable {fl : ℚ → ℚ} (hf : Rounding fl) {m : Market} {r : List ℕ} {M : ℕ} (h : WholeReports m r M)
include hf h

/-- The optimal trade and the remaining market are exactly the same. -/
theorem float_optimal_trade (maxIterations : ℕ) (includeZero : Bool) :
    Floating.optimalTrade fl m r maxIterations includeZero = m.optimalTrade r maxIterations includeZero :=
  (optimalTrade_eq' hf h.recipe m h.whole maxIterations includeZero).1

/-- The gain of the optimal trade is exactly the same, if the number of traders times the largest report is at most `2 ^ 53`. -/
theorem float_optimal_gain {maxIterations : ℕ} {includeZero : Bool} {t : TradeWithMaterialBalance} {m' : Market}
    (ht : m.optimalTrade r maxIterations includeZero = .ok (t, m')) (hb : M * (t.numOfDeals * r.sum) ≤ 2 ^ 53) :
    Floating.materialGain fl t = t.gainFromTrade := by
  obtain ⟨h1, -⟩ := (optimalTrade_eq' hf h.recipe m h.whole maxIterations includeZero).2 t m' ht
  have hlist : t.procurementSets.map (flSum fl) = t.procurementSets.map List.sum :=
    List.map_congr_left fun ps hps => (flSum_ps hf h.recipe (h1 ps hps).1 (h1 ps hps).2).1
  unfold Floating.materialGain TradeWithMaterialBalance.gainFromTrade
  rw [hlist]
  refine (flSum_eq hf (B := M * r.sum) ?_ ?_).1
  · intro x hx
    obtain ⟨ps, hps, rfl⟩ := List.mem_map.1 hx
    exact (flSum_ps hf h.recipe (h1 ps hps).1 (h1 ps hps).2).2
  · rw [List.length_map]
    unfold TradeWithMaterialBalance.numOfDeals at hb
    refine le_trans (le_of_eq ?_) hb
    ring

/-- The ascending auction: the same remaining agents, number of deals and errors, and each price is the exact price, rounded once. -/
theorem float_ascending (fuel maxIterations : ℕ) :
    Floating.ascendingAuction fl m r fuel maxIterations = (Ascending.auction m r fuel maxIterations).map (Option.map (withRoundedPrices fl)) :=
  (ascending_eq hf h.recipe h.constant h.float h.sizes h.whole fuel maxIterations).1

/-- With recipes of powers of two (such as 0 and 1), the ascending auction is exactly the same. -/
theorem float_ascending_exact (hr : ∀ n ∈ r, BinaryNumber n) (fuel maxIterations : ℕ) :
    Floating.ascendingAuction fl m r fuel maxIterations = Ascending.auction m r fuel maxIterations := by
  rw [float_ascending hf h]
  have h2 := (ascending_eq hf h.recipe h.constant h.float h.sizes h.whole fuel maxIterations).2 hr
  cases he : Ascending.auction m r fuel maxIterations with
  | error e => rfl
  | ok o =>
    cases o with
    | none => rfl
    | some t =>
      have := FloatPrices.round hf (h2 t he)
      simp only [Except.map, Option.map]
      rw [show withRoundedPrices fl t = t from this]

/-- The trade reduction: the same traders, number of deals and errors, and each price is the exact price, rounded once. -/
theorem float_trade_reduction (includingGft0 : Bool) :
    Floating.tradeReduction fl m r includingGft0 = (TradeReduction.tradeReduction m r includingGft0).map (withRoundedPrices fl) :=
  (tradeReduction_eq hf h.recipe h.constant h.float h.sizes h.whole includingGft0).1

/-- With recipes of powers of two, the trade reduction is exactly the same. -/
theorem float_trade_reduction_exact (hr : ∀ n ∈ r, BinaryNumber n) (includingGft0 : Bool) :
    Floating.tradeReduction fl m r includingGft0 = TradeReduction.tradeReduction m r includingGft0 := by
  rw [float_trade_reduction hf h]
  have h2 := (tradeReduction_eq hf h.recipe h.constant h.float h.sizes h.whole includingGft0).2 hr
  cases he : TradeReduction.tradeReduction m r includingGft0 with
  | error e => rfl
  | ok t =>
    have := FloatPrices.round hf (h2 t he)
    simp only [Except.map]
    rw [show withRoundedPrices fl t = t from this]

/-- McAfee's protocol: the same traders, number of deals and errors, and each price is the exact price, rounded once. -/
theorem float_mcafee (priceHeuristic : Bool) :
    Floating.mcafeeTradeReduction fl m r priceHeuristic = (McAfee.mcafeeTradeReduction m r priceHeuristic).map (withRoundedPrices fl) :=
  (mcafee_float_eq hf h.recipe h.constant h.sizes h.whole priceHeuristic).1

/-- With a number of categories that is a power of two (such as buyers and sellers), McAfee's protocol is exactly the same. -/
theorem float_mcafee_exact (hn : BinaryNumber m.numCategories) (priceHeuristic : Bool) :
    Floating.mcafeeTradeReduction fl m r priceHeuristic = McAfee.mcafeeTradeReduction m r priceHeuristic := by
  rw [float_mcafee hf h]
  have h2 := (mcafee_float_eq hf h.recipe h.constant h.sizes h.whole priceHeuristic).2 hn
  cases he : McAfee.mcafeeTradeReduction m r priceHeuristic with
  | error e => rfl
  | ok t =>
    have := FloatPrices.round hf (h2 t he)
    simp only [Except.map]
    rw [show withRoundedPrices fl t = t from this]

end

/-- A number of absolute value at most `A`, rounded once, is less than `1 / 2 ^ k` away, when `A * 2 ^ k` is at most `2 ^ 53`. -/
theorem float_near {fl : ℚ → ℚ} (hf : Rounding fl) {q : ℚ} {A k : ℕ} (hq : |q| ≤ A) (hA : A * 2 ^ k ≤ 2 ^ 53) (hk : k ≤ 1074) : |fl q - q| < 1 / 2 ^ k := by
  have hp : (0 : ℚ) < 2 ^ k := by positivity
  rw [abs_le] at hq
  have hA' : (A : ℚ) * 2 ^ k ≤ 2 ^ 53 := by exact_mod_cast hA
  have h1 : -(2 ^ 53 : ℚ) ≤ q * 2 ^ k := by
    have := mul_le_mul_of_nonneg_right hq.1 hp.le
    linarith
  have h2 : q * 2 ^ k ≤ 2 ^ 53 := (mul_le_mul_of_nonneg_right hq.2 hp.le).trans hA'
  have hfl : |⌊q * 2 ^ k⌋| ≤ 2 ^ 53 := by
    rw [abs_le]
    refine ⟨Int.le_floor.2 (by push_cast; exact h1), ?_⟩
    have := (Int.floor_le (q * 2 ^ k)).trans h2
    exact_mod_cast this
  have hce : |⌈q * 2 ^ k⌉| ≤ 2 ^ 53 := by
    rw [abs_le]
    refine ⟨?_, Int.ceil_le.2 (by push_cast; exact h2)⟩
    have := h1.trans (Int.le_ceil (q * 2 ^ k))
    exact_mod_cast this
  have e1 := hf.exact _ (double_grid hk hfl)
  have e2 := hf.exact _ (double_grid hk hce)
  have m1 := hf.monotone ((⌊q * 2 ^ k⌋ : ℚ) / 2 ^ k) q (by rw [div_le_iff₀ hp]; exact Int.floor_le _)
  have m2 := hf.monotone q ((⌈q * 2 ^ k⌉ : ℚ) / 2 ^ k) (by rw [le_div_iff₀ hp]; exact Int.le_ceil _)
  rw [e1] at m1
  rw [e2] at m2
  have l1 : q - 1 / 2 ^ k < (⌊q * 2 ^ k⌋ : ℚ) / 2 ^ k := by
    rw [lt_div_iff₀ hp, sub_mul, one_div, inv_mul_cancel₀ hp.ne']
    exact Int.sub_one_lt_floor _
  have l2 : (⌈q * 2 ^ k⌉ : ℚ) / 2 ^ k < q + 1 / 2 ^ k := by
    rw [div_lt_iff₀ hp, add_mul, one_div, inv_mul_cancel₀ hp.ne']
    exact Int.ceil_lt_add_one _
  rw [abs_lt]
  constructor <;> linarith

/-! ### Examples -/

/-- Three buyers, six sellers; a deal takes one buyer and three sellers. -/
def floatMarket : Market := ⟨[⟨"buyer", [20, 16, 9]⟩, ⟨"seller", [-1, -2, -3, -4, -5, -6]⟩]⟩

theorem floatMarket_whole : WholeReports floatMarket [1, 3] 100000000 where
  whole := by
    intro c hc v hv
    simp only [floatMarket, List.mem_cons, List.not_mem_nil, or_false] at hc
    rcases hc with rfl | rfl <;> simp only [List.mem_cons, List.not_mem_nil, or_false] at hv
    · rcases hv with rfl | rfl | rfl
      · exact ⟨20, by norm_num, by norm_num⟩
      · exact ⟨16, by norm_num, by norm_num⟩
      · exact ⟨9, by norm_num, by norm_num⟩
    · rcases hv with rfl | rfl | rfl | rfl | rfl | rfl
      · exact ⟨-1, by norm_num, by norm_num⟩
      · exact ⟨-2, by norm_num, by norm_num⟩
      · exact ⟨-3, by norm_num, by norm_num⟩
      · exact ⟨-4, by norm_num, by norm_num⟩
      · exact ⟨-5, by norm_num, by norm_num⟩
      · exact ⟨-6, by norm_num, by norm_num⟩
  constant := le_rfl
  float := by norm_num
  recipe := by norm_num
  sizes := by decide +kernel

/-- The price `-16/3` is not a float; Python's auction returns the float that is nearest to it. -/
example : Ascending.auction floatMarket [1, 3] 20 = .ok (some ⟨[⟨"buyer", [20]⟩, ⟨"seller", [-1, -2, -3, -4, -5]⟩], [1, 3], some [16, -16 / 3], 1⟩) ∧
    Floating.ascendingAuction nearestFloat floatMarket [1, 3] 20 =
      .ok (some ⟨[⟨"buyer", [20]⟩, ⟨"seller", [-1, -2, -3, -4, -5]⟩], [1, 3], some [16, -6004799503160661 / 2 ^ 50], 1⟩) := by
  constructor <;> decide +kernel

example : TradeReduction.tradeReduction floatMarket [1, 3] = .ok ⟨[⟨"buyer", [20]⟩, ⟨"seller", [-1, -2, -3, -4, -5]⟩], [1, 3], some [16, -16 / 3], 1⟩ ∧
    Floating.tradeReduction nearestFloat floatMarket [1, 3] =
      .ok ⟨[⟨"buyer", [20]⟩, ⟨"seller", [-1, -2, -3, -4, -5]⟩], [1, 3], some [16, -6004799503160661 / 2 ^ 50], 1⟩ := by
  constructor <;> decide +kernel

/-- Buyers, sellers and mediators. -/
def floatTriple : Market := ⟨[⟨"buyer", [20, 15, 11]⟩, ⟨"seller", [-1, -2, -7]⟩, ⟨"mediator", [-1, -2, -8]⟩]⟩

theorem floatTriple_whole : WholeReports floatTriple [1, 1, 1] 100000000 where
  whole := by
    intro c hc v hv
    simp only [floatTriple, List.mem_cons, List.not_mem_nil, or_false] at hc
    rcases hc with rfl | rfl | rfl <;> simp only [List.mem_cons, List.not_mem_nil, or_false] at hv <;> rcases hv with rfl | rfl | rfl
    · exact ⟨20, by norm_num, by norm_num⟩
    · exact ⟨15, by norm_num, by norm_num⟩
    · exact ⟨11, by norm_num, by norm_num⟩
    · exact ⟨-1, by norm_num, by norm_num⟩
    · exact ⟨-2, by norm_num, by norm_num⟩
    · exact ⟨-7, by norm_num, by norm_num⟩
    · exact ⟨-1, by norm_num, by norm_num⟩
    · exact ⟨-2, by norm_num, by norm_num⟩
    · exact ⟨-8, by norm_num, by norm_num⟩
  constant := le_rfl
  float := by norm_num
  recipe := by norm_num
  sizes := by decide +kernel

example : Floating.mcafeeTradeReduction nearestFloat floatTriple [1, 1, 1] = .ok ⟨[⟨"buyer", [20, 15]⟩, ⟨"seller", [-1, -2]⟩, ⟨"mediator", [-1, -2]⟩], [1, 1, 1],
    some [4878899596318037 / 2 ^ 49, -4878899596318037 / 2 ^ 49, -4878899596318037 / 2 ^ 49], 2⟩ := by decide +kernel

/-- The recipe consists of powers of two, so that the other auctions have no rounding at all on this market. -/
example : Floating.ascendingAuction nearestFloat floatTriple [1, 1, 1] 100 = Ascending.auction floatTriple [1, 1, 1] 100 ∧
    Floating.tradeReduction nearestFloat floatTriple [1, 1, 1] = TradeReduction.tradeReduction floatTriple [1, 1, 1] :=
  ⟨float_ascending_exact python_rounding.1 floatTriple_whole (fun n hn => Or.inr ⟨0, by simpa using hn⟩) 100 _,
    float_trade_reduction_exact python_rounding.1 floatTriple_whole (fun n hn => Or.inr ⟨0, by simpa using hn⟩) _⟩

/-- A limit on the size of the reports is needed: a gain of 1 disappears in the rounding. -/
theorem float_limit : ∃ (m : Market) (r : List ℕ), (∀ c ∈ m.categories, ∀ v ∈ c.values, ∃ z : ℤ, v = z) ∧
    Floating.optimalTrade nearestFloat m r 10 false ≠ m.optimalTrade r 10 false := by
  refine ⟨⟨[⟨"buyer", [2 ^ 53]⟩, ⟨"partner", [1]⟩, ⟨"seller", [-2 ^ 53]⟩]⟩, [1, 1, 1], ?_, by decide +kernel⟩
  intro c hc v hv
  simp only [List.mem_cons, List.not_mem_nil, or_false] at hc
  rcases hc with rfl | rfl | rfl <;> simp only [List.mem_cons, List.not_mem_nil, or_false] at hv <;> subst hv
  · exact ⟨2 ^ 53, by norm_num⟩
  · exact ⟨1, by norm_num⟩
  · exact ⟨-2 ^ 53, by norm_num⟩

end Auctions.Props
