import Verif.Model.Markets
import Verif.Model.Experiment
import Verif.Spec.Prices
import Mathlib.Data.Int.Log

set_option autoImplicit false

/-!
# Specification: floating-point arithmetic on whole-number reports
-/

namespace Auctions.Spec

/-- The finite numbers of Python's type `float` (IEEE 754, 64 bits). -/
def Double (q : ℚ) : Prop := ∃ m e : ℤ, |m| < 2 ^ 53 ∧ -1074 ≤ e ∧ e ≤ 971 ∧ q = m * 2 ^ e

/-- What is assumed of the rounding after each arithmetic operation (true of rounding to the nearest, and of rounding towards zero). -/
structure Rounding (fl : ℚ → ℚ) : Prop where
  exact : ∀ q, Double q → fl q = q
  monotone : ∀ x y, x ≤ y → fl x ≤ fl y
  float : ∀ q, |q| ≤ 2 ^ 53 → Double (fl q)
  symmetric : ∀ q, fl (-q) = -fl q

/-- The reports are whole numbers of absolute value at most `M`, at least the constant 100000000 of the program; the numbers of agents and the recipe are not very large. -/
structure WholeReports (m : Market) (r : List ℕ) (M : ℕ) : Prop where
  whole : ∀ c ∈ m.categories, ∀ v ∈ c.values, ∃ z : ℤ, v = z ∧ |z| ≤ M
  constant : 100000000 ≤ M
  float : M ≤ 2 ^ 53
  recipe : 4 * M * r.sum ≤ 2 ^ 53
  sizes : ∀ c ∈ m.categories, ∀ n ∈ r, 4 * (c.values.length + 1) * n ^ 2 ≤ 2 ^ 53

/-- The reports are arbitrary floats (such as decimal numbers, rounded) of absolute value at most `M`, not below the constant -100000000 of the program. The numbers that occur in a sum
of prices are floats with (at least) `k` digits after the binary point. -/
structure FloatReports (m : Market) (r : List ℕ) (M k : ℕ) : Prop where
  float : ∀ c ∈ m.categories, ∀ v ∈ c.values, Double v ∧ |v| ≤ M ∧ -100000000 ≤ v
  constant : 100000000 ≤ M
  digits : (M * r.sum + 1) * 2 ^ k ≤ 2 ^ 53
  categories : 2 * r.length + 4 ≤ 2 ^ k
  sizes : ∀ c ∈ m.categories, ∀ n ∈ r, 4 * (c.values.length + 1) * n ^ 2 ≤ 2 ^ 53

/-- Take one agent of each category, or instead of an agent the constant -100000000: the value of a deal of such agents is not within `ε` of zero. -/
def NoNearlyWorthlessDeal (m : Market) (r : List ℕ) (ε : ℚ) : Prop :=
  ∀ p : List ℚ, List.Forall₂ (fun (c : AgentCategory) (x : ℚ) => x = -100000000 ∨ x ∈ c.values) m.categories p → ε < |recipeSum r p|

/-- For recipe trees: whole reports within ±100000000, at most `A` agents in a category. -/
structure WholeTreeReports (m : Market) (A : ℕ) : Prop where
  whole : ∀ c ∈ m.categories, ∀ v ∈ c.values, ∃ z : ℤ, v = z ∧ |z| ≤ 100000000
  agents : ∀ c ∈ m.categories, c.values.length ≤ A
  gains : 100000000 * m.categories.length * (A + 1) ≤ 2 ^ 53

/-- Whole prices, not below `-P`. -/
def WholePrices (P : ℕ) (p0 : List ℚ) : Prop := ∀ q ∈ p0, ∃ z : ℤ, q = z ∧ -P ≤ z

/-- A whole multiple of the unit `u`. -/
def InUnits (u q : ℚ) : Prop := ∃ z : ℤ, q = z * u

/-- `calculate_initial_prices` computed with floats: a price per category, between `-P` and `bound`, and the price sums of all recipes are equal up to `ε`. -/
def NearInitialPrices (ε P : ℚ) (recipes : List (List ℕ)) (bound : ℚ) (p : List ℚ) : Prop :=
  (∀ r ∈ recipes, r.length = p.length) ∧ (∀ x ∈ p, -P ≤ x ∧ x ≤ bound) ∧ ∃ s, ∀ r ∈ recipes, |recipeSum r p - s| ≤ ε

/-- For recipe trees: arbitrary reports (such as decimal numbers) within ±100000000, initial prices not below `-P`; sums of as many prices as there are categories have `k` digits after the
binary point. -/
structure DecimalTreeReports (m : Market) (P k : ℕ) : Prop where
  bounds : ∀ c ∈ m.categories, ∀ v ∈ c.values, |v| ≤ 100000000
  constant : 100000000 ≤ P
  digits : (m.categories.length + 4) * (P + 2) * 2 ^ k ≤ 2 ^ 53
  categories : 4 * m.categories.length + 4 ≤ 2 ^ k

/-- The same trade, with every price rounded. -/
def withRoundedPrices (fl : ℚ → ℚ) (t : TradeWithSinglePrice) : TradeWithSinglePrice := { t with prices := t.prices.map (List.map fl) }

/-- A power of two (or zero): division by such a number does not round a whole number of moderate size. -/
def BinaryNumber (n : ℕ) : Prop := n = 0 ∨ ∃ k : ℕ, n = 2 ^ k

/-- A nonnegative number rounded to 53 binary digits; `round` says how a number is rounded to an integer. -/
def roundDigits (round : ℚ → ℤ) (x : ℚ) : ℚ :=
  (round (x / 2 ^ max (Int.log 2 x - 52) (-1074)) : ℚ) * 2 ^ max (Int.log 2 x - 52) (-1074)

/-- A number rounded to 53 binary digits. -/
def roundSigned (round : ℚ → ℤ) (q : ℚ) : ℚ := if q < 0 then -roundDigits round (-q) else roundDigits round q

/-- The rounding of Python's `float` (to the nearest, and in the middle to the even one). Overflow, which does not arise up to `2 ^ 53`, is not considered. -/
def nearestFloat (q : ℚ) : ℚ := roundSigned pyRound q

/-- Rounding towards zero. -/
def towardsZero (q : ℚ) : ℚ := roundSigned (fun x => ⌊x⌋) q

end Auctions.Spec
