import Verif.Model.Trade

set_option autoImplicit false

/-!
# Specification: trades whose gain Python computes with floating-point numbers
-/

namespace Auctions.Spec

/-- A trade with at most `N` remaining agents (enough for its deals), whose reports and prices have absolute value at most `M`; sums of twice these amounts have `k` digits after the binary point. -/
structure FloatTrade (t : TradeWithSinglePrice) (M N k : ℕ) : Prop where
  reports : ∀ c ∈ t.categories, ∀ v ∈ c.values, |v| ≤ M
  prices : ∀ ps, t.prices = some ps → ∀ p ∈ ps, |p| ≤ M
  trading : ∀ (i n : ℕ) (c : AgentCategory), t.psRecipe[i]? = some n → t.categories[i]? = some c → n * t.numOfDealsCache ≤ c.values.length
  agents : (t.categories.map (fun c => c.values.length)).sum ≤ N
  digits : (2 * M * N + 1) * 2 ^ k ≤ 2 ^ 53
  size : N + 5 * t.categories.length ≤ 2 ^ k

end Auctions.Spec
