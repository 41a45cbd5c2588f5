import Verif.Spec.View
import Mathlib.Algebra.BigOperators.Group.Finset.Basic

set_option autoImplicit false

/-!
# Specification for the old auction with several recipes of zeros and ones
-/

namespace Auctions.Spec

/-- Recipe number `k` needs agents of category `c`. -/
def Uses (recipes : List (List ℕ)) (k c : ℕ) : Prop := 0 < (recipes.getD k []).getD c 0

instance (recipes : List (List ℕ)) (k c : ℕ) : Decidable (Uses recipes k c) := by unfold Uses; infer_instance

/-- The recipes for `n` categories that the auction accepts: one number, 0 or 1, per category; and each category is needed by at most one recipe, or by all. -/
structure MultiRecipes (n : ℕ) (recipes : List (List ℕ)) : Prop where
  nonempty : recipes ≠ []
  length : ∀ r ∈ recipes, r.length = n
  binary : ∀ r ∈ recipes, ∀ x ∈ r, x = 0 ∨ x = 1
  shared : ∀ c < n, (∀ j < recipes.length, ∀ k < recipes.length, Uses recipes j c → Uses recipes k c → j = k) ∨ ∀ k < recipes.length, Uses recipes k c

/-- Category `c` is needed by recipe number `k` and by no other one. -/
def Owns (recipes : List (List ℕ)) (k c : ℕ) : Prop := Uses recipes k c ∧ ∀ j < recipes.length, Uses recipes j c → j = k

/-- Every recipe needs a category that no other one needs. -/
def AllOwn (recipes : List (List ℕ)) : Prop := ∀ k < recipes.length, ∃ c, Owns recipes k c

/-- Category `c` is needed by all of at least two recipes. -/
def SharedByAll (recipes : List (List ℕ)) (c : ℕ) : Prop := 2 ≤ recipes.length ∧ ∀ k < recipes.length, Uses recipes k c

/-- `deals k` procurement-sets of each recipe `k` can be formed from categories of these sizes. -/
def CanForm (recipes : List (List ℕ)) (size : ℕ → ℕ) (deals : ℕ → ℕ) : Prop :=
  ∀ c, ∑ k ∈ Finset.range recipes.length, (recipes.getD k []).getD c 0 * deals k ≤ size c

end Auctions.Spec
