import Verif.Proofs.IntegerPrices
import Verif.Props.IntegerTree
import Verif.Props.TreeAuction

set_option autoImplicit false

/-!
# C42 — the explicit initial prices of `prices_integer.py`
-/

namespace Auctions.Props

open Auctions Spec IntegerPrices

theorem exists_depth {recipes : List (List ℕ)} (hne : recipes ≠ []) : ∃ L, IsGreatest {s | ∃ r ∈ recipes, r.sum = s} L := by
  cases recipes with
  | nil => exact absurd rfl hne
  | cons r rs =>
    obtain ⟨h1, h2⟩ := foldl_max_spec (rs.map List.sum) r.sum
    refine ⟨(rs.map List.sum).foldl max r.sum, ?_, ?_⟩
    · have : (rs.map List.sum).foldl max r.sum ∈ (r :: rs).map List.sum := by simpa using h1
      exact List.mem_map.1 this
    · rintro s ⟨q, hq, rfl⟩
      apply h2
      have := List.mem_map_of_mem (f := List.sum) hq
      simpa using this

/-- **C42**. If the last category used by each recipe is used by no other recipe, `calculate_initial_prices` returns prices that are at most the
(non-positive) bound and give every recipe the same sum: the bound times the largest number of agents in a recipe. -/
theorem integer_initial_prices {recipes : List (List ℕ)} {bound : ℚ} {n : ℕ} (hb : bound ≤ 0) (hne : recipes ≠ [])
    (hlen : ∀ r ∈ recipes, r.length = n) (hown : OwnLastCategories recipes) :
    ∃ p, calculateInitialPrices recipes bound = .ok p ∧ InitialPrices recipes bound p ∧
      ∀ L : ℕ, IsGreatest {s | ∃ r ∈ recipes, r.sum = s} L → ∀ r ∈ recipes, recipeSum r p = bound * L := by
  obtain ⟨L, hL⟩ := exists_depth hne
  obtain ⟨p, h1, h2, h3, h4⟩ := calculateInitialPrices_spec hb hne hlen hown hL
  refine ⟨p, h1, ⟨fun r hr => by rw [h2]; exact hlen r hr, h3, _, h4⟩, ?_⟩
  intro L' hL'
  rw [hL'.unique hL]; exact h4

/-- **C42**. No prices at most the bound give every recipe a larger common sum. -/
theorem integer_initial_prices_largest {recipes : List (List ℕ)} {bound : ℚ} {n : ℕ} (hb : bound ≤ 0) (hne : recipes ≠ [])
    (hlen : ∀ r ∈ recipes, r.length = n) (hown : OwnLastCategories recipes) : SolvesAt calculateInitialPrices recipes bound := by
  obtain ⟨p, h1, h2, h3⟩ := integer_initial_prices hb hne hlen hown
  refine ⟨p, h1, h2, ?_⟩
  rintro p' ⟨g1, g2, s, g3⟩
  obtain ⟨L, hL⟩ := exists_depth hne
  intro r hr
  rw [h3 L hL r hr, g3 r hr]
  obtain ⟨q, hq, rfl⟩ := hL.1
  rw [← g3 q hq]
  have hq1 := g1 q hq
  clear h3 hL g3 hq
  have : ∀ (q : List ℕ) (x : List ℚ), q.length = x.length → (∀ y ∈ x, y ≤ bound) → recipeSum q x ≤ bound * q.sum := by
    intro q
    induction q with
    | nil => intro x _ _; simp
    | cons a q ih =>
      intro x hx hle
      cases x with
      | nil => simp at hx
      | cons y x =>
        have e1 := ih x (by simpa using hx) (fun z hz => hle z (by simp [hz]))
        have e2 := hle y (by simp)
        rw [recipeSum_cons, List.sum_cons]
        push_cast
        have : (a : ℚ) * y ≤ a * bound := mul_le_mul_of_nonneg_left e2 (by positivity)
        linarith
  exact this q p' hq1 g2

theorem weightedIndicator_getD {n : ℕ} {cnt : ℕ → ℕ} {p : List ℕ} {i : ℕ} :
    (weightedIndicator n cnt p).getD i 0 = if i < n ∧ i ∈ p then cnt i else 0 := by
  unfold weightedIndicator
  by_cases hi : i < n
  · simp [hi]
  · simp [hi, List.getD_eq_getElem?_getD]

theorem weightedIndicator_last {n : ℕ} {cnt : ℕ → ℕ} {p : List ℕ} {x : ℕ} (hp : p.Pairwise (· < ·)) (hlt : ∀ i ∈ p, i < n)
    (hc : ∀ i ∈ p, 0 < cnt i) (hx : p.getLast? = some x) : ∀ j, LastCategory (weightedIndicator n cnt p) j ↔ j = x := by
  have hxm : x ∈ p := List.mem_of_getLast? hx
  have hmax : ∀ y ∈ p, y ≤ x := by
    intro y hy
    obtain ⟨l, rfl⟩ := List.getLast?_eq_some_iff.1 hx
    rw [List.mem_append, List.mem_singleton] at hy
    rcases hy with hy | rfl
    · exact ((List.pairwise_append.1 hp).2.2 y hy x (by simp)).le
    · exact le_refl _
  have hlast : LastCategory (weightedIndicator n cnt p) x := by
    constructor
    · rw [weightedIndicator_getD, if_pos ⟨hlt x hxm, hxm⟩]; exact hc x hxm
    · intro k hk
      rw [weightedIndicator_getD, if_neg]
      rintro ⟨-, hkp⟩
      have := hmax k hkp; omega
  intro j
  constructor
  · intro hj
    rcases lt_trichotomy j x with h | h | h
    · have := hj.2 x h
      have := hlast.1
      omega
    · exact h
    · have := hlast.2 j h
      have := hj.1
      omega
  · rintro rfl; exact hlast

/-- Recipes of trees whose category indices increase along every path. -/
theorem increasing_tree_ownLast {t : RecipeTree} {n : ℕ} {cnt : ℕ → ℕ} (hn : (treeNodes t).Nodup) (hlt : ∀ i ∈ treeNodes t, i < n)
    (hc : ∀ i ∈ treeNodes t, 0 < cnt i) (hinc : ∀ p, TreePath t p → p.Pairwise (· < ·)) :
    OwnLastCategories (t.pathsToLeaf.map (weightedIndicator n cnt)) := by
  have hsub : ∀ p ∈ t.pathsToLeaf, ∀ i ∈ p, i ∈ treeNodes t := by
    intro p hp i hi
    rw [← treeNodes_eq]; exact isPath_subset (mem_pathsToLeaf.1 hp) i hi
  have hlast : ∀ p ∈ t.pathsToLeaf, ∃ x, p.getLast? = some x ∧ ∀ j, LastCategory (weightedIndicator n cnt p) j ↔ j = x := by
    intro p hp
    obtain ⟨x, hx⟩ : ∃ y, p.getLast? = some y := by
      cases hl : p.getLast? with
      | none => rw [List.getLast?_eq_none_iff] at hl; exact absurd hl (isPath_ne_nil (mem_pathsToLeaf.1 hp))
      | some y => exact ⟨y, rfl⟩
    exact ⟨x, hx, weightedIndicator_last (hinc p (mem_paths.1 hp)) (fun i hi => hlt i (hsub p hp i hi))
      (fun i hi => hc i (hsub p hp i hi)) hx⟩
  constructor
  · intro r hr
    obtain ⟨p, hp, rfl⟩ := List.mem_map.1 hr
    obtain ⟨x, -, h⟩ := hlast p hp
    exact ⟨x, (h x).2 rfl⟩
  · rw [List.pairwise_map]
    refine (paths_own_last (f := t.forest) (by rw [treeNodes_eq]; exact hn)).imp_of_mem ?_
    intro p q hp hq h j
    obtain ⟨x, hx, hx'⟩ := hlast p hp
    obtain ⟨y, hy, hy'⟩ := hlast q hq
    constructor
    · intro hj
      rw [hx'] at hj
      subst hj
      rw [weightedIndicator_getD, if_neg]
      rintro ⟨-, hm⟩; exact h.1 j hx hm
    · intro hj
      rw [hy'] at hj
      subst hj
      rw [weightedIndicator_getD, if_neg]
      rintro ⟨-, hm⟩; exact h.2 j hy hm

/-- **C42**. For a tree of different categories whose indices increase along every path (as in a structure numbered from the root to the leaves),
with positive counts, the initial prices are balanced and the best possible. -/
theorem integer_initial_prices_tree {n : ℕ} {x y : PyObj} {rest : List PyObj} {counts : List ℕ} {bound : ℚ} (hb : bound ≤ 0)
    (he : rest.length % 2 = 0) {t : RecipeTree} (ht : IntegerTree.init n (x :: y :: rest) counts = .ok t) (hn : (treeNodes t).Nodup)
    (hc : ∀ i ∈ treeNodes t, 0 < IntegerTree.countOf counts i) (hinc : ∀ p, TreePath t p → p.Pairwise (· < ·)) :
    ∃ recipes, IntegerTree.recipes t n counts = .ok recipes ∧ SolvesAt calculateInitialPrices recipes bound := by
  refine ⟨_, integer_tree_recipes he ht, integer_initial_prices_largest (n := n) hb ?_ ?_ ?_⟩
  · simpa using paths_ne_nil t
  · intro r hr
    obtain ⟨p, -, rfl⟩ := List.mem_map.1 hr
    simp [weightedIndicator]
  · obtain ⟨-, hnode⟩ := (integer_tree_construction he).1 ht
    exact increasing_tree_ownLast hn (fun i hi => (hnode i hi).1) hc hinc

/-- **C42**, the condition is needed: the tree `[5, [2, [3, None], 1, None]]` of different categories has recipes with the common last category 5,
and the prices returned give its two recipes different sums. -/
theorem integer_initial_prices_unbalanced :
    let t : RecipeTree := ⟨5, .cons 2 (.cons 3 .nil .nil) (.cons 1 .nil .nil)⟩
    let recipes := [[0, 0, 1, 1, 0, 1], [0, 1, 0, 0, 0, 1]]
    IntegerTree.init 6 [.int 5, .list [.int 2, .list [.int 3, .none], .int 1, .none]] [] = .ok t ∧ (treeNodes t).Nodup ∧
      IntegerTree.recipes t 6 [] = .ok recipes ∧
      calculateInitialPrices recipes (-100) = .ok [-100, -100, -100, -100, -100, -200] ∧
      recipes.map (fun r => recipeSum r [-100, -100, -100, -100, -100, -200]) = [-400, -300] := by
  refine ⟨by decide +kernel, by decide, by decide +kernel, by decide +kernel, by decide +kernel⟩

/-- **C42**, the condition is needed: with the shorter path first, the same kind of tree, `[5, [1, None, 2, [3, None]]]`, raises `ValueError`,
although there are prices as required (C33). -/
theorem integer_initial_prices_value_error :
    let recipes := [[0, 1, 0, 0, 0, 1], [0, 0, 1, 1, 0, 1]]
    IntegerTree.init 6 [.int 5, .list [.int 1, .none, .int 2, .list [.int 3, .none]]] []
        = .ok ⟨5, .cons 1 .nil (.cons 2 (.cons 3 .nil .nil) .nil)⟩ ∧
      IntegerTree.recipes ⟨5, .cons 1 .nil (.cons 2 (.cons 3 .nil .nil) .nil)⟩ 6 [] = .ok recipes ∧
      calculateInitialPrices recipes (-100) = .error .valueError ∧
      ∃ p, InitialPrices recipes (-100) p := by
  refine ⟨by decide +kernel, by decide +kernel, by decide +kernel, [-100, -200, -100, -100, -100, -100], ?_, ?_, -300, ?_⟩
  · decide
  · decide +kernel
  · decide +kernel

/-- Non-vacuity of C42: counts 1, 2, 3 on the tree `[0, [1, None, 2, None]]`. -/
example :
    let recipes := [[1, 2, 0], [1, 0, 3]]
    IntegerTree.recipes ⟨0, .cons 1 .nil (.cons 2 .nil .nil)⟩ 3 [1, 2, 3] = .ok recipes ∧
      OwnLastCategories recipes ∧ calculateInitialPrices recipes (-100) = .ok [-100, -150, -100] := by
  refine ⟨by decide +kernel, ?_, by decide +kernel⟩
  have := increasing_tree_ownLast (t := ⟨0, .cons 1 .nil (.cons 2 .nil .nil)⟩) (n := 3) (cnt := IntegerTree.countOf [1, 2, 3])
    (by decide) (by decide) (by decide) (by
      intro p hp
      have := mem_paths.2 hp
      have h2 : (⟨0, .cons 1 .nil (.cons 2 .nil .nil)⟩ : RecipeTree).pathsToLeaf = [[0, 1], [0, 2]] := by decide
      rw [h2] at this
      simp only [List.mem_cons, List.not_mem_nil, or_false] at this
      rcases this with rfl | rfl <;> decide)
  exact this

end Auctions.Props
