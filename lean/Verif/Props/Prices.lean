import Verif.Proofs.Simultaneous

set_option autoImplicit false

/-!
# C14, C15 — properties of the price vectors
-/

namespace Auctions.Props

open Auctions Spec

/-- **C14**, category with a positive count: the raise stops at the bound. -/
theorem raise_up_to_balance (p : AscendingPriceVector) (i : ℕ) (x bound : ℚ) {ri : ℕ} {pi : ℚ}
    (hr : p.psRecipe[i]? = some ri) (hp : p.prices[i]? = some pi) (hpos : 0 < ri) :
    ∃ p', p.increasePriceUpToBalance i x bound = .ok p' ∧ p'.psRecipe = p.psRecipe ∧
      p'.prices.length = p.prices.length ∧ (∀ j, j ≠ i → p'.prices[j]? = p.prices[j]?) ∧
      recipeSum p.psRecipe p'.prices = min bound (recipeSum p.psRecipe (p.prices.set i x)) ∧
      (∃ y ≤ x, p'.prices[i]? = some y ∧ (p'.status ≠ some .stoppedAtZeroSum → y = x)) ∧
      (p'.status = some .stoppedAtZeroSum ↔ recipeSum p.psRecipe p'.prices = bound) ∧
      (p'.status = some .stoppedAtAgentValue ↔ recipeSum p.psRecipe p'.prices < bound) := by
  have hri : (ri : ℚ) ≠ 0 := by exact_mod_cast hpos.ne'
  have hri' : (0 : ℚ) < ri := by exact_mod_cast hpos
  have hi : i < p.prices.length := (List.getElem?_eq_some_iff.1 hp).1
  have hset := recipeSum_set hr hp x
  unfold AscendingPriceVector.increasePriceUpToBalance AscendingPriceVector.priceSumWithoutCategory
  simp only [pyGet_ok hr, pyGet_ok hp, bind, Except.bind, AscendingPriceVector.priceSum, dot_eq]
  by_cases hge : recipeSum p.psRecipe p.prices - ri * pi + ri * x ≥ bound
  · simp only [hge, if_true, pyDiv, hri, if_false]
    have hsum : recipeSum p.psRecipe
        (p.prices.set i ((bound - (recipeSum p.psRecipe p.prices - ri * pi)) / ri)) = bound := by
      rw [recipeSum_set hr hp]; field_simp; ring
    refine ⟨_, rfl, rfl, by simp, fun j hj => by rw [List.getElem?_set_ne (Ne.symm hj)], ?_,
      ⟨_, ?_, List.getElem?_set_self hi, by simp⟩, by simp [hsum], by simp [hsum]⟩
    · rw [hsum, hset, min_eq_left hge]
    · rw [div_le_iff₀ hri']; linarith
  · simp only [hge, if_false]
    have hlt := not_le.1 hge
    refine ⟨_, rfl, rfl, by simp, fun j hj => by rw [List.getElem?_set_ne (Ne.symm hj)], ?_,
      ⟨x, le_refl _, List.getElem?_set_self hi, by simp⟩, ?_, ?_⟩
    · rw [hset, min_eq_right hlt.le]
    · simp only [hset]
      constructor
      · intro h; simp at h
      · intro h; exact absurd h hlt.ne
    · simp only [hset]; exact ⟨fun _ => hlt, fun _ => trivial⟩

/-- **C14**, category with count 0: division by zero if the sum is already at the bound, otherwise the price is set and
the sum does not change. -/
theorem raise_unused_category (p : AscendingPriceVector) (i : ℕ) (x bound : ℚ) {pi : ℚ}
    (hr : p.psRecipe[i]? = some 0) (hp : p.prices[i]? = some pi) :
    (bound ≤ recipeSum p.psRecipe p.prices ∧ p.increasePriceUpToBalance i x bound = .error .zeroDivisionError) ∨
    (recipeSum p.psRecipe p.prices < bound ∧
      p.increasePriceUpToBalance i x bound
        = .ok { p with prices := p.prices.set i x, status := some .stoppedAtAgentValue } ∧
      recipeSum p.psRecipe (p.prices.set i x) = recipeSum p.psRecipe p.prices) := by
  have hset := recipeSum_set hr hp x
  simp only [Nat.cast_zero, zero_mul, sub_zero, add_zero] at hset
  unfold AscendingPriceVector.increasePriceUpToBalance AscendingPriceVector.priceSumWithoutCategory
  simp only [pyGet_ok hr, pyGet_ok hp, bind, Except.bind, AscendingPriceVector.priceSum, dot_eq]
  simp only [Nat.cast_zero, zero_mul, sub_zero, add_zero]
  by_cases hge : recipeSum p.psRecipe p.prices ≥ bound
  · left; simp [hge, pyDiv]
  · right; simp [hge, not_le.1 hge, hset]

/-- **C14**, the price sum before any raise: a new price vector, from one number or from a list of prices, has that number
(or these prices), the given recipe and no status, because no price has been raised yet. -/
theorem fresh_price_vector (recipe : List ℕ) (x : ℚ) (prices : List ℚ) :
    (AscendingPriceVector.init recipe x).psRecipe = recipe ∧
    (AscendingPriceVector.init recipe x).prices.length = recipe.length ∧
    (∀ y ∈ (AscendingPriceVector.init recipe x).prices, y = x) ∧
    (AscendingPriceVector.init recipe x).status = none ∧
    (AscendingPriceVector.init recipe x).priceSum = x * recipe.sum ∧
    (AscendingPriceVector.initList recipe prices).psRecipe = recipe ∧
    (AscendingPriceVector.initList recipe prices).prices = prices ∧
    (AscendingPriceVector.initList recipe prices).status = none ∧
    (AscendingPriceVector.initList recipe prices).priceSum = recipeSum recipe prices := by
  refine ⟨rfl, by simp [AscendingPriceVector.init], fun y hy => (List.mem_replicate.1 hy).2, rfl, ?_, rfl, rfl, rfl, ?_⟩
  · unfold AscendingPriceVector.priceSum AscendingPriceVector.init
    induction recipe with
    | nil => simp [dot]
    | cons r rs ih =>
      simp only [dot, List.length_cons, List.replicate_succ, List.zip_cons_cons, List.map_cons, List.sum_cons] at ih ⊢
      rw [ih]
      simp only [Nat.cast_add]
      ring
  · unfold AscendingPriceVector.priceSum
    rw [dot_eq]; rfl

/-- **C14**, the sum asked for in advance: `price_sum_after_increase` returns the price sum of the vector in which that one
price is replaced, and changes nothing. -/
theorem sum_after_increase (p : AscendingPriceVector) (i : ℕ) (x : ℚ) {ri : ℕ} {pi : ℚ}
    (hr : p.psRecipe[i]? = some ri) (hp : p.prices[i]? = some pi) :
    p.priceSumAfterIncrease i x = .ok (recipeSum p.psRecipe (p.prices.set i x)) := by
  unfold AscendingPriceVector.priceSumAfterIncrease AscendingPriceVector.priceSumWithoutCategory
  simp only [pyGet_ok hr, pyGet_ok hp, bind, Except.bind, AscendingPriceVector.priceSum, dot_eq]
  rw [recipeSum_set hr hp]

/-- Non-vacuity of C14: a raise that stops at the value, one that stops at the balance, and both outcomes for an unused
category (the first two are the doctest of `prices.py:76-92`). -/
example :
    let p : AscendingPriceVector := .initList [1, 2, 0] [-10, -6, 5]
    p.increasePriceUpToBalance 0 (-3) = .ok ⟨[1, 2, 0], [-3, -6, 5], some .stoppedAtAgentValue⟩ ∧
    p.increasePriceUpToBalance 1 6 = .ok ⟨[1, 2, 0], [-10, 5, 5], some .stoppedAtZeroSum⟩ ∧
    p.increasePriceUpToBalance 2 6 = .ok ⟨[1, 2, 0], [-10, -6, 6], some .stoppedAtAgentValue⟩ ∧
    p.increasePriceUpToBalance 2 6 (-30) = .error .zeroDivisionError := by
  decide +kernel

/-- All recipes have the same recipe-weighted price sum. -/
def AllBalanced (v : SimultaneousAscendingPriceVectors) (s : ℚ) : Prop :=
  ∀ r ∈ v.psRecipes, recipeSum r v.prices = s

/-- The documented domain of a simultaneous price vector: at least one recipe, binary recipes, one price per category. -/
structure WellFormed (v : SimultaneousAscendingPriceVectors) : Prop where
  nonempty : v.psRecipes ≠ []
  length : ∀ r ∈ v.psRecipes, r.length = v.prices.length
  binary : ∀ r ∈ v.psRecipes, ∀ x ∈ r, x = 0 ∨ x = 1

/-- **C15**. A call with existing categories either raises ValueError, exactly when some recipe does not contain exactly one
of the listed categories (counted with multiplicity), or it raises all listed categories by one common amount (once per
listing), leaves the others, keeps the recipes balanced with each other, moves their sum to
`min(bound, sum + smallest requested raise)`, and reports whether the bound was reached. -/
theorem simultaneous_raise (v : SimultaneousAscendingPriceVectors) (hwf : WellFormed v) {s : ℚ} (hbal : AllBalanced v s)
    (incs : List (ℕ × ℚ)) (bound : ℚ) (hidx : ∀ inc ∈ incs, inc.1 < v.prices.length) :
    ((∃ r ∈ v.psRecipes, (incs.filter (fun inc => r[inc.1]? = some 1)).length ≠ 1) ∧
      v.increasePrices incs bound = .error .valueError) ∨
    ((∀ r ∈ v.psRecipes, (incs.filter (fun inc => r[inc.1]? = some 1)).length = 1) ∧
      ∃ v' d, v.increasePrices incs bound = .ok v' ∧
        (∃ inc ∈ incs, inc.2 - v.prices.getD inc.1 0 = d) ∧ (∀ inc ∈ incs, d ≤ inc.2 - v.prices.getD inc.1 0) ∧
        WellFormed v' ∧ v'.psRecipes = v.psRecipes ∧ AllBalanced v' (min bound (s + d)) ∧
        (v'.status = some .stoppedAtZeroSum ↔ bound ≤ s + d) ∧
        (v'.status = some .stoppedAtAgentValue ↔ s + d < bound) ∧
        (∀ j < v.prices.length, v'.prices.getD j 0
          = v.prices.getD j 0 + min d (bound - s) * (incs.filter (fun inc => inc.1 = j)).length) ∧
        (∀ j, j ∉ incs.map Prod.fst → v'.prices.getD j 0 = v.prices.getD j 0)) := by
  rcases increasePrices_spec v incs bound hwf.nonempty hwf.length hwf.binary hidx with
    h | ⟨h1, d, delta, v', h2, h3, h4, h5, h6, h7, h8, h9, h10⟩
  · exact Or.inl h
  · right
    have hps : v.priceSum = s := by
      unfold SimultaneousAscendingPriceVectors.priceSum
      rw [dot_eq]
      have hne := hwf.nonempty
      cases hrs : v.psRecipes with
      | nil => exact absurd hrs hne
      | cons r rs => exact hbal r (by simp [hrs])
    rw [hps] at h4 h10
    refine ⟨h1, v', d, h5, h2, h3, ⟨?_, ?_, ?_⟩, h6, ?_, ?_, ?_, ?_, ?_⟩
    · rw [h6]; exact hwf.nonempty
    · rw [h6, h7]; exact hwf.length
    · rw [h6]; exact hwf.binary
    · intro r hr
      rw [h6] at hr
      rw [h9 r hr, hbal r hr, h4, min_comm bound, ← min_add_add_left]
      congr 1; ring
    · rw [h10, h4]
      by_cases hc : min d (bound - s) = bound - s
      · rw [if_pos hc]
        have := min_eq_right_iff.1 hc
        simp only [true_iff]; linarith
      · rw [if_neg hc]
        have : ¬ bound - s ≤ d := fun h => hc (min_eq_right h)
        simp only [Option.some.injEq, reduceCtorEq, false_iff, not_le]; linarith
    · rw [h10, h4]
      by_cases hc : min d (bound - s) = bound - s
      · rw [if_pos hc]
        have := min_eq_right_iff.1 hc
        simp only [Option.some.injEq, reduceCtorEq, false_iff, not_lt]; linarith
      · rw [if_neg hc]
        have : ¬ bound - s ≤ d := fun h => hc (min_eq_right h)
        simp only [true_iff]; linarith
    · intro j hj
      rw [h8 j hj, h4]; rfl
    · intro j hj
      by_cases hjl : j < v.prices.length
      · rw [h8 j hjl]
        have : listed incs j = 0 := by
          unfold listed
          rw [List.length_eq_zero_iff, List.filter_eq_nil_iff]
          intro inc hinc heq
          exact hj (List.mem_map.2 ⟨inc, hinc, by simpa using heq⟩)
        simp [this]
      · simp [show v.prices.length ≤ j by omega, show v'.prices.length ≤ j by omega]

/-- Non-vacuity of C15: recipes [1,1,0,0] and [1,0,1,1] (the doctest of `prices.py:176-198`). -/
example :
    let v : SimultaneousAscendingPriceVectors := ⟨[[1, 1, 0, 0], [1, 0, 1, 1]], [-30, -20, -10, -10], none⟩
    WellFormed v ∧ AllBalanced v (-50) ∧
    v.increasePrices [(0, -14)] = .ok ⟨v.psRecipes, [-14, -20, -10, -10], some .stoppedAtAgentValue⟩ ∧
    v.increasePrices [(1, 100), (2, 100)] = .ok ⟨v.psRecipes, [-30, 30, 40, -10], some .stoppedAtZeroSum⟩ ∧
    v.increasePrices [(1, 100)] = .error .valueError := by
  refine ⟨⟨by simp, by simp, by simp⟩, ?_, by decide +kernel, by decide +kernel, by decide +kernel⟩
  unfold AllBalanced; decide +kernel

/-- A sequence of calls to `increase_prices`. -/
def runIncreases (v : SimultaneousAscendingPriceVectors) (calls : List (List (ℕ × ℚ) × ℚ)) :
    Py SimultaneousAscendingPriceVectors :=
  calls.foldlM (fun v c => v.increasePrices c.1 c.2) v

/-- **C15**, histories: after any sequence of successful calls the recipes are balanced with each other. -/
theorem simultaneous_history (v : SimultaneousAscendingPriceVectors) (hwf : WellFormed v) {s : ℚ} (hbal : AllBalanced v s)
    (calls : List (List (ℕ × ℚ) × ℚ)) (hidx : ∀ c ∈ calls, ∀ inc ∈ c.1, inc.1 < v.prices.length)
    {v' : SimultaneousAscendingPriceVectors} (h : runIncreases v calls = .ok v') :
    WellFormed v' ∧ v'.psRecipes = v.psRecipes ∧ ∃ s', AllBalanced v' s' := by
  induction calls generalizing v s with
  | nil =>
    obtain rfl : v = v' := by simpa [runIncreases, pure, Except.pure] using h
    exact ⟨hwf, rfl, s, hbal⟩
  | cons c calls ih =>
    rcases simultaneous_raise v hwf hbal c.1 c.2 (hidx c (by simp)) with ⟨-, he⟩ | ⟨-, v1, d, he, -, -, hwf1, hrs, hbal1, hrest⟩
    · simp [runIncreases, he, bind, Except.bind] at h
    · have h' : runIncreases v1 calls = .ok v' := by
        simpa [runIncreases, he, bind, Except.bind] using h
      have hlen : v1.prices.length = v.prices.length := by
        obtain ⟨r, hr⟩ := List.exists_mem_of_ne_nil _ hwf.nonempty
        rw [← hwf.length r hr, ← hwf1.length r (by rw [hrs]; exact hr)]
      obtain ⟨h1, h2, h3⟩ := ih v1 hwf1 hbal1 (fun c hc inc hinc => by rw [hlen]; exact hidx c (by simp [hc]) inc hinc) h'
      exact ⟨h1, h2.trans hrs, h3⟩

/-- Non-vacuity of the history theorem. -/
example :
    runIncreases ⟨[[1, 1, 0], [1, 0, 1]], [-30, -20, -20], none⟩ [([(0, -14)], 0), ([(1, -12), (2, -11)], 0)]
      = .ok ⟨[[1, 1, 0], [1, 0, 1]], [-14, -12, -12], some .stoppedAtAgentValue⟩ := by
  decide +kernel

end Auctions.Props
