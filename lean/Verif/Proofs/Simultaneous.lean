import Verif.Proofs.Prices

set_option autoImplicit false

/-! # Helper lemmas: simultaneous price raises -/

namespace Auctions

open Spec SimultaneousAscendingPriceVectors

/-- Number of increases that hit a category with count 1 in the recipe. -/
def hits (r : List ℕ) (incs : List (ℕ × ℚ)) : ℕ := (incs.filter (fun inc => r[inc.1]? = some 1)).length

/-- How many times a category is listed. -/
def listed (incs : List (ℕ × ℚ)) (j : ℕ) : ℕ := (incs.filter (fun inc => inc.1 = j)).length

theorem increasesInRecipe_eq {r : List ℕ} {incs : List (ℕ × ℚ)} (h : ∀ inc ∈ incs, inc.1 < r.length) :
    increasesInRecipe r incs = .ok (hits r incs) := by
  induction incs with
  | nil => simp [increasesInRecipe, hits]
  | cons inc incs ih =>
    obtain ⟨i, x⟩ := inc
    have hi : i < r.length := h (i, x) (by simp)
    have := ih (fun inc hinc => h inc (by simp [hinc]))
    simp only [increasesInRecipe, pyGet_ok (List.getElem?_eq_getElem hi), this, bind, Except.bind]
    by_cases h1 : r[i] = 1
    · simp [h1, hits, hi]
    · simp [h1, hits, hi]

theorem increasesPerRecipe_eq {rs : List (List ℕ)} {incs : List (ℕ × ℚ)}
    (h : ∀ r ∈ rs, ∀ inc ∈ incs, inc.1 < r.length) :
    increasesPerRecipe incs rs = .ok (rs.map (fun r => hits r incs)) := by
  induction rs with
  | nil => simp [increasesPerRecipe]
  | cons r rs ih =>
    have := ih (fun r hr => h r (by simp [hr]))
    simp [increasesPerRecipe, increasesInRecipe_eq (h r (by simp)), this, bind, Except.bind]

theorem increasesToNewPrices_eq {prices : List ℚ} {incs : List (ℕ × ℚ)} (h : ∀ inc ∈ incs, inc.1 < prices.length) :
    increasesToNewPrices prices incs = .ok (incs.map (fun inc => inc.2 - prices.getD inc.1 0)) := by
  induction incs with
  | nil => simp [increasesToNewPrices]
  | cons inc incs ih =>
    obtain ⟨i, x⟩ := inc
    have hi : i < prices.length := h (i, x) (by simp)
    have := ih (fun inc hinc => h inc (by simp [hinc]))
    simp [increasesToNewPrices, pyGet_ok (List.getElem?_eq_getElem hi), this, bind, Except.bind, hi]

theorem applyIncreases_spec (delta : ℚ) {prices : List ℚ} {incs : List (ℕ × ℚ)}
    (h : ∀ inc ∈ incs, inc.1 < prices.length) :
    ∃ prices', applyIncreases delta prices incs = .ok prices' ∧ prices'.length = prices.length ∧
      (∀ j < prices.length, prices'.getD j 0 = prices.getD j 0 + delta * listed incs j) ∧
      ∀ r : List ℕ, r.length = prices.length → (∀ x ∈ r, x = 0 ∨ x = 1) →
        recipeSum r prices' = recipeSum r prices + delta * hits r incs := by
  induction incs generalizing prices with
  | nil => exact ⟨prices, rfl, rfl, by simp [listed], by simp [hits]⟩
  | cons inc incs ih =>
    obtain ⟨i, x⟩ := inc
    have hi : i < prices.length := h (i, x) (by simp)
    obtain ⟨p', h1, h2, h3, h4⟩ := ih (prices := prices.set i (prices[i] + delta))
      (fun inc hinc => by simpa using h inc (by simp [hinc]))
    refine ⟨p', ?_, by simpa using h2, ?_, ?_⟩
    · simp [applyIncreases, pyGet_ok (List.getElem?_eq_getElem hi), bind, Except.bind, h1]
    · intro j hj
      rw [h3 j (by simpa using hj)]
      by_cases hij : i = j
      · subst hij
        simp [listed, hi]
        ring
      · simp [listed, hij]
    · intro r hr hbin
      rw [h4 r (by simpa using hr) hbin]
      have hri : r[i]? = some (r[i]'(by omega)) := List.getElem?_eq_getElem (by omega)
      rw [recipeSum_set hri (List.getElem?_eq_getElem hi)]
      rcases hbin _ (List.getElem_mem (by omega : i < r.length)) with h0 | h0
      · have : hits r ((i, x) :: incs) = hits r incs := by simp [hits, hri, h0]
        rw [this, h0]; push_cast; ring
      · have : hits r ((i, x) :: incs) = hits r incs + 1 := by simp [hits, hri, h0]
        rw [this, h0]; push_cast; ring

theorem foldl_min_rat_spec (xs : List ℚ) (x : ℚ) :
    (xs.foldl min x ∈ x :: xs) ∧ ∀ y ∈ x :: xs, xs.foldl min x ≤ y := by
  induction xs generalizing x with
  | nil => simp
  | cons y ys ih =>
    obtain ⟨h1, h2⟩ := ih (min x y)
    simp only [List.foldl_cons]
    refine ⟨?_, ?_⟩
    · rcases List.mem_cons.1 h1 with h | h
      · rcases le_total x y with hxy | hxy
        · rw [h, min_eq_left hxy]; simp
        · rw [h, min_eq_right hxy]; simp
      · simp [h]
    · intro z hz
      have hm := h2 (min x y) (by simp)
      rcases List.mem_cons.1 hz with rfl | hz
      · exact le_trans hm (min_le_left _ _)
      · rcases List.mem_cons.1 hz with rfl | hz
        · exact le_trans hm (min_le_right _ _)
        · exact h2 z (by simp [hz])

theorem pyMin_spec {l : List ℚ} (h : l ≠ []) : ∃ x, pyMin l = .ok x ∧ x ∈ l ∧ ∀ y ∈ l, x ≤ y := by
  cases l with
  | nil => simp at h
  | cons x xs => exact ⟨_, rfl, foldl_min_rat_spec xs x⟩

/-- What a simultaneous raise does. `d` is the smallest requested raise. -/
theorem increasePrices_spec (v : SimultaneousAscendingPriceVectors) (incs : List (ℕ × ℚ)) (bound : ℚ)
    (hne : v.psRecipes ≠ []) (hlen : ∀ r ∈ v.psRecipes, r.length = v.prices.length)
    (hbin : ∀ r ∈ v.psRecipes, ∀ x ∈ r, x = 0 ∨ x = 1) (hidx : ∀ inc ∈ incs, inc.1 < v.prices.length) :
    ((∃ r ∈ v.psRecipes, hits r incs ≠ 1) ∧ v.increasePrices incs bound = .error .valueError) ∨
    ((∀ r ∈ v.psRecipes, hits r incs = 1) ∧ ∃ d delta v',
      (∃ inc ∈ incs, inc.2 - v.prices.getD inc.1 0 = d) ∧ (∀ inc ∈ incs, d ≤ inc.2 - v.prices.getD inc.1 0) ∧
      delta = min d (bound - v.priceSum) ∧
      v.increasePrices incs bound = .ok v' ∧ v'.psRecipes = v.psRecipes ∧ v'.prices.length = v.prices.length ∧
      (∀ j < v.prices.length, v'.prices.getD j 0 = v.prices.getD j 0 + delta * listed incs j) ∧
      (∀ r ∈ v.psRecipes, recipeSum r v'.prices = recipeSum r v.prices + delta) ∧
      v'.status = if delta = bound - v.priceSum then some .stoppedAtZeroSum else some .stoppedAtAgentValue) := by
  have hper := increasesPerRecipe_eq (rs := v.psRecipes) (incs := incs)
    (fun r hr inc hinc => by rw [hlen r hr]; exact hidx inc hinc)
  by_cases hall : ∀ r ∈ v.psRecipes, hits r incs = 1
  · right
    refine ⟨hall, ?_⟩
    have hincs : incs ≠ [] := by
      rintro rfl
      obtain ⟨r, hr⟩ := List.exists_mem_of_ne_nil _ hne
      simpa [hits] using hall r hr
    obtain ⟨d, hd1, hd2, hd3⟩ := pyMin_spec (l := incs.map (fun inc => inc.2 - v.prices.getD inc.1 0)) (by simpa using hincs)
    obtain ⟨p', ha1, ha2, ha3, ha4⟩ := applyIncreases_spec (min d (bound - v.priceSum)) hidx
    refine ⟨d, min d (bound - v.priceSum),
      ⟨v.psRecipes, p', if min d (bound - v.priceSum) = bound - v.priceSum then some .stoppedAtZeroSum
        else some .stoppedAtAgentValue⟩, by simpa using hd2, fun inc hinc => hd3 _ (List.mem_map_of_mem hinc), rfl, ?_, rfl,
        ha2, ha3, ?_, rfl⟩
    · unfold increasePrices
      rw [hper]
      simp only [bind, Except.bind]
      rw [if_neg]
      · rw [increasesToNewPrices_eq hidx]
        simp only [hd1, ha1]
        split_ifs <;> rfl
      · simp only [List.any_eq_true, List.mem_map, decide_eq_true_eq, not_exists, not_and, Decidable.not_not]
        rintro n ⟨r, hr, rfl⟩
        exact hall r hr
    · intro r hr
      rw [ha4 r (hlen r hr) (hbin r hr), hall r hr]
      simp
  · left
    push Not at hall
    obtain ⟨r, hr, hr1⟩ := hall
    refine ⟨⟨r, hr, hr1⟩, ?_⟩
    unfold increasePrices
    rw [hper]
    simp only [bind, Except.bind]
    rw [if_pos]
    simp only [List.any_eq_true, List.mem_map, decide_eq_true_eq]
    exact ⟨_, ⟨r, hr, rfl⟩, hr1⟩

end Auctions
