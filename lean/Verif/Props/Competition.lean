import Verif.Proofs.Prices
import Verif.Proofs.Lists
import Verif.Spec.View

set_option autoImplicit false

/-!
# C09, C10 — `best_containing_PS` and `calculate_prices_by_external_competition`
-/

namespace Auctions.Props

open Auctions Spec

/-- **C09**. In a market whose categories are sorted (every market, by C01), `best_containing_PS(c, v)` either raises
IndexError, and then some category other than `c` is empty, or it returns a procurement-set that contains `v` at
position `c` and agents of the market elsewhere, such that no procurement-set of that kind has a larger gain,
whatever (non-negative) weights the recipe gives to the categories. -/
theorem best_containing_ps (m : Market) (hs : ∀ c ∈ m.categories, SortedDesc c.values) (c : ℕ) (v : ℚ) :
    (m.bestContainingPS c v = .error .indexError ∧
      ∃ i, i ≠ c ∧ i < m.valueLists.length ∧ m.valueLists.getD i [] = []) ∨
    ((∀ i, i ≠ c → i < m.valueLists.length → m.valueLists.getD i [] ≠ []) ∧
      ∃ ps, m.bestContainingPS c v = .ok ps ∧ ContainsAgent m.valueLists c v ps ∧
      ∀ (r : List ℕ) (q : List ℚ), ContainsAgent m.valueLists c v q → recipeSum r q ≤ recipeSum r ps) := by
  rcases bestLoop c v m.categories 0 with ⟨ps, h1, h2, h3⟩ | ⟨h1, j, cat, h2, h3, h4⟩
  · right
    have hgetD : ∀ (i : ℕ) cat, m.categories[i]? = some cat → m.valueLists.getD i [] = cat.values := by
      intro i cat h
      simp [Market.valueLists, h]
    refine ⟨?_, ps, h1, ⟨by simp [Market.valueLists, h2], ?_⟩, ?_⟩
    · intro i hic hi
      have hi' : i < ps.length := by simpa [Market.valueLists, h2] using hi
      rcases h3 i ps[i] (List.getElem?_eq_getElem hi') with h | ⟨-, cat, hc, hh⟩
      · omega
      · rw [hgetD i cat hc]
        intro h0; rw [h0] at hh; simp at hh
    · intro i x hx
      rcases h3 i x hx with h | ⟨hic, cat, hc, hh⟩
      · exact Or.inl (by simpa using h)
      · refine Or.inr ⟨by simpa using hic, ?_⟩
        rw [hgetD i cat hc]
        exact List.mem_of_mem_head? hh
    · intro r q ⟨hql, hq⟩
      refine recipeSum_mono (by rw [hql, h2]; simp [Market.valueLists]) ?_
      intro i a b ha hb
      rcases hq i a ha with ⟨hic, hav⟩ | ⟨hic, ham⟩
      · rcases h3 i b hb with ⟨-, hbv⟩ | ⟨hne, -⟩
        · rw [hav, hbv]
        · omega
      · rcases h3 i b hb with ⟨hne, -⟩ | ⟨-, cat, hc, hh⟩
        · omega
        · rw [hgetD i cat hc] at ham
          have hsorted := hs cat (List.mem_of_getElem? hc)
          obtain ⟨name, vals⟩ := cat
          cases vals with
          | nil => simp at ham
          | cons w ws =>
            simp only [List.head?_cons, Option.some.injEq] at hh
            subst hh
            exact hsorted.le_head a ham
  · left
    refine ⟨h1, j, by simpa using h3, ?_, ?_⟩
    · have := (List.getElem?_eq_some_iff.1 h2).1
      simpa [Market.valueLists] using this
    · simp [Market.valueLists, h2, h4]

/-- Non-vacuity of C09: the doctest of `markets.py:188-192`, and a market with an empty category. -/
example :
    (Market.mk [⟨"buyer", [7, 5]⟩, ⟨"seller", [-8, -10]⟩]).bestContainingPS 0 9 = .ok [9, -8] ∧
    (Market.mk [⟨"buyer", [7, 5]⟩, ⟨"seller", []⟩]).bestContainingPS 0 9 = .error .indexError := by
  decide +kernel

/-- **C10**. Prices by external competition: if the pivot's category `c` has a positive count, the call succeeds,
the recipe-weighted sum of the prices is 0, the other categories pay the competitors' values, and the pivot's price is at
most its value exactly when the procurement-set formed with the competitors has non-negative gain. -/
theorem external_competition_prices {m : Market} {r : List ℕ} {c : ℕ} {v : ℚ} {best : List ℚ} {rc : ℕ}
    (hr : r.length = m.numCategories) (hrc : r[c]? = some rc) (hpos : 0 < rc)
    (hbest : m.bestContainingPS c v = .ok best) :
    ∃ prices, m.calculatePricesByExternalCompetition c v best r = .ok prices ∧ prices.length = m.numCategories ∧
      recipeSum r prices = 0 ∧ (∀ i, i ≠ c → prices[i]? = best[i]?) ∧
      ∃ pc, prices[c]? = some pc ∧ (pc ≤ v ↔ 0 ≤ recipeSum r best) := by
  rcases bestLoop c v m.categories 0 with ⟨ps, h1, h2, h3⟩ | ⟨h1, -⟩
  swap
  · rw [Market.bestContainingPS, h1] at hbest; simp at hbest
  rw [Market.bestContainingPS, h1] at hbest
  obtain rfl : ps = best := by simpa using hbest
  have hcr := (List.getElem?_eq_some_iff.1 hrc).1
  have hc : c < ps.length := by rw [h2]; rw [hr] at hcr; exact hcr
  have hbc : ps[c]? = some v := by
    rcases h3 c ps[c] (List.getElem?_eq_getElem hc) with ⟨-, h⟩ | ⟨h, -⟩
    · rw [List.getElem?_eq_getElem hc, h]
    · omega
  have hrc0 : (rc : ℚ) ≠ 0 := by exact_mod_cast hpos.ne'
  have hrcpos : (0 : ℚ) < rc := by exact_mod_cast hpos
  have hdiv : pyDiv (v * rc - recipeSum r ps) rc = .ok ((v * rc - recipeSum r ps) / rc) := by
    simp [pyDiv, hrc0]
  refine ⟨ps.set c ((v * rc - recipeSum r ps) / rc), ?_, by simp [h2, Market.numCategories], ?_, ?_, (v * rc - recipeSum r ps) / rc, ?_, ?_⟩
  · have := pricesLoop_eq (c := c) (v := v) (best := ps) (r := r) (by rw [h2, hr]; rfl) m.numCategories 0
      (by rw [h2]; simp [Market.numCategories]) (fun _ _ => ⟨rc, hrc, hdiv⟩)
    simpa [Market.calculatePricesByExternalCompetition] using this
  · rw [recipeSum_set hrc hbc]
    field_simp
    ring
  · intro i hi
    rw [List.getElem?_set_ne (Ne.symm hi)]
  · rw [List.getElem?_set_self hc]
  · rw [div_le_iff₀ hrcpos]
    constructor <;> intro h <;> linarith

/-- **C10**, the remaining case: a pivot whose category is not used by the recipe causes a division by zero. -/
theorem external_competition_zero_division {m : Market} {r : List ℕ} {c : ℕ} {v : ℚ} {best : List ℚ}
    (hr : r.length = m.numCategories) (hrc : r[c]? = some 0) (hbest : m.bestContainingPS c v = .ok best) :
    m.calculatePricesByExternalCompetition c v best r = .error .zeroDivisionError := by
  rcases bestLoop c v m.categories 0 with ⟨ps, h1, h2, h3⟩ | ⟨h1, -⟩
  swap
  · rw [Market.bestContainingPS, h1] at hbest; simp at hbest
  rw [Market.bestContainingPS, h1] at hbest
  obtain rfl : ps = best := by simpa using hbest
  have hcr := (List.getElem?_eq_some_iff.1 hrc).1
  have h2' : ps.length = m.numCategories := h2
  exact pricesLoop_zero (by omega) _ 0 (by omega) (by omega) (by omega) hrc

/-- Non-vacuity of C10. -/
example :
    let m : Market := ⟨[⟨"buyer", [7, 5]⟩, ⟨"seller", [-3, -10]⟩]⟩
    m.bestContainingPS 0 9 = .ok [9, -3] ∧ m.calculatePricesByExternalCompetition 0 9 [9, -3] [1, 2] = .ok [6, -3] ∧
    m.calculatePricesByExternalCompetition 0 9 [9, -3] [0, 2] = .error .zeroDivisionError := by
  decide +kernel

end Auctions.Props
