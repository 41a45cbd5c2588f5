import Verif.Props.GetPrices
import Verif.Props.StockExperiment

set_option autoImplicit false

/-!
# C78: from the files to the table

What `stock/experiment_stock.py` does when it is called without prices: `getStocksPrices(recipe)` is the list of `getPrices` of all files.
-/

namespace Auctions.Props

open Auctions Spec StockData

/-- A table with `rows` lines, of prices that are not negative and at most `P`. -/
structure Holds (f : StockFile) (rows : ℕ) (P : ℚ) : Prop where
  high : f.high.length = rows ∧ ∀ x ∈ f.high, 0 ≤ x ∧ x ≤ P
  close : f.close.length = rows ∧ ∀ x ∈ f.close, 0 ≤ x ∧ x ≤ P
  opening : f.opening.length = rows ∧ ∀ x ∈ f.opening, 0 ≤ x ∧ x ≤ P
  low : f.low.length = rows ∧ ∀ x ∈ f.low, 0 ≤ x ∧ x ≤ P

theorem sum_lengths {data : List (List ℚ)} {recipe : List ℕ} {k : ℕ} (hl : data.length = recipe.length)
    (h : ∀ j < recipe.length, (data.getD j []).length ≤ k * recipe.getD j 0) : (data.map List.length).sum ≤ k * recipe.sum := by
  induction data generalizing recipe with
  | nil => simp
  | cons d data ih =>
    cases recipe with
    | nil => simp at hl
    | cons c recipe =>
      have h0 := h 0 (by simp)
      have := ih (recipe := recipe) (by simpa using hl) (fun j hj => by simpa using h (j + 1) (by simpa using hj))
      simp only [List.getD_cons_zero] at h0
      simp only [List.map_cons, List.sum_cons, Nat.mul_add]
      omega

/-- **C78**. The prices that are read from the files of the directory satisfy the conditions under which theory predicts the rows of the experiment (C77): for every
recipe with positive counts, and files with not too many lines and not too large prices. (The limits of the code are `MAX_VALUE` and 1000000 iterations.) -/
theorem stock_files {files : List StockFile} {rows : StockFile → ℕ} {P : ℚ} {recipe : List ℕ} {names : List String} (hP : 0 ≤ P) (hr : recipe ≠ [])
    (hpos : ∀ c ∈ recipe, 0 < c) (hf : ∀ f ∈ files, Holds f (rows f) P) (hrows : ∀ f ∈ files, 2 * rows f * recipe.sum ≤ 2000000)
    (hlarge : 1000 * P * (recipe.sum : ℚ) ^ 2 < MAX_VALUE) (hn : files.length ≤ names.length) :
    ∃ stocks, getStocksPrices files recipe = .ok stocks ∧ stocks.length = files.length ∧ SensibleStocks recipe stocks names := by
  have hsum : 1 ≤ recipe.sum := by
    cases recipe with
    | nil => exact absurd rfl hr
    | cons a t => have := hpos a (by simp); simp; omega
  have one : ∀ f ∈ files, ∃ data, getPrices f.high f.close f.opening f.low recipe = .ok data ∧ data.length = recipe.length ∧
      (∀ l ∈ data, ∀ x ∈ l, |x| ≤ 1000 * (P * (recipe.sum : ℚ))) ∧ (data.map List.length).sum ≤ 2000000 := by
    intro f hfm
    have hh := hf f hfm
    obtain ⟨data, d1, d2, d3, d4⟩ := get_prices hh.high.1 hh.close.1 hh.opening.1 hh.low.1 (fun x hx => (hh.high.2 x hx).1)
      (fun x hx => (hh.close.2 x hx).1) (fun x hx => (hh.opening.2 x hx).1) (fun x hx => (hh.low.2 x hx).1) hr
    have ab : ∀ {l : List ℚ}, (∀ x ∈ l, 0 ≤ x ∧ x ≤ P) → ∀ x ∈ l, |x| ≤ P := by
      intro l hl x hx
      rw [abs_of_nonneg (hl x hx).1]
      exact (hl x hx).2
    refine ⟨data, d1, d2.categories, get_prices_bounded hP (ab hh.high.2) (ab hh.close.2) (ab hh.opening.2) (ab hh.low.2) hr hpos d1, ?_⟩
    refine le_trans (sum_lengths (k := 2 * rows f) d2.categories ?_) (hrows f hfm)
    intro j hj
    by_cases hc : ∃ c, recipe = [c, c, c]
    · rw [d4 hc j hj]
      have hj0 : 0 < recipe.getD j 0 := by
        rw [List.getD_eq_getElem?_getD, List.getElem?_eq_getElem hj]
        exact hpos _ (List.getElem_mem hj)
      have := Nat.le_mul_of_pos_right (2 * rows f) hj0
      omega
    · rw [d3 (fun c _ h => hc ⟨c, h⟩) j hj]
      apply Nat.mul_le_mul_right
      unfold setsOf
      split_ifs <;> omega
  have all : ∃ stocks, getStocksPrices files recipe = .ok stocks ∧ stocks.length = files.length ∧ ∀ s ∈ stocks, s.length = recipe.length ∧
      (∀ l ∈ s, ∀ x ∈ l, |x| ≤ 1000 * (P * (recipe.sum : ℚ))) ∧ (s.map List.length).sum ≤ 2000000 := by
    unfold getStocksPrices
    clear hf hrows hn
    induction files with
    | nil => exact ⟨[], rfl, rfl, by simp⟩
    | cons f files ih =>
      obtain ⟨data, d1, d2⟩ := one f (by simp)
      obtain ⟨stocks, s1, s2, s3⟩ := ih (fun f hf => one f (by simp [hf]))
      refine ⟨data :: stocks, by rw [List.mapM_cons, d1, s1]; rfl, by simp [s2], ?_⟩
      intro s hs
      rcases List.mem_cons.1 hs with rfl | hs
      · exact d2
      · exact s3 s hs
  obtain ⟨stocks, s1, s2, s3⟩ := all
  have hq : (1 : ℚ) ≤ recipe.sum := by exact_mod_cast hsum
  refine ⟨stocks, s1, s2, ⟨hr, hpos, by omega, fun s hs => (s3 s hs).1, ?_, ?_, fun s hs => (s3 s hs).2.2⟩⟩
  · intro s hs l hl v hv
    have h1 := (abs_le.1 ((s3 s hs).2.1 l hl v hv)).1
    have h2 : P * (recipe.sum : ℚ) ≤ P * (recipe.sum : ℚ) ^ 2 := mul_le_mul_of_nonneg_left (by nlinarith) hP
    linarith
  · intro s hs l hl v hv
    have h1 := (abs_le.1 ((s3 s hs).2.1 l hl v hv)).2
    have h2 := mul_le_mul_of_nonneg_left h1 (by linarith : (0 : ℚ) ≤ recipe.sum)
    nlinarith

/-- Non-vacuity: one file of two lines, recipe (1,2). -/
example : ∃ stocks, getStocksPrices [⟨[5, 6], [4, 7], [3, 1], [2, 8]⟩] [1, 2] = .ok stocks ∧ stocks.length = 1 ∧ SensibleStocks [1, 2] stocks ["A"] :=
  stock_files (rows := fun _ => 2) (P := 8) (by norm_num) (by decide) (by decide)
    (by
      intro f hf
      rw [List.mem_singleton] at hf
      subst hf
      exact ⟨by decide +kernel, by decide +kernel, by decide +kernel, by decide +kernel⟩)
    (by simp) (by norm_num [MAX_VALUE]) (by decide)

end Auctions.Props
