import Verif.Proofs.OptimalTrade
import Verif.Proofs.Prices
import Verif.Spec.Expectation
import Mathlib.Data.Nat.Choose.Basic
import Mathlib.Tactic.LinearCombination

set_option autoImplicit false

/-! # Helper lemmas: single-price trades -/

namespace Auctions

open Spec

theorem foldl_min_spec (xs : List ℕ) (x : ℕ) :
    (xs.foldl min x ∈ x :: xs) ∧ ∀ y ∈ x :: xs, xs.foldl min x ≤ y := by
  induction xs generalizing x with
  | nil => simp
  | cons y ys ih =>
    obtain ⟨h1, h2⟩ := ih (min x y)
    simp only [List.foldl_cons]
    refine ⟨?_, ?_⟩
    · rcases List.mem_cons.1 h1 with h | h
      · rcases le_total x y with hxy | hxy
        · rw [h, min_eq_left hxy]; simp
        · rw [h, min_eq_right hxy]; simp
      · simp [h]
    · intro z hz
      have hm := h2 (min x y) (by simp)
      rcases List.mem_cons.1 hz with rfl | hz
      · exact le_trans hm (min_le_left _ _)
      · rcases List.mem_cons.1 hz with rfl | hz
        · exact le_trans hm (min_le_right _ _)
        · exact h2 z (by simp [hz])

theorem pyMinNat_spec (l : List ℕ) :
    (l = [] ∧ pyMinNat l = .error .valueError) ∨ ∃ x, pyMinNat l = .ok x ∧ x ∈ l ∧ ∀ y ∈ l, x ≤ y := by
  cases l with
  | nil => exact Or.inl ⟨rfl, rfl⟩
  | cons x xs => exact Or.inr ⟨_, rfl, foldl_min_spec xs x⟩

theorem mem_potentialDeals {cs : List AgentCategory} {r : List ℕ} {x : ℕ} :
    x ∈ TradeWithSinglePrice.potentialDeals cs r ↔
      ∃ i < cs.length, 0 < rAt r i ∧ x = (vAt cs i).length / rAt r i := by
  induction cs generalizing r with
  | nil => cases r <;> simp [TradeWithSinglePrice.potentialDeals]
  | cons c cs ih =>
    cases r with
    | nil => simp [TradeWithSinglePrice.potentialDeals, rAt]
    | cons a r =>
      have key : (∃ i < (c :: cs).length, 0 < rAt (a :: r) i ∧ x = (vAt (c :: cs) i).length / rAt (a :: r) i) ↔
          (0 < a ∧ x = c.values.length / a) ∨ ∃ i < cs.length, 0 < rAt r i ∧ x = (vAt cs i).length / rAt r i := by
        constructor
        · rintro ⟨i, hi, h1, h2⟩
          cases i with
          | zero => left; exact ⟨by simpa using h1, by simpa using h2⟩
          | succ i => right; exact ⟨i, by simpa using hi, by simpa using h1, by simpa using h2⟩
        · rintro (⟨h1, h2⟩ | ⟨i, hi, h1, h2⟩)
          · exact ⟨0, by simp, by simpa using h1, by simpa using h2⟩
          · exact ⟨i + 1, by simpa using hi, by simpa using h1, by simpa using h2⟩
      rw [key, ← ih]
      simp only [TradeWithSinglePrice.potentialDeals, AgentCategory.size]
      by_cases ha : a > 0
      · simp [ha]
      · simp [ha]

/-- The number of deals of a trade, and when it can be built. -/
theorem trade_init_spec (cs : List AgentCategory) (r : List ℕ) (p : Option (List ℚ)) :
    ((∀ i < cs.length, rAt r i = 0) ∧ TradeWithSinglePrice.init cs r p = .error .valueError) ∨
    ((∃ i < cs.length, 0 < rAt r i) ∧ ∃ m, TradeWithSinglePrice.init cs r p = .ok ⟨cs, r, p, m⟩ ∧
      (∀ i < cs.length, m * rAt r i ≤ (vAt cs i).length) ∧
      ∀ d, (∀ i < cs.length, d * rAt r i ≤ (vAt cs i).length) → d ≤ m) := by
  rcases pyMinNat_spec (TradeWithSinglePrice.potentialDeals cs r) with ⟨h1, h2⟩ | ⟨m, h1, h2, h3⟩
  · left
    refine ⟨fun i hi => ?_, by simp [TradeWithSinglePrice.init, h2, bind, Except.bind]⟩
    by_contra hne
    have : (vAt cs i).length / rAt r i ∈ TradeWithSinglePrice.potentialDeals cs r :=
      mem_potentialDeals.2 ⟨i, hi, by omega, rfl⟩
    rw [h1] at this; simp at this
  · right
    obtain ⟨i0, hi0, hpos0, hm0⟩ := mem_potentialDeals.1 h2
    refine ⟨⟨i0, hi0, hpos0⟩, m, by simp [TradeWithSinglePrice.init, h1, bind, Except.bind], ?_, ?_⟩
    · intro i hi
      rcases Nat.eq_zero_or_pos (rAt r i) with h0 | hpos
      · simp [h0]
      · have := h3 _ (mem_potentialDeals.2 ⟨i, hi, hpos, rfl⟩)
        exact (Nat.le_div_iff_mul_le hpos).1 this
    · intro d hd
      rw [hm0]
      exact (Nat.le_div_iff_mul_le hpos0).2 (hd i0 hi0)

/-- The gain loop, when nothing is missing. -/
theorem gftLoop_eq (t : TradeWithSinglePrice) (b : Bool) {p : List ℚ} (hp : t.prices = some p)
    (cs : List AgentCategory) (s : ℕ) (hr : s + cs.length ≤ t.psRecipe.length) (hpl : s + cs.length ≤ p.length)
    (hne : ∀ c ∈ cs, c.values ≠ []) :
    t.gftLoop b s cs = .ok (∑ j ∈ Finset.range cs.length,
      ((vAt cs j).sum * ((rAt t.psRecipe (s + j) * t.numOfDealsCache : ℕ) / (vAt cs j).length)
        - if b then 0 else p.getD (s + j) 0 * (rAt t.psRecipe (s + j) * t.numOfDealsCache : ℕ))) := by
  induction cs generalizing s with
  | nil => simp [TradeWithSinglePrice.gftLoop]
  | cons c cs ih =>
    simp only [List.length_cons] at hr hpl
    have h1 := ih (s + 1) (by omega) (by omega) (fun c hc => hne c (by simp [hc]))
    have hlen : (c.values.length : ℚ) ≠ 0 := by
      have := hne c (by simp)
      exact_mod_cast fun h => this (List.length_eq_zero_iff.1 h)
    have hstep : t.gftStep b s c = .ok (c.values.sum * ((rAt t.psRecipe s * t.numOfDealsCache : ℕ) / c.values.length)
        - if b then 0 else p.getD s 0 * (rAt t.psRecipe s * t.numOfDealsCache : ℕ)) := by
      unfold TradeWithSinglePrice.gftStep
      rw [pyGet_ok (List.getElem?_eq_getElem (by omega : s < t.psRecipe.length))]
      simp only [bind, Except.bind, hp]
      rw [pyGet_ok (List.getElem?_eq_getElem (by omega : s < p.length))]
      rw [rAt_eq_getElem (by omega : s < t.psRecipe.length), show p.getD s 0 = p[s]'(by omega) by simp [show s < p.length by omega]]
      simp only [pyDiv, hlen, if_false]
      cases b <;> simp
    simp only [TradeWithSinglePrice.gftLoop, hstep, h1, bind, Except.bind, List.length_cons]
    rw [Finset.sum_range_succ', add_comm]
    congr 1
    congr 1
    refine Finset.sum_congr rfl fun j _ => ?_
    rw [vAt_cons_succ, show s + (j + 1) = s + 1 + j by omega]

theorem sum_sublistsLen (l : List ℚ) (n : ℕ) :
    ((l.sublistsLen (n + 1)).map List.sum).sum = ((l.length - 1).choose n : ℕ) * l.sum := by
  induction l generalizing n with
  | nil => simp
  | cons a l ih =>
    rw [List.sublistsLen_succ_cons, List.map_append, List.sum_append, ih]
    have hmap : ((l.sublistsLen n).map (List.cons a)).map List.sum = (l.sublistsLen n).map (fun s => a + s.sum) := by
      rw [List.map_map]; rfl
    have hsum : ((l.sublistsLen n).map (fun s => a + s.sum)).sum
        = (l.length.choose n : ℕ) * a + ((l.sublistsLen n).map List.sum).sum := by
      rw [List.sum_map_add]
      simp
    rw [hmap, hsum]
    cases n with
    | zero => simp; ring
    | succ n =>
      rw [ih]
      cases l with
      | nil => simp
      | cons b l =>
        simp only [List.length_cons, Nat.add_sub_cancel, List.sum_cons]
        rw [Nat.choose_succ_succ l.length n]
        push_cast; ring

theorem expectedTotal_eq {l : List ℚ} {n : ℕ} (hn : n ≤ l.length) (hl : l ≠ []) :
    expectedTotal l n = l.sum * (n / l.length) := by
  unfold expectedTotal
  cases n with
  | zero => simp
  | succ n =>
    rw [sum_sublistsLen, List.length_sublistsLen]
    obtain ⟨L, hL⟩ : ∃ L, l.length = L + 1 := by
      cases l with
      | nil => simp at hl
      | cons a l => exact ⟨l.length, rfl⟩
    rw [hL] at hn ⊢
    simp only [Nat.add_sub_cancel]
    have h1 : ((L + 1).choose (n + 1) : ℚ) ≠ 0 := by
      exact_mod_cast (Nat.choose_pos hn).ne'
    have h2 : ((L + 1 : ℕ) : ℚ) ≠ 0 := by exact_mod_cast Nat.succ_ne_zero L
    have h3 : ((L + 1 : ℕ) : ℚ) * (L.choose n : ℕ) = ((L + 1).choose (n + 1) : ℕ) * (n + 1 : ℕ) := by
      exact_mod_cast Nat.add_one_mul_choose_eq L n
    rw [div_eq_iff h1, mul_div_assoc', div_mul_eq_mul_div, eq_div_iff h2]
    linear_combination l.sum * h3

theorem recipeSum_eq_sum {r : List ℕ} {x : List ℚ} {n : ℕ} (hr : r.length = n) (hx : x.length = n) :
    recipeSum r x = ∑ i ∈ Finset.range n, (rAt r i : ℚ) * x.getD i 0 := by
  induction n generalizing r x with
  | zero => simp [List.length_eq_zero_iff.1 hr]
  | succ n ih =>
    cases r with
    | nil => simp at hr
    | cons a r => cases x with
      | nil => simp at hx
      | cons p x =>
        rw [Finset.sum_range_succ', recipeSum_cons, ih (by simpa using hr) (by simpa using hx)]
        simp [add_comm]

end Auctions
