import Verif.Model.Markets
import Verif.Model.Prices
import Verif.Spec.Prices
import Mathlib.Tactic.Linarith
import Mathlib.Tactic.Ring
import Mathlib.Tactic.FieldSimp
import Mathlib.Algebra.BigOperators.Group.List.Basic

set_option autoImplicit false

/-! # Helper lemmas: weighted sums and price vectors -/

namespace Auctions

open Spec

@[simp] theorem recipeSum_nil (x : List ℚ) : recipeSum [] x = 0 := by simp [recipeSum]
@[simp] theorem recipeSum_nil_right (r : List ℕ) : recipeSum r [] = 0 := by simp [recipeSum]
@[simp] theorem recipeSum_cons (a : ℕ) (r : List ℕ) (p : ℚ) (x : List ℚ) :
    recipeSum (a :: r) (p :: x) = a * p + recipeSum r x := by simp [recipeSum]

theorem dot_eq (x : List ℚ) (r : List ℕ) : dot x r = recipeSum r x := by
  induction x generalizing r with
  | nil => cases r <;> simp [dot]
  | cons p x ih => cases r with
    | nil => simp [dot]
    | cons a r => simp [dot, ih, mul_comm]

theorem weightedSum_eq {x : List ℚ} {r : List ℕ} (h : x.length ≤ r.length) :
    Market.weightedSum x r = .ok (recipeSum r x) := by
  induction x generalizing r with
  | nil => simp [Market.weightedSum]
  | cons p x ih => cases r with
    | nil => simp at h
    | cons a r => simp [Market.weightedSum, ih (by simpa using h), bind, Except.bind, mul_comm]

theorem recipeSum_mono {r : List ℕ} {x y : List ℚ} (hl : x.length = y.length)
    (h : ∀ (i : ℕ) a b, x[i]? = some a → y[i]? = some b → a ≤ b) : recipeSum r x ≤ recipeSum r y := by
  induction r generalizing x y with
  | nil => simp
  | cons c r ih =>
    cases x with
    | nil => cases y with
      | nil => simp
      | cons _ _ => simp at hl
    | cons a x => cases y with
      | nil => simp at hl
      | cons b y =>
        have h0 := h 0 a b rfl rfl
        have := ih (x := x) (y := y) (by simpa using hl) (fun i a b h1 h2 => h (i + 1) a b (by simpa) (by simpa))
        simp only [recipeSum_cons]
        have hc : (0 : ℚ) ≤ c := by exact_mod_cast Nat.zero_le c
        have := mul_le_mul_of_nonneg_left h0 hc
        linarith

theorem recipeSum_set {r : List ℕ} {x : List ℚ} {i : ℕ} {a : ℕ} {p : ℚ} (hr : r[i]? = some a) (hx : x[i]? = some p)
    (q : ℚ) : recipeSum r (x.set i q) = recipeSum r x - a * p + a * q := by
  induction r generalizing x i with
  | nil => simp at hr
  | cons b r ih => cases x with
    | nil => simp at hx
    | cons y x => cases i with
      | zero =>
        simp only [List.getElem?_cons_zero, Option.some.injEq] at hr hx
        subst hr hx
        simp; ring
      | succ i =>
        simp only [List.getElem?_cons_succ] at hr hx
        simp [ih hr hx]; ring

theorem pyGet_ok {α : Type} {l : List α} {i : ℕ} {x : α} (h : l[i]? = some x) : pyGet l i = .ok x := by
  simp [pyGet, h]

theorem bestLoop (c : ℕ) (v : ℚ) (cs : List AgentCategory) (s : ℕ) :
    (∃ ps, Market.bestContainingPSLoop c v s cs = .ok ps ∧ ps.length = cs.length ∧
      ∀ j x, ps[j]? = some x → (s + j = c ∧ x = v) ∨
        (s + j ≠ c ∧ ∃ cat, cs[j]? = some cat ∧ cat.values.head? = some x)) ∨
    (Market.bestContainingPSLoop c v s cs = .error .indexError ∧
      ∃ j cat, cs[j]? = some cat ∧ s + j ≠ c ∧ cat.values = []) := by
  induction cs generalizing s with
  | nil => left; exact ⟨[], by simp [Market.bestContainingPSLoop], rfl, by simp⟩
  | cons cat cs ih =>
    have step : ∀ x, (if s = c then Except.ok v else cat.highestAgentValue : Py ℚ) = .ok x →
        ((s = c ∧ x = v) ∨ (s ≠ c ∧ cat.values.head? = some x)) →
        (∃ ps, Market.bestContainingPSLoop c v s (cat :: cs) = .ok ps ∧ ps.length = (cat :: cs).length ∧
          ∀ j x, ps[j]? = some x → (s + j = c ∧ x = v) ∨
            (s + j ≠ c ∧ ∃ cat', (cat :: cs)[j]? = some cat' ∧ cat'.values.head? = some x)) ∨
        (Market.bestContainingPSLoop c v s (cat :: cs) = .error .indexError ∧
          ∃ j cat', (cat :: cs)[j]? = some cat' ∧ s + j ≠ c ∧ cat'.values = []) := by
      intro x hx hxs
      rcases ih (s + 1) with ⟨ps, h1, h2, h3⟩ | ⟨h1, j, cat', h2, h3, h4⟩
      · left
        refine ⟨x :: ps, ?_, by simp [h2], ?_⟩
        · by_cases hsc : s = c
          · simp only [hsc, if_true, Except.ok.injEq] at hx
            subst hx; subst hsc
            simp [Market.bestContainingPSLoop, bind, Except.bind, h1]
          · simp only [hsc, if_false] at hx
            simp [Market.bestContainingPSLoop, bind, Except.bind, h1, hsc, hx]
        · intro j y hy
          cases j with
          | zero =>
            simp only [List.getElem?_cons_zero, Option.some.injEq] at hy
            subst hy
            rcases hxs with h | h
            · exact Or.inl (by simpa using h)
            · exact Or.inr ⟨by simpa using h.1, cat, rfl, h.2⟩
          | succ j =>
            simp only [List.getElem?_cons_succ] at hy
            have := h3 j y hy
            rw [show s + (j + 1) = s + 1 + j by omega]
            simpa using this
      · right
        refine ⟨?_, j + 1, cat', by simpa using h2, by omega, h4⟩
        by_cases hsc : s = c
        · subst hsc
          simp [Market.bestContainingPSLoop, bind, Except.bind, h1]
        · simp only [hsc, if_false] at hx
          simp [Market.bestContainingPSLoop, bind, Except.bind, h1, hsc, hx]
    by_cases hsc : s = c
    · exact step v (by simp [hsc]) (Or.inl ⟨hsc, rfl⟩)
    · cases hv : cat.values with
      | nil =>
        right
        refine ⟨?_, 0, cat, rfl, by simpa using hsc, hv⟩
        simp [Market.bestContainingPSLoop, hsc, AgentCategory.highestAgentValue, hv, bind, Except.bind]
      | cons w ws =>
        exact step w (by simp [hsc, AgentCategory.highestAgentValue, hv]) (Or.inr ⟨hsc, by simp [hv]⟩)

theorem pricesLoop_eq {c : ℕ} {v : ℚ} {best : List ℚ} {r : List ℕ} (hr : best.length ≤ r.length) (n s : ℕ)
    (hn : s + n = best.length) {x : ℚ}
    (hx : s ≤ c → c < s + n → ∃ rc, r[c]? = some rc ∧ pyDiv (v * rc - recipeSum r best) rc = .ok x) :
    Market.pricesLoop c v best r s n = .ok ((best.set c x).drop s) := by
  induction n generalizing s with
  | zero =>
    simp only [Market.pricesLoop]
    rw [List.drop_of_length_le]
    simp; omega
  | succ n ih =>
    have hs : s < best.length := by omega
    have hi := ih (s + 1) (by omega) (fun h1 h2 => hx (by omega) (by omega))
    have hd : (best.set c x).drop s = (best.set c x)[s]'(by simpa using hs) :: (best.set c x).drop (s + 1) :=
      List.drop_eq_getElem_cons (by simpa using hs)
    simp only [Market.pricesLoop, bind, Except.bind]
    by_cases hsc : s = c
    · subst hsc
      obtain ⟨rc, h1, h2⟩ := hx (le_refl _) (by omega)
      simp [pyGet_ok h1, weightedSum_eq hr, h2, hi, hd]
    · rw [if_neg hsc, pyGet_ok (List.getElem?_eq_getElem hs), hd]
      simp [hi, Ne.symm hsc]

theorem pricesLoop_zero {c : ℕ} {v : ℚ} {best : List ℚ} {r : List ℕ} (hr : best.length ≤ r.length) (n s : ℕ)
    (hn : s + n = best.length) (hs : s ≤ c) (hc : c < s + n) (h0 : r[c]? = some 0) :
    Market.pricesLoop c v best r s n = .error .zeroDivisionError := by
  induction n generalizing s with
  | zero => omega
  | succ n ih =>
    simp only [Market.pricesLoop, bind, Except.bind]
    by_cases hsc : s = c
    · subst hsc
      simp [pyGet_ok h0, weightedSum_eq hr, pyDiv]
    · rw [if_neg hsc, pyGet_ok (List.getElem?_eq_getElem (by omega : s < best.length))]
      simp [ih (s + 1) (by omega) (by omega) (by omega)]

end Auctions
