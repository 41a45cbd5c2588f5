import Verif.Spec.PriceLine
import Verif.Proofs.Trade
import Mathlib.Tactic.Ring

set_option autoImplicit false

/-! # The text of a single-price trade -/

namespace Auctions

open Spec

theorem reprLoop_spec (t : TradeWithSinglePrice) {p : List ℚ} (hp : t.prices = some p) (cs : List AgentCategory) :
    ∀ i, (∀ j < cs.length, i + j < t.psRecipe.length ∧ i + j < p.length) →
      (∀ j (hj : j < cs.length), t.categories[i + j]? = some cs[j] ∧ t.numOfDealsCache * t.psRecipe.getD (i + j) 0 ≤ cs[j].size) →
      ∃ lines, t.reprLoop i cs = .ok lines ∧
        List.Forall₂ (Describes t.categories t.psRecipe p t.numOfDealsCache)
          ((List.range' i cs.length).filter (fun j => 0 < t.psRecipe.getD j 0)) lines := by
  induction cs with
  | nil => intro i _ _; exact ⟨[], rfl, .nil⟩
  | cons c cs ih =>
    intro i h1 h2
    obtain ⟨rest, e1, e2⟩ := ih (i + 1) (fun j hj => by have := h1 (j + 1) (by simp; omega); omega)
      (fun j hj => by
        have := h2 (j + 1) (by simp; omega)
        rw [show i + 1 + j = i + (j + 1) by omega]
        exact this)
    have h0 := h1 0 (by simp)
    have h0' := h2 0 (by simp)
    simp only [Nat.add_zero, List.getElem_cons_zero] at h0 h0'
    have hr : pyGet t.psRecipe i = .ok (t.psRecipe.getD i 0) := by simp [pyGet, h0.1]
    have hpr : pyGet p i = .ok (p.getD i 0) := by simp [pyGet, h0.2]
    have hri : t.psRecipe[i]? = some (t.psRecipe.getD i 0) := by simp [h0.1]
    have hpi : p[i]? = some (p.getD i 0) := by simp [h0.2]
    rw [TradeWithSinglePrice.reprLoop, hr, List.length_cons, List.range'_succ]
    by_cases hpos : 0 < t.psRecipe.getD i 0
    · have hcomm : t.psRecipe.getD i 0 * t.numOfDealsCache = t.numOfDealsCache * t.psRecipe.getD i 0 := Nat.mul_comm _ _
      rw [List.filter_cons_of_pos (by simpa using hpos)]
      by_cases hs : c.size = t.psRecipe.getD i 0 * t.numOfDealsCache
      · refine ⟨PriceLine.all c c.size (p.getD i 0) :: rest, ?_, .cons ⟨h0'.1, ?_, rfl, le_rfl, ?_, hpi⟩ e2⟩
        · simp only [bind, Except.bind, gt_iff_lt, hpos, if_true, hp, hpr, e1]
          rw [if_pos hs]; rfl
        · rw [hri, Option.map_some, ← hcomm, ← hs]; rfl
        · simp [isRandom, Spec.traders, Spec.candidates]
      · refine ⟨PriceLine.random c (t.psRecipe.getD i 0 * t.numOfDealsCache) c.size (p.getD i 0) :: rest, ?_,
          .cons ⟨h0'.1, ?_, rfl, ?_, ?_, hpi⟩ e2⟩
        · simp only [bind, Except.bind, gt_iff_lt, hpos, if_true, hp, hpr, e1]
          rw [if_neg hs]; rfl
        · rw [hri, Option.map_some, ← hcomm]; rfl
        · simp only [Spec.traders, Spec.candidates]; omega
        · simp only [isRandom, Spec.traders, Spec.candidates, true_iff]; omega
    · rw [List.filter_cons_of_neg (by simpa using hpos)]
      refine ⟨rest, ?_, e2⟩
      simp only [bind, Except.bind, gt_iff_lt, hpos, if_false, e1]; rfl

theorem totalPaid_spec {cs : List AgentCategory} {r : List ℕ} {p : List ℚ} {d : ℕ} (is : List ℕ) {lines : List PriceLine}
    (h : List.Forall₂ (Describes cs r p d) (is.filter (fun j => 0 < r.getD j 0)) lines) :
    totalPaid lines = d * (is.map (fun i => (r.getD i 0 : ℚ) * p.getD i 0)).sum := by
  induction is generalizing lines with
  | nil => cases h; simp [totalPaid]
  | cons i is ih =>
    rw [List.map_cons, List.sum_cons]
    by_cases hpos : 0 < r.getD i 0
    · rw [List.filter_cons_of_pos (by simpa using hpos)] at h
      cases h with
      | cons h1 h2 =>
        rename_i l ls
        have e := ih h2
        have e1 := h1.traders
        have e2 := h1.price
        obtain ⟨x, hx, hx2⟩ := Option.map_eq_some_iff.1 e1
        unfold totalPaid at e ⊢
        rw [List.map_cons, List.sum_cons, e]
        rw [List.getD_eq_getElem?_getD (l := r), hx, List.getD_eq_getElem?_getD (l := p), e2, ← hx2]
        simp only [Option.getD_some]
        push_cast
        ring
    · rw [List.filter_cons_of_neg (by simpa using hpos)] at h
      rw [ih h, show r.getD i 0 = 0 by omega]
      simp

end Auctions
