import Verif.Model.OldPrices
import Verif.Spec.OldPrices
import Verif.Proofs.Simultaneous
import Verif.Proofs.Trade

set_option autoImplicit false

/-! # Helper lemmas: the old price-vectors -/

namespace Auctions

open Spec

namespace OldPriceVectors

theorem getD_ok {α : Type} {l : List α} {i : ℕ} (d : α) (h : i < l.length) : pyGet l i = .ok (l.getD i d) := by
  simp [pyGet, h]

/-- The shared list never has two prices for a category. -/
theorem mapStep_ok {recipe : List ℕ} {prices : List ℚ} {n : ℕ} (hr : recipe.length = n) (hp : prices.length = n) {result : List (Option ℚ)} (hl : result.length = n)
    (hres : ∀ (j : ℕ) (q : ℚ), result[j]? = some (some q) → prices[j]? = some q) {c : ℕ} (hc : c < n) :
    ∃ result', mapStep recipe prices result c = .ok result' ∧ result'.length = n ∧ (∀ (j : ℕ) (q : ℚ), result'[j]? = some (some q) → prices[j]? = some q) ∧
      (∀ j : ℕ, (result'[j]? = some none ↔ result[j]? = some none ∧ (j = c → recipe.getD j 0 = 0))) := by
  unfold mapStep
  rw [getD_ok 0 (by omega), getD_ok 0 (show c < prices.length by omega), getD_ok none (show c < result.length by omega)]
  simp only [bind, Except.bind]
  by_cases h0 : recipe.getD c 0 > 0
  · rw [if_pos h0]
    have hgc : result[c]? = some (result.getD c none) := by
      simp [List.getD_eq_getElem?_getD, List.getElem?_eq_getElem (show c < result.length by omega)]
    have hpc : prices[c]? = some (prices.getD c 0) := by
      simp [List.getD_eq_getElem?_getD, List.getElem?_eq_getElem (show c < prices.length by omega)]
    cases hx : result.getD c none with
    | none =>
      refine ⟨_, rfl, by simpa using hl, ?_, ?_⟩
      · intro j q hq
        by_cases hj : c = j
        · subst hj
          rw [List.getElem?_set_self (by omega)] at hq
          simp only [Option.some.injEq] at hq
          rw [hpc, hq]
        · rw [List.getElem?_set_ne hj] at hq
          exact hres j q hq
      · intro j
        by_cases hj : c = j
        · subst hj
          rw [List.getElem?_set_self (by omega)]
          simp only [Option.some.injEq, reduceCtorEq, false_iff, not_and, forall_const]
          intro _; omega
        · rw [List.getElem?_set_ne hj]
          exact ⟨fun h => ⟨h, fun h' => absurd h'.symm hj⟩, fun h => h.1⟩
    | some q =>
      rw [hx] at hgc
      have := hres c q hgc
      rw [hpc] at this
      simp only [Option.some.injEq] at this
      simp only [this, ne_eq, not_true_eq_false, if_false]
      refine ⟨_, rfl, hl, hres, fun j => ⟨fun h => ⟨h, fun hj => ?_⟩, fun h => h.1⟩⟩
      subst hj
      rw [hgc] at h
      simp at h
  · rw [if_neg h0]
    refine ⟨_, rfl, hl, hres, fun j => ⟨fun h => ⟨h, fun hj => ?_⟩, fun h => h.1⟩⟩
    subst hj; omega

theorem mapSteps_ok {recipe : List ℕ} {prices : List ℚ} {n : ℕ} (hr : recipe.length = n) (hp : prices.length = n) (L : List ℕ) (hL : ∀ c ∈ L, c < n) {result : List (Option ℚ)} (hl : result.length = n)
    (hres : ∀ (j : ℕ) (q : ℚ), result[j]? = some (some q) → prices[j]? = some q) :
    ∃ result', L.foldlM (mapStep recipe prices) result = .ok result' ∧ result'.length = n ∧ (∀ (j : ℕ) (q : ℚ), result'[j]? = some (some q) → prices[j]? = some q) ∧
      (∀ j : ℕ, (result'[j]? = some none ↔ result[j]? = some none ∧ (j ∈ L → recipe.getD j 0 = 0))) := by
  induction L generalizing result with
  | nil => exact ⟨_, rfl, hl, hres, by simp⟩
  | cons c L ih =>
    obtain ⟨r1, h1, h2, h3, h4⟩ := mapStep_ok hr hp hl hres (hL c (by simp))
    obtain ⟨r2, g1, g2, g3, g4⟩ := ih (fun x hx => hL x (by simp [hx])) h2 h3
    refine ⟨r2, ?_, g2, g3, fun j => ?_⟩
    · rw [List.foldlM_cons, h1]; exact g1
    · rw [g4, h4, List.mem_cons]
      tauto

theorem mapLoop_ok {prices : List ℚ} {n : ℕ} (hp : prices.length = n) (rs : List (List ℕ)) (hr : ∀ r ∈ rs, r.length = n) {result : List (Option ℚ)} (hl : result.length = n)
    (hres : ∀ (j : ℕ) (q : ℚ), result[j]? = some (some q) → prices[j]? = some q) :
    ∃ result', mapLoop n prices rs result = .ok result' ∧ result'.length = n ∧ (∀ (j : ℕ) (q : ℚ), result'[j]? = some (some q) → prices[j]? = some q) ∧
      (∀ j : ℕ, (result'[j]? = some none ↔ result[j]? = some none ∧ ∀ r ∈ rs, r.getD j 0 = 0)) := by
  induction rs generalizing result with
  | nil => exact ⟨_, rfl, hl, hres, by simp⟩
  | cons r rs ih =>
    obtain ⟨r1, h1, h2, h3, h4⟩ := mapSteps_ok (hr r (by simp)) hp (List.range n) (fun c hc => List.mem_range.1 hc) hl hres
    obtain ⟨r2, g1, g2, g3, g4⟩ := ih (fun x hx => hr x (by simp [hx])) h2 h3
    refine ⟨r2, ?_, g2, g3, fun j => ?_⟩
    · simp only [mapLoop, h1, bind, Except.bind]; exact g1
    · rw [g4, h4, List.forall_mem_cons]
      have : (j ∈ List.range n → r.getD j 0 = 0) ↔ r.getD j 0 = 0 := by
        refine ⟨fun h => ?_, fun h _ => h⟩
        by_cases hj : j < n
        · exact h (List.mem_range.2 hj)
        · simp [List.getD_eq_getElem?_getD, List.getElem?_eq_none (show r.length ≤ j by rw [hr r (by simp)]; omega)]
      rw [this, and_assoc]

variable {recipes : List (List ℕ)} {incs : List (ℕ × ℚ)} {p0 : List ℚ} {s : ℚ}

/-- A recipe and its increase. -/
def Chosen (p0 : List ℚ) (s : ℚ) (incs : List (ℕ × ℚ)) (r : List ℕ) (x : ℕ × ℚ) : Prop :=
  (r.length = p0.length ∧ (∀ y ∈ r, y = 0 ∨ y = 1) ∧ recipeSum r p0 = s) ∧ x ∈ incs ∧ r.getD x.1 0 = 1 ∧ ∀ y ∈ incs, r.getD y.1 0 = 1 → y = x

theorem Chosen.lt {r : List ℕ} {x : ℕ × ℚ} (h : Chosen p0 s incs r x) : x.1 < p0.length := by
  by_contra hge
  have := h.2.2.1
  rw [List.getD_eq_getElem?_getD, List.getElem?_eq_none (by rw [h.1.1]; omega)] at this
  simp at this

/-- The price-sum when some categories of increases are raised. -/
theorem Chosen.sum {r : List ℕ} {x : ℕ × ℚ} (h : Chosen p0 s incs r x) {q : List ℚ} (hq : q.length = p0.length) {D : List ℕ} (hD : ∀ c ∈ D, ∃ y ∈ incs, y.1 = c) {e : ℕ → ℚ}
    (hqj : ∀ j < p0.length, q.getD j 0 = p0.getD j 0 + if j ∈ D then e j else 0) : recipeSum r q = s + if x.1 ∈ D then e x.1 else 0 := by
  obtain ⟨⟨h1, h2, h3⟩, h4, h5, h6⟩ := h
  have hlt : x.1 < p0.length := Chosen.lt ⟨⟨h1, h2, h3⟩, h4, h5, h6⟩
  rw [recipeSum_eq_sum h1 hq, ← h3, recipeSum_eq_sum h1 rfl]
  have e1 : ∀ j ∈ Finset.range p0.length, (rAt r j : ℚ) * q.getD j 0 = (rAt r j : ℚ) * p0.getD j 0 + if j = x.1 then (if x.1 ∈ D then e x.1 else 0) else 0 := by
    intro j hj
    have hj := Finset.mem_range.1 hj
    rw [hqj j hj, mul_add]
    congr 1
    by_cases hjx : j = x.1
    · rw [if_pos hjx, hjx, show (rAt r x.1 : ℚ) = 1 by exact_mod_cast h5, one_mul]
    · rw [if_neg hjx]
      split_ifs with hjD
      · obtain ⟨y, hy, rfl⟩ := hD j hjD
        have : rAt r y.1 = 0 := by
          rcases h2 (rAt r y.1) (by rw [rAt_eq_getElem (by omega)]; exact List.getElem_mem _) with h0 | h0
          · exact h0
          · exact absurd (congrArg Prod.fst (h6 y hy h0)) hjx
        rw [this]; simp
      · simp
  rw [Finset.sum_congr rfl e1, Finset.sum_add_distrib, Finset.sum_ite_eq', if_pos (Finset.mem_range.2 hlt)]

/-- The sums before the increase. -/
theorem newSums_eq {xs : List (ℕ × ℚ)} {rs : List (List ℕ)} (h : List.Forall₂ (Chosen p0 s incs) rs xs) :
    newSums p0 rs xs = .ok (xs.map (fun x => s + (x.2 - p0.getD x.1 0))) := by
  induction h with
  | nil => rfl
  | @cons r x rs xs h hrest ih =>
    have hlt := h.lt
    have hrl : x.1 < r.length := by rw [h.1.1]; exact hlt
    obtain ⟨c, t⟩ := x
    simp only [newSums, AscendingPriceVector.priceSumAfterIncrease, AscendingPriceVector.priceSumWithoutCategory, AscendingPriceVector.priceSum, AscendingPriceVector.initList]
    rw [getD_ok 0 hrl, getD_ok 0 hlt, dot_eq, h.1.2.2, h.2.2.1, ih]
    simp only [bind, Except.bind, List.map_cons]
    congr 2
    push_cast
    ring

/-- The loop of the increases. -/
theorem raiseLoop_eq {bound : ℚ} {e : ℕ → ℚ} (he : ∀ y ∈ incs, e y.1 = min (y.2 - p0.getD y.1 0) (bound - s)) {xs : List (ℕ × ℚ)} {rs : List (List ℕ)}
    (h : List.Forall₂ (Chosen p0 s incs) rs xs) {D : List ℕ} (hD : ∀ c ∈ D, ∃ y ∈ incs, y.1 = c) {q : List ℚ} (hq : q.length = p0.length)
    (hqj : ∀ j < p0.length, q.getD j 0 = p0.getD j 0 + if j ∈ D then e j else 0) :
    ∃ q', raiseLoop bound rs xs q = .ok q' ∧ q'.length = p0.length ∧ ∀ j < p0.length, q'.getD j 0 = p0.getD j 0 + if j ∈ D ++ xs.map Prod.fst then e j else 0 := by
  induction h generalizing D q with
  | nil => exact ⟨q, rfl, hq, by simpa using hqj⟩
  | @cons r x rs xs h hrest ih =>
    have hlt := h.lt
    have hrl : x.1 < r.length := by rw [h.1.1]; exact hlt
    have hsum := h.sum hq hD hqj
    have hqx := hqj x.1 hlt
    have hex := he x h.2.1
    have hr1 := h.2.2.1
    have hstep : ∃ st, (AscendingPriceVector.initList r q).increasePriceUpToBalance x.1 x.2 bound = .ok ⟨r, q.set x.1 (p0.getD x.1 0 + e x.1), st⟩ := by
      simp only [AscendingPriceVector.increasePriceUpToBalance, AscendingPriceVector.priceSumWithoutCategory, AscendingPriceVector.priceSum, AscendingPriceVector.initList]
      rw [getD_ok 0 hrl, getD_ok 0 (show x.1 < q.length by omega), dot_eq, hsum, hr1, hqx]
      simp only [bind, Except.bind, Nat.cast_one, one_mul]
      have hw : s + (if x.1 ∈ D then e x.1 else 0) - (p0.getD x.1 0 + if x.1 ∈ D then e x.1 else 0) = s - p0.getD x.1 0 := by ring
      rw [hw]
      split_ifs with hc
      · refine ⟨some .stoppedAtZeroSum, ?_⟩
        simp only [pyDiv, one_ne_zero, if_false]
        have : e x.1 = bound - s := by rw [hex]; exact min_eq_right (by linarith)
        rw [this]
        congr 3
        ring
      · refine ⟨some .stoppedAtAgentValue, ?_⟩
        have : e x.1 = x.2 - p0.getD x.1 0 := by
          rw [hex]; exact min_eq_left (by push Not at hc; linarith)
        rw [this]
        congr 3
        ring
    obtain ⟨st, hst⟩ := hstep
    obtain ⟨c, t⟩ := x
    obtain ⟨q', g1, g2, g3⟩ := ih (D := D ++ [c]) (q := q.set c (p0.getD c 0 + e c)) (by
        intro c' hc'
        rcases List.mem_append.1 hc' with hc' | hc'
        · exact hD c' hc'
        · exact ⟨(c, t), h.2.1, (List.mem_singleton.1 hc').symm⟩) (by rw [List.length_set]; exact hq) (by
        intro j hj
        by_cases hjc : c = j
        · subst hjc
          simp [List.getD_eq_getElem?_getD, List.getElem?_set_self (show c < q.length by omega)]
        · have := hqj j hj
          rw [List.getD_eq_getElem?_getD, List.getElem?_set_ne hjc, ← List.getD_eq_getElem?_getD, this]
          simp [Ne.symm hjc])
    refine ⟨q', ?_, g2, ?_⟩
    · simp only [raiseLoop, hst, bind, Except.bind]
      exact g1
    · intro j hj
      rw [g3 j hj]
      rw [List.map_cons, List.append_assoc, List.singleton_append]

end OldPriceVectors

theorem length_filter_eq_one {α : Type} [DecidableEq α] {l : List α} (h : l.Nodup) {x : α} (hx : x ∈ l) :
    (l.filter (fun y => y = x)).length = 1 := by
  induction l with
  | nil => simp at hx
  | cons a l ih =>
    rw [List.nodup_cons] at h
    by_cases hax : a = x
    · subst hax
      have : l.filter (fun y => y = a) = [] := by
        rw [List.filter_eq_nil_iff]
        intro y hy hya
        have : y = a := by simpa using hya
        exact h.1 (this ▸ hy)
      simp [this]
    · rcases List.mem_cons.1 hx with h1 | h1
      · exact absurd h1.symm hax
      · rw [List.filter_cons_of_neg (by simpa using hax)]
        exact ih h.2 h1

end Auctions
