import Verif.Model.PricesInteger
import Verif.Spec.LastCategory
import Verif.Spec.InitialPrices
import Verif.Proofs.Simultaneous
import Verif.Proofs.TreeShape
import Mathlib.Order.Bounds.Basic
import Mathlib.Tactic.FieldSimp

set_option autoImplicit false

/-! # Helper lemmas: explicit initial prices -/

namespace Auctions.IntegerPrices

open Auctions Spec

theorem lastPositive_eq {r : List ℕ} {k : ℕ} (hk : k ≤ r.length) {j : ℕ} (hj : j < k) (hp : 0 < r.getD j 0)
    (hl : ∀ i, j < i → i < k → r.getD i 0 = 0) : lastPositive r k = .ok (some j) := by
  induction k with
  | zero => omega
  | succ k ih =>
    have hk' : k < r.length := by omega
    rw [lastPositive, pyGet, List.getElem?_eq_getElem hk']
    simp only [bind, Except.bind]
    have hget : r.getD k 0 = r[k] := by simp [List.getD_eq_getElem?_getD, List.getElem?_eq_getElem hk']
    by_cases hjk : j = k
    · subst hjk
      rw [hget] at hp
      rw [if_pos hp]
    · have h0 := hl k (by omega) (by omega)
      rw [hget] at h0
      rw [if_neg (by omega)]
      exact ih (by omega) (by omega) (fun i h1 h2 => hl i h1 (by omega))

theorem lastPositive_zero {r : List ℕ} {k : ℕ} (hk : k ≤ r.length) (hl : ∀ i, i < k → r.getD i 0 = 0) :
    lastPositive r k = .ok none := by
  induction k with
  | zero => rfl
  | succ k ih =>
    have hk' : k < r.length := by omega
    rw [lastPositive, pyGet, List.getElem?_eq_getElem hk']
    simp only [bind, Except.bind]
    have hget : r.getD k 0 = r[k] := by simp [List.getD_eq_getElem?_getD, List.getElem?_eq_getElem hk']
    have h0 := hl k (by omega)
    rw [hget] at h0
    rw [if_neg (by omega)]
    exact ih (by omega) (fun i h => hl i (by omega))

/-- If every used category has the price `b`, the recipe sum is `b` times the number of agents. -/
theorem recipeSum_const {r : List ℕ} {x : List ℚ} {b : ℚ} (hlen : r.length = x.length)
    (h : ∀ i, 0 < r.getD i 0 → x.getD i 0 = b) : recipeSum r x = b * r.sum := by
  induction r generalizing x with
  | nil => simp
  | cons a r ih =>
    cases x with
    | nil => simp at hlen
    | cons p x =>
      rw [recipeSum_cons, ih (by simpa using hlen) (fun i hi => by simpa using h (i + 1) (by simpa using hi)), List.sum_cons]
      by_cases ha : a = 0
      · subst ha; simp
      · have := h 0 (by simp; omega)
        simp only [List.getD_cons_zero] at this
        rw [this]; push_cast; ring

theorem recipeSum_set_unused {r : List ℕ} {x : List ℚ} {j : ℕ} (q : ℚ) (hlen : r.length = x.length) (h : r.getD j 0 = 0) :
    recipeSum r (x.set j q) = recipeSum r x := by
  by_cases hj : j < r.length
  · have hr : r[j]? = some 0 := by
      rw [List.getElem?_eq_getElem hj]
      rw [List.getD_eq_getElem?_getD, List.getElem?_eq_getElem hj] at h
      simpa using h
    rw [recipeSum_set hr (List.getElem?_eq_getElem (by omega : j < x.length))]; simp
  · rw [List.set_eq_of_length_le (by omega)]

/-- The loop over the recipes. -/
theorem initialPricesLoop_spec {bound : ℚ} (hb : bound ≤ 0) {n D : ℕ} {T : List (List ℕ)} (hT : OwnLastCategories T)
    (hlen : ∀ r ∈ T, r.length = n) (hD : ∀ r ∈ T, r.sum ≤ D) {prices : List ℚ} (hp : prices.length = n)
    (hle : ∀ x ∈ prices, x ≤ bound) (huse : ∀ r ∈ T, ∀ i, 0 < r.getD i 0 → prices.getD i 0 = bound) :
    ∃ p, initialPricesLoop bound n D T prices = .ok p ∧ p.length = n ∧ (∀ x ∈ p, x ≤ bound) ∧
      (∀ r ∈ T, recipeSum r p = bound * D) ∧
      ∀ q : List ℕ, q.length = n → (∀ r ∈ T, ∀ j, LastCategory r j → q.getD j 0 = 0) → recipeSum q p = recipeSum q prices := by
  induction T generalizing prices with
  | nil => exact ⟨prices, rfl, hp, hle, by simp, by simp⟩
  | cons r T ih =>
    obtain ⟨h1, h2⟩ := hT
    rw [List.pairwise_cons] at h2
    obtain ⟨j, hj⟩ := h1 r (by simp)
    have hjlt : j < r.length := by
      by_contra h
      have := hj.1
      rw [List.getD_eq_getElem?_getD, List.getElem?_eq_none (by omega)] at this
      simp at this
    have hrn := hlen r (by simp)
    have hlast : lastPositive r n = .ok (some j) :=
      lastPositive_eq (by omega) (by omega) hj.1 (fun i h _ => hj.2 i h)
    have hpj : prices[j]? = some bound := by
      have := huse r (by simp) j hj.1
      rw [List.getD_eq_getElem?_getD, List.getElem?_eq_getElem (by omega)] at this
      rw [List.getElem?_eq_getElem (by omega)]
      simpa using this
    have hrj : r[j]? = some (r.getD j 0) := by
      rw [List.getD_eq_getElem?_getD, List.getElem?_eq_getElem hjlt]; rfl
    have hrpos : (0 : ℚ) < (r.getD j 0 : ℕ) := by exact_mod_cast hj.1
    obtain ⟨p, e1, e2, e3, e4, e5⟩ := ih (prices := prices.set j (bound * ((D : ℚ) - r.sum + (r.getD j 0 : ℕ)) / (r.getD j 0 : ℕ)))
      ⟨fun q hq => h1 q (by simp [hq]), h2.2⟩ (fun q hq => hlen q (by simp [hq])) (fun q hq => hD q (by simp [hq]))
      (by simpa using hp)
      (by
        intro x hx
        rcases List.mem_or_eq_of_mem_set hx with hx | rfl
        · exact hle x hx
        · rw [div_le_iff₀ hrpos]
          have hsum : (r.sum : ℚ) ≤ D := by exact_mod_cast hD r (by simp)
          nlinarith)
      (by
        intro q hq i hi
        have hne : i ≠ j := by
          rintro rfl
          have := ((h2.1 q hq) i).1 hj
          omega
        have := huse q (by simp [hq]) i hi
        rw [List.getD_eq_getElem?_getD, List.getElem?_set_ne (Ne.symm hne), ← List.getD_eq_getElem?_getD]
        exact this)
    refine ⟨p, ?_, e2, e3, ?_, ?_⟩
    · rw [initialPricesLoop, hlast]
      simp only [bind, Except.bind, pyGet, hpj, hrj]
      rw [if_neg (by simp)]
      exact e1
    · intro q hq
      rcases List.mem_cons.1 hq with rfl | hq
      · rw [e5 q hrn (fun r' hr' j' hj' => ((h2.1 r' hr') j').2 hj')]
        rw [recipeSum_set hrj hpj, recipeSum_const (by omega) (huse q (by simp))]
        field_simp
        ring
      · exact e4 q hq
    · intro q hq hq'
      rw [e5 q hq (fun r' hr' => hq' r' (by simp [hr']))]
      exact recipeSum_set_unused _ (by omega) (hq' r (by simp) j hj)

theorem foldl_max_spec (xs : List ℕ) (x : ℕ) :
    (xs.foldl max x ∈ x :: xs) ∧ ∀ y ∈ x :: xs, y ≤ xs.foldl max x := by
  induction xs generalizing x with
  | nil => simp
  | cons y ys ih =>
    obtain ⟨h1, h2⟩ := ih (max x y)
    simp only [List.foldl_cons]
    refine ⟨?_, ?_⟩
    · rcases List.mem_cons.1 h1 with h | h
      · rcases le_total x y with hxy | hxy
        · rw [h, max_eq_right hxy]; simp
        · rw [h, max_eq_left hxy]; simp
      · simp [h]
    · intro z hz
      have hm := h2 (max x y) (by simp)
      rcases List.mem_cons.1 hz with rfl | hz
      · exact le_trans (le_max_left _ _) hm
      · rcases List.mem_cons.1 hz with rfl | hz
        · exact le_trans (le_max_right _ _) hm
        · exact h2 z (by simp [hz])

/-- The explicit initial prices. -/
theorem calculateInitialPrices_spec {recipes : List (List ℕ)} {bound : ℚ} {n : ℕ} (hb : bound ≤ 0) (hne : recipes ≠ [])
    (hlen : ∀ r ∈ recipes, r.length = n) (hown : OwnLastCategories recipes) {L : ℕ}
    (hL : IsGreatest {s | ∃ r ∈ recipes, r.sum = s} L) :
    ∃ p, calculateInitialPrices recipes bound = .ok p ∧ p.length = n ∧ (∀ x ∈ p, x ≤ bound) ∧
      ∀ r ∈ recipes, recipeSum r p = bound * L := by
  cases recipes with
  | nil => exact absurd rfl hne
  | cons r rs =>
    have hrn := hlen r (by simp)
    have hmax := foldl_max_spec (rs.map List.sum) r.sum
    have hLe : (rs.map List.sum).foldl max r.sum = L := by
      apply le_antisymm
      · have : (rs.map List.sum).foldl max r.sum ∈ (r :: rs).map List.sum := by simpa using hmax.1
        obtain ⟨q, hq, e⟩ := List.mem_map.1 this
        rw [← e]; exact hL.2 ⟨q, hq, rfl⟩
      · obtain ⟨q, hq, rfl⟩ := hL.1
        apply hmax.2
        have := List.mem_map_of_mem (f := List.sum) hq
        simpa using this
    obtain ⟨p, e1, e2, e3, e4, -⟩ := initialPricesLoop_spec hb (n := n) (D := L) hown hlen (fun q hq => hL.2 ⟨q, hq, rfl⟩)
      (prices := List.replicate n bound) (by simp) (by intro x hx; rw [List.eq_of_mem_replicate hx])
      (by
        intro q hq i hi
        have hin : i < n := by
          by_contra h
          rw [List.getD_eq_getElem?_getD, List.getElem?_eq_none (by rw [hlen q hq]; omega)] at hi
          simp at hi
        simp [List.getD_eq_getElem?_getD, hin])
    refine ⟨p, ?_, e2, e3, e4⟩
    rw [calculateInitialPrices]
    simp only [hLe, hrn]
    exact e1

/-- In a forest of different categories, the last category of a path is on no other path. -/
theorem paths_own_last {f : Forest} (hn : (nodes f).Nodup) :
    (f.pathsToLeaf id []).Pairwise (fun p q => (∀ x ∈ p.getLast?, x ∉ q) ∧ ∀ x ∈ q.getLast?, x ∉ p) := by
  induction f with
  | nil => simp [Forest.pathsToLeaf]
  | cons i ch s ih1 ih2 =>
    rw [nodes, List.nodup_cons, List.mem_append, List.nodup_append] at hn
    obtain ⟨hi, hch, hs, hdis⟩ := hn
    push Not at hi
    rw [pathsToLeaf_cons, List.pairwise_append]
    refine ⟨?_, ih2 hs, ?_⟩
    · split
      · simp
      · rename_i hc
        rw [pathsToLeaf_prefix, List.pairwise_map]
        apply (ih1 hch).imp_of_mem
        intro p q hp hq h
        have hp' := mem_pathsToLeaf.1 hp
        have hq' := mem_pathsToLeaf.1 hq
        have aux : ∀ p q : List ℕ, IsPath ch p → (∀ x ∈ p.getLast?, x ∉ q) → ∀ x ∈ (([] : List ℕ) ++ [id i] ++ p.map id).getLast?, x ∉ ([] : List ℕ) ++ [id i] ++ q.map id := by
          intro p q hp' h x hx
          have hpn := isPath_ne_nil hp'
          simp only [List.nil_append, id, List.map_id, List.singleton_append] at hx ⊢
          rw [List.getLast?_cons] at hx
          obtain ⟨y, hy⟩ : ∃ y, p.getLast? = some y := by
            cases hl : p.getLast? with
            | none => rw [List.getLast?_eq_none_iff] at hl; exact absurd hl hpn
            | some y => exact ⟨y, rfl⟩
          rw [hy] at hx
          simp only [Option.getD_some, Option.mem_def, Option.some.injEq] at hx
          subst hx
          rw [List.mem_cons]
          rintro (rfl | hq)
          · exact hi.1 (isPath_subset hp' _ (List.mem_of_getLast? hy))
          · exact h y hy hq
        exact ⟨aux p q hp' h.1, aux q p hq' h.2⟩
    · intro p hp q hq
      have hq' := isPath_subset (mem_pathsToLeaf.1 hq)
      have hp' : ∀ x ∈ p, x ∉ nodes s := by
        intro x hx hxs
        split at hp
        · simp only [List.nil_append, id, List.mem_singleton] at hp
          subst hp
          simp only [List.mem_singleton] at hx
          subst hx; exact hi.2 hxs
        · rw [pathsToLeaf_prefix] at hp
          obtain ⟨q', hq'', rfl⟩ := List.mem_map.1 hp
          simp only [List.nil_append, id, List.map_id, List.singleton_append, List.mem_cons] at hx
          rcases hx with rfl | hx
          · exact hi.2 hxs
          · exact hdis _ (isPath_subset (mem_pathsToLeaf.1 hq'') _ hx) _ hxs rfl
      constructor
      · intro x hx hxq; exact hp' x (List.mem_of_getLast? hx) (hq' x hxq)
      · intro x hx hxp; exact hp' x hxp (hq' x (List.mem_of_getLast? hx))

end Auctions.IntegerPrices
