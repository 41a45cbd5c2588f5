import Verif.Model.GetPrices
import Verif.Proofs.TreeShape
import Mathlib.Data.Nat.Count
import Mathlib.Tactic.Linarith
import Mathlib.Tactic.Positivity

set_option autoImplicit false

/-!
# C78: the market that `getPrices` makes of the prices of a stock
-/

namespace Auctions.Props

open Auctions StockData

/-- One of `L * s` consecutive numbers in `s` has a given remainder. -/
theorem count_remainder (s c L : ℕ) (hc : c < s) : (List.range (L * s)).countP (fun i => i % s = c) = L := by
  have one : ∀ k, (List.range s).countP (fun i => (k * s + i) % s = c) = 1 := by
    intro k
    have h1 : ∀ i ∈ List.range s, decide ((k * s + i) % s = c) = decide (i = c) := by
      intro i hi
      have := List.mem_range.1 hi
      rw [Nat.mul_comm, Nat.mul_add_mod, Nat.mod_eq_of_lt this]
    have h2 : (List.range s).countP (fun i => decide ((k * s + i) % s = c)) = (List.range s).countP (fun i => decide (i = c)) :=
      List.countP_congr (by intro i hi; rw [h1 i hi])
    rw [h2]
    have h3 : (List.range s).count c = 1 := List.count_eq_one_of_mem List.nodup_range (List.mem_range.2 hc)
    rw [← h3, List.count]
    apply List.countP_congr
    intro i _
    simp
  induction L with
  | zero => simp
  | succ L ih =>
    rw [Nat.add_mul, Nat.one_mul, List.range_add, List.countP_append, ih, List.countP_map]
    have := one L
    simpa [Function.comp_def] using this

/-- Dealing out: what the loop leaves in category `j`. -/
theorem deal_out (g : ℕ → List ℚ) (h : ℕ → ℕ) (l : List ℕ) (start : List (List ℚ)) :
    (l.foldl (fun data i => data.modify (h i) (· ++ g i)) start).length = start.length ∧
    ∀ j < start.length, (l.foldl (fun data i => data.modify (h i) (· ++ g i)) start).getD j [] =
      start.getD j [] ++ (l.filter (fun i => h i = j)).flatMap g := by
  induction l generalizing start with
  | nil => simp
  | cons a l ih =>
    obtain ⟨h1, h2⟩ := ih (start.modify (h a) (· ++ g a))
    rw [List.length_modify] at h1 h2
    rw [List.foldl_cons]
    refine ⟨h1, fun j hj => ?_⟩
    rw [h2 j hj]
    rw [List.getD_eq_getElem?_getD, List.getElem?_modify, List.getElem?_eq_getElem hj]
    by_cases hja : h a = j
    · subst hja
      simp [List.getD_eq_getElem?_getD, List.getElem?_eq_getElem hj]
    · simp [hja, List.getD_eq_getElem?_getD, List.getElem?_eq_getElem hj]

theorem split_spec {buyers sellers : List ℚ} {recipe : List ℕ} (hr : recipe ≠ []) :
    ∃ data, split buyers sellers recipe = .ok data ∧ data.length = recipe.length ∧
      (data.getD 0 []).length = buyers.length * recipe.getD 0 0 ∧
      (∀ x ∈ data.getD 0 [], ∃ b ∈ buyers, x = b * ((recipe.sum - recipe.getD 0 0 : ℕ) : ℚ)) ∧
      ∀ j, 0 < j → j < recipe.length → (data.getD j []).length = sellers.length * recipe.getD j 0 ∧ ∀ x ∈ data.getD j [], x ∈ sellers := by
  have hpos : 0 < recipe.length := List.length_pos_iff.2 hr
  have h0 : pyGet recipe 0 = .ok (recipe.getD 0 0) := by
    simp [pyGet, List.getElem?_eq_getElem hpos, List.getD_eq_getElem?_getD]
  set first := recipe.getD 0 0 with hfirst
  set start : List (List ℚ) := (List.replicate recipe.length []).modify 0
    (· ++ buyers.flatMap (fun buyer => List.replicate first (buyer * ((recipe.sum - first : ℕ) : ℚ)))) with hstart
  have hsl : start.length = recipe.length := by simp [hstart]
  obtain ⟨h1, h2⟩ := deal_out (fun i => List.replicate (recipe.getD (i % (recipe.length - 1) + 1) 0) (sellers.getD (i % sellers.length) 0))
    (fun i => i % (recipe.length - 1) + 1) (List.range (sellers.length * (recipe.length - 1))) start
  refine ⟨_, by rw [split, h0]; rfl, by rw [h1, hsl], ?_⟩
  have e0 : start.getD 0 [] = buyers.flatMap (fun buyer => List.replicate first (buyer * ((recipe.sum - first : ℕ) : ℚ))) := by
    rw [List.getD_eq_getElem?_getD, hstart, List.getElem?_modify]
    simp [hpos]
  have hz : (List.range (sellers.length * (recipe.length - 1))).filter (fun i => i % (recipe.length - 1) + 1 = 0) = [] := by
    rw [List.filter_eq_nil_iff]; simp
  have hc0 := h2 0 (by omega)
  rw [hz, List.flatMap_nil, List.append_nil, e0] at hc0
  rw [hc0]
  refine ⟨?_, ?_, ?_⟩
  · rw [List.length_flatMap]
    simp
  · intro x hx
    obtain ⟨b, hb, hx⟩ := List.mem_flatMap.1 hx
    exact ⟨b, hb, (List.mem_replicate.1 hx).2⟩
  · intro j hj0 hj
    have hcj := h2 j (by omega)
    have ej : start.getD j [] = [] := by
      rw [List.getD_eq_getElem?_getD, hstart, List.getElem?_modify]
      simp [hj, hj0.ne]
    rw [ej, List.nil_append] at hcj
    rw [hcj]
    constructor
    · rw [List.length_flatMap]
      have : ((List.range (sellers.length * (recipe.length - 1))).filter (fun i => i % (recipe.length - 1) + 1 = j)).map
          (fun i => (List.replicate (recipe.getD (i % (recipe.length - 1) + 1) 0) (sellers.getD (i % sellers.length) 0)).length)
          = ((List.range (sellers.length * (recipe.length - 1))).filter (fun i => i % (recipe.length - 1) + 1 = j)).map (fun _ => recipe.getD j 0) := by
        apply List.map_congr_left
        intro i hi
        have := (List.mem_filter.1 hi).2
        simp only [decide_eq_true_eq] at this
        rw [List.length_replicate, this]
      rw [this, List.map_const', List.sum_replicate_nat, ← List.countP_eq_length_filter]
      congr 1
      have h3 := count_remainder (recipe.length - 1) (j - 1) sellers.length (by omega)
      refine Eq.trans (List.countP_congr ?_) h3
      intro i _
      simp only [decide_eq_true_eq]
      omega
    · intro x hx
      obtain ⟨i, hi, hx⟩ := List.mem_flatMap.1 hx
      have hi' := List.mem_range.1 (List.mem_filter.1 hi).1
      have hl : 0 < sellers.length := by
        rcases Nat.eq_zero_or_pos sellers.length with h | h
        · rw [h] at hi'; simp at hi'
        · exact h
      rw [(List.mem_replicate.1 hx).2, List.getD_eq_getElem?_getD, List.getElem?_eq_getElem (Nat.mod_lt _ hl)]
      exact List.getElem_mem _

theorem pyInt_nonneg {x : ℚ} (h : 0 ≤ x) : 0 ≤ (pyInt (x * 1000) : ℚ) := by
  have h0 : (0 : ℚ) ≤ x * 1000 := by positivity
  rw [pyInt, if_pos h0]
  exact_mod_cast Int.floor_nonneg.2 h0

theorem pyInt_nonpos {x : ℚ} (h : x ≤ 0) : (pyInt (x * 1000) : ℚ) ≤ 0 := by
  have h0 : x * 1000 ≤ 0 := by linarith
  rw [pyInt]
  split_ifs with h1
  · have : x * 1000 = 0 := le_antisymm h0 h1
    rw [this]; simp
  · have : ⌈x * 1000⌉ ≤ 0 := Int.ceil_le.2 (by exact_mod_cast h0)
    exact_mod_cast this

theorem pyInt_neg (p : ℚ) (h : 0 ≤ p) : (pyInt (-1 * p * 1000) : ℚ) = -(⌊1000 * p⌋ : ℚ) := by
  rw [pyInt]
  split_ifs with h1
  · have : p = 0 := by linarith
    subst this; simp
  · rw [show -1 * p * 1000 = -(1000 * p) by ring, Int.ceil_neg]
    push_cast
    rfl

/-- The number of procurement-sets of the market, for a file with `R` lines: a line counts once for four recipes, twice for the others. -/
def setsOf (R : ℕ) (recipe : List ℕ) : ℕ := if recipe ∈ [[2, 1], [1, 2], [2, 1, 1], [1, 1, 1]] then R else 2 * R

/-- What is known of the lists that `getPrices` makes. -/
structure PricesFor (recipe : List ℕ) (data : List (List ℚ)) : Prop where
  categories : data.length = recipe.length
  buyers : ∀ x ∈ data.getD 0 [], 0 ≤ x ∧ ∃ z : ℤ, x = z
  sellers : ∀ j, 0 < j → j < recipe.length → ∀ x ∈ data.getD j [], x ≤ 0 ∧ ∃ z : ℤ, x = z

theorem thousandths {recipe : List ℕ} {data : List (List ℚ)} (h1 : data.length = recipe.length) (h2 : ∀ x ∈ data.getD 0 [], 0 ≤ x)
    (h3 : ∀ j, 0 < j → j < recipe.length → ∀ x ∈ data.getD j [], x ≤ 0) :
    PricesFor recipe (data.map (fun category => category.map (fun x => (pyInt (x * 1000) : ℚ)))) ∧
    ∀ j, ((data.map (fun category => category.map (fun x => (pyInt (x * 1000) : ℚ)))).getD j []) = (data.getD j []).map (fun x => (pyInt (x * 1000) : ℚ)) := by
  have hj : ∀ j, ((data.map (fun category => category.map (fun x => (pyInt (x * 1000) : ℚ)))).getD j []) =
      (data.getD j []).map (fun x => (pyInt (x * 1000) : ℚ)) := by
    intro j
    simp only [List.getD_eq_getElem?_getD, List.getElem?_map]
    cases data[j]? <;> simp
  refine ⟨⟨by simpa using h1, ?_, ?_⟩, hj⟩
  · rw [hj]
    intro x hx
    obtain ⟨y, hy, rfl⟩ := List.mem_map.1 hx
    exact ⟨pyInt_nonneg (h2 y hy), _, rfl⟩
  · intro j h0 hjl
    rw [hj]
    intro x hx
    obtain ⟨y, hy, rfl⟩ := List.mem_map.1 hx
    exact ⟨pyInt_nonpos (h3 j h0 hjl y hy), _, rfl⟩

theorem minus_nonpos {l : List ℚ} (h : ∀ x ∈ l, 0 ≤ x) : ∀ x ∈ l.map (-1 * ·), x ≤ 0 := by
  intro x hx
  obtain ⟨y, hy, rfl⟩ := List.mem_map.1 hx
  have := h y hy
  linarith

theorem sums_nonneg {a b : List ℚ} (ha : ∀ x ∈ a, 0 ≤ x) (hb : ∀ x ∈ b, 0 ≤ x) : ∀ x ∈ List.zipWith (· + ·) a b, 0 ≤ x := by
  induction a generalizing b with
  | nil => simp
  | cons y a ih =>
    cases b with
    | nil => simp
    | cons z b =>
      simp only [List.mem_cons, forall_eq_or_imp] at ha hb
      simp only [List.zipWith_cons_cons, List.mem_cons, forall_eq_or_imp]
      exact ⟨add_nonneg ha.1 hb.1, ih ha.2 hb.2⟩

theorem sums_nonpos {a b : List ℚ} (ha : ∀ x ∈ a, x ≤ 0) (hb : ∀ x ∈ b, x ≤ 0) : ∀ x ∈ List.zipWith (· + ·) a b, x ≤ 0 := by
  induction a generalizing b with
  | nil => simp
  | cons y a ih =>
    cases b with
    | nil => simp
    | cons z b =>
      simp only [List.mem_cons, forall_eq_or_imp] at ha hb
      simp only [List.zipWith_cons_cons, List.mem_cons, forall_eq_or_imp]
      exact ⟨add_nonpos ha.1 hb.1, ih ha.2 hb.2⟩

theorem minus_bounded {l : List ℚ} {P : ℚ} (h : ∀ x ∈ l, |x| ≤ P) : ∀ x ∈ l.map (-1 * ·), |x| ≤ P := by
  intro x hx
  obtain ⟨y, hy, rfl⟩ := List.mem_map.1 hx
  have := h y hy
  simpa [abs_neg] using this

theorem sums_bounded {a b : List ℚ} {P : ℚ} (ha : ∀ x ∈ a, |x| ≤ P) (hb : ∀ x ∈ b, |x| ≤ P) : ∀ x ∈ List.zipWith (· + ·) a b, |x| ≤ 2 * P := by
  induction a generalizing b with
  | nil => simp
  | cons y a ih =>
    cases b with
    | nil => simp
    | cons z b =>
      simp only [List.mem_cons, forall_eq_or_imp] at ha hb
      simp only [List.zipWith_cons_cons, List.mem_cons, forall_eq_or_imp]
      refine ⟨?_, ih ha.2 hb.2⟩
      have := abs_add_le y z
      linarith [ha.1, hb.1]

theorem pyInt_bounded {x B : ℚ} (h : |x| ≤ B) : |(pyInt (x * 1000) : ℚ)| ≤ 1000 * B := by
  rw [abs_le] at h
  rw [pyInt]
  split_ifs with h1
  · have h0 : 0 ≤ ⌊x * 1000⌋ := Int.floor_nonneg.2 h1
    have h0' : (0 : ℚ) ≤ ⌊x * 1000⌋ := by exact_mod_cast h0
    rw [abs_of_nonneg h0']
    have := Int.floor_le (x * 1000)
    linarith [h.2]
  · have h0 : ⌈x * 1000⌉ ≤ 0 := Int.ceil_le.2 (by push_cast; linarith)
    have h0' : (⌈x * 1000⌉ : ℚ) ≤ 0 := by exact_mod_cast h0
    rw [abs_of_nonpos h0']
    have := Int.le_ceil (x * 1000)
    linarith [h.1]

/-- No number of the lists is larger than the largest price of the file, in thousandths, times the number of agents in a deal. -/
theorem get_prices_bounded {high close opening low : List ℚ} {recipe : List ℕ} {P : ℚ} (hP : 0 ≤ P)
    (p1 : ∀ x ∈ high, |x| ≤ P) (p2 : ∀ x ∈ close, |x| ≤ P) (p3 : ∀ x ∈ opening, |x| ≤ P) (p4 : ∀ x ∈ low, |x| ≤ P)
    (hr : recipe ≠ []) (hpos : ∀ c ∈ recipe, 0 < c) {data : List (List ℚ)} (h : getPrices high close opening low recipe = .ok data) :
    ∀ l ∈ data, ∀ x ∈ l, |x| ≤ 1000 * (P * (recipe.sum : ℚ)) := by
  have hb : ∀ x ∈ high ++ close, |x| ≤ P := by
    intro x hx
    rcases List.mem_append.1 hx with h | h
    · exact p1 x h
    · exact p2 x h
  have n3 := minus_bounded p3
  have n4 := minus_bounded p4
  have hs : ∀ x ∈ opening.map (-1 * ·) ++ low.map (-1 * ·), |x| ≤ P := by
    intro x hx
    rcases List.mem_append.1 hx with h | h
    · exact n3 x h
    · exact n4 x h
  suffices key : ∃ data' : List (List ℚ),
      getPrices high close opening low recipe = .ok (data'.map (fun category => category.map (fun x => (pyInt (x * 1000) : ℚ)))) ∧
      ∀ l ∈ data', ∀ x ∈ l, |x| ≤ P * (recipe.sum : ℚ) by
    obtain ⟨data', k1, k2⟩ := key
    rw [k1] at h
    obtain rfl := Except.ok.inj h
    intro l hl x hx
    obtain ⟨l', hl', rfl⟩ := List.mem_map.1 hl
    obtain ⟨y, hy, rfl⟩ := List.mem_map.1 hx
    exact pyInt_bounded (k2 l' hl' y hy)
  have up : ∀ {l : List ℚ} {k : ℕ}, k ≤ recipe.sum → (∀ x ∈ l, |x| ≤ (k : ℚ) * P) → ∀ x ∈ l, |x| ≤ P * (recipe.sum : ℚ) := by
    intro l k hk hl x hx
    have h1 : (k : ℚ) ≤ recipe.sum := by exact_mod_cast hk
    have := mul_le_mul_of_nonneg_right h1 hP
    linarith [hl x hx]
  have up1 : ∀ {l : List ℚ}, 1 ≤ recipe.sum → (∀ x ∈ l, |x| ≤ P) → ∀ x ∈ l, |x| ≤ P * (recipe.sum : ℚ) := by
    intro l hk hl
    exact up hk (by simpa using hl)
  have up2 : ∀ {a b : List ℚ}, 2 ≤ recipe.sum → (∀ x ∈ a, |x| ≤ P) → (∀ x ∈ b, |x| ≤ P) → ∀ x ∈ List.zipWith (· + ·) a b, |x| ≤ P * (recipe.sum : ℚ) := by
    intro a b hk ha hb'
    exact up hk (by simpa using sums_bounded ha hb')
  by_cases r1 : recipe = [1, 1]
  · subst r1
    refine ⟨[high ++ close, opening.map (-1 * ·) ++ low.map (-1 * ·)], by simp [getPrices, bind, Except.bind], ?_⟩
    simp only [List.mem_cons, List.not_mem_nil, or_false, forall_eq_or_imp, forall_eq]
    exact ⟨up1 (by decide) hb, up1 (by decide) hs⟩
  by_cases r2 : recipe = [2, 1]
  · subst r2
    refine ⟨[high ++ close, List.zipWith (· + ·) (opening.map (-1 * ·)) (low.map (-1 * ·))], by simp [getPrices, bind, Except.bind], ?_⟩
    simp only [List.mem_cons, List.not_mem_nil, or_false, forall_eq_or_imp, forall_eq]
    exact ⟨up1 (by decide) hb, up2 (by decide) n3 n4⟩
  by_cases r3 : recipe = [1, 2]
  · subst r3
    refine ⟨[List.zipWith (· + ·) high close, opening.map (-1 * ·) ++ low.map (-1 * ·)], by simp [getPrices, bind, Except.bind], ?_⟩
    simp only [List.mem_cons, List.not_mem_nil, or_false, forall_eq_or_imp, forall_eq]
    exact ⟨up2 (by decide) p1 p2, up1 (by decide) hs⟩
  by_cases r4 : recipe = [2, 1, 1]
  · subst r4
    refine ⟨[high ++ close, opening.map (-1 * ·), low.map (-1 * ·)], by simp [getPrices, bind, Except.bind], ?_⟩
    simp only [List.mem_cons, List.not_mem_nil, or_false, forall_eq_or_imp, forall_eq]
    exact ⟨up1 (by decide) hb, up1 (by decide) n3, up1 (by decide) n4⟩
  by_cases r5 : recipe.length = 3 ∧ recipe.tail = recipe.dropLast
  · obtain ⟨c, rfl⟩ : ∃ c, recipe = [c, c, c] := by
      obtain ⟨hl, ht⟩ := r5
      match recipe, hl, ht with
      | [a, b, c], _, ht =>
        simp only [List.tail_cons, List.dropLast_cons_cons, List.dropLast_singleton, List.cons.injEq, and_true] at ht
        exact ⟨a, by rw [ht.2, ht.1]⟩
    have hc : 0 < c := hpos c (by simp)
    refine ⟨[List.zipWith (· + ·) high close, opening.map (-1 * ·), low.map (-1 * ·)], ?_, ?_⟩
    · by_cases hc : c = 1
      · subst hc
        simp [getPrices, bind, Except.bind]
      · simp [getPrices, bind, Except.bind, hc]
    · simp only [List.mem_cons, List.not_mem_nil, or_false, forall_eq_or_imp, forall_eq]
      have h3 : 2 ≤ [c, c, c].sum := by simp; omega
      exact ⟨up2 h3 p1 p2, up1 (by omega) n3, up1 (by omega) n4⟩
  have r6 : recipe ≠ [1, 1, 1] := by
    rintro rfl
    exact r5 ⟨rfl, rfl⟩
  obtain ⟨data', s1, s2, s3, s4, s5⟩ := split_spec (buyers := high ++ close) (sellers := opening.map (-1 * ·) ++ low.map (-1 * ·)) hr
  refine ⟨data', ?_, ?_⟩
  · simp only [getPrices, r1, r2, r3, r4, r5, r6, if_false, s1]
    rfl
  · intro l hl
    have hsum : 1 ≤ recipe.sum := by
      cases recipe with
      | nil => exact absurd rfl hr
      | cons a t => have := hpos a (by simp); simp; omega
    obtain ⟨j, hj, rfl⟩ := List.getElem_of_mem hl
    have hg : data'[j] = data'.getD j [] := by rw [List.getD_eq_getElem?_getD, List.getElem?_eq_getElem hj, Option.getD_some]
    rw [hg]
    rcases Nat.eq_zero_or_pos j with rfl | h0
    · intro x hx
      obtain ⟨b, hb', rfl⟩ := s4 x hx
      have h1 : ((recipe.sum - recipe.getD 0 0 : ℕ) : ℚ) ≤ recipe.sum := by exact_mod_cast Nat.sub_le _ _
      rw [abs_mul, abs_of_nonneg (Nat.cast_nonneg _ : (0 : ℚ) ≤ ((recipe.sum - recipe.getD 0 0 : ℕ) : ℚ))]
      exact mul_le_mul (hb b hb') h1 (Nat.cast_nonneg _) hP
    · exact up1 hsum (fun x hx => hs x ((s5 j h0 (by omega)).2 x hx))

section

variable {high close opening low : List ℚ} {R : ℕ} {recipe : List ℕ}

/-- **C78**. `getPrices`, for a file with `R` lines of prices that are not negative, and any recipe that is not empty: one list for each category, of whole
numbers, not negative for category 0 and not positive for the others. If the recipe is not `(c,c,c)` with `c` different from 1, the lists make a
market in which all agents can take part in a deal: category `j` has `recipe[j]` agents for each of `R` or `2R` procurement-sets. For
`(c,c,c)` there are `R` agents in each category. -/
theorem get_prices (h1 : high.length = R) (h2 : close.length = R) (h3 : opening.length = R) (h4 : low.length = R)
    (p1 : ∀ x ∈ high, 0 ≤ x) (p2 : ∀ x ∈ close, 0 ≤ x) (p3 : ∀ x ∈ opening, 0 ≤ x) (p4 : ∀ x ∈ low, 0 ≤ x) (hr : recipe ≠ []) :
    ∃ data, getPrices high close opening low recipe = .ok data ∧ PricesFor recipe data ∧
      ((∀ c, c ≠ 1 → recipe ≠ [c, c, c]) → ∀ j < recipe.length, (data.getD j []).length = setsOf R recipe * recipe.getD j 0) ∧
      ((∃ c, recipe = [c, c, c]) → ∀ j < recipe.length, (data.getD j []).length = R) := by
  have hb : ∀ x ∈ high ++ close, 0 ≤ x := by
    intro x hx
    rcases List.mem_append.1 hx with h | h
    · exact p1 x h
    · exact p2 x h
  have n3 : ∀ x ∈ opening.map (-1 * ·), x ≤ 0 := minus_nonpos p3
  have n4 : ∀ x ∈ low.map (-1 * ·), x ≤ 0 := minus_nonpos p4
  have hs : ∀ x ∈ opening.map (-1 * ·) ++ low.map (-1 * ·), x ≤ 0 := by
    intro x hx
    rcases List.mem_append.1 hx with h | h
    · exact n3 x h
    · exact n4 x h
  -- the three steps: the lists before the multiplication by 1000, their lengths
  suffices key : ∃ data : List (List ℚ),
      getPrices high close opening low recipe = .ok (data.map (fun category => category.map (fun x => (pyInt (x * 1000) : ℚ)))) ∧
      data.length = recipe.length ∧ (∀ x ∈ data.getD 0 [], 0 ≤ x) ∧ (∀ j, 0 < j → j < recipe.length → ∀ x ∈ data.getD j [], x ≤ 0) ∧
      ((∀ c, c ≠ 1 → recipe ≠ [c, c, c]) → ∀ j < recipe.length, (data.getD j []).length = setsOf R recipe * recipe.getD j 0) ∧
      ((∃ c, recipe = [c, c, c]) → ∀ j < recipe.length, (data.getD j []).length = R) by
    obtain ⟨data, k1, k2, k3, k4, k5, k6⟩ := key
    obtain ⟨t1, t2⟩ := thousandths k2 k3 k4
    refine ⟨_, k1, t1, ?_, ?_⟩
    · intro h j hj
      rw [t2, List.length_map]
      exact k5 h j hj
    · intro h j hj
      rw [t2, List.length_map]
      exact k6 h j hj
  by_cases r1 : recipe = [1, 1]
  · subst r1
    refine ⟨[high ++ close, opening.map (-1 * ·) ++ low.map (-1 * ·)], by simp [getPrices, bind, Except.bind], rfl, hb, ?_, ?_, ?_⟩
    · intro j h0 hj
      obtain rfl : j = 1 := by simp at hj; omega
      exact hs
    · intro _ j hj
      have : j = 0 ∨ j = 1 := by simp at hj; omega
      rcases this with rfl | rfl <;> simp [setsOf] <;> omega
    · rintro ⟨c, hc⟩; simp at hc
  by_cases r2 : recipe = [2, 1]
  · subst r2
    refine ⟨[high ++ close, List.zipWith (· + ·) (opening.map (-1 * ·)) (low.map (-1 * ·))], by simp [getPrices, bind, Except.bind], rfl, hb, ?_, ?_, ?_⟩
    · intro j h0 hj
      obtain rfl : j = 1 := by simp at hj; omega
      exact sums_nonpos n3 n4
    · intro _ j hj
      have : j = 0 ∨ j = 1 := by simp at hj; omega
      rcases this with rfl | rfl <;> simp [setsOf] <;> omega
    · rintro ⟨c, hc⟩; simp at hc
  by_cases r3 : recipe = [1, 2]
  · subst r3
    refine ⟨[List.zipWith (· + ·) high close, opening.map (-1 * ·) ++ low.map (-1 * ·)], by simp [getPrices, bind, Except.bind], rfl,
      sums_nonneg p1 p2, ?_, ?_, ?_⟩
    · intro j h0 hj
      obtain rfl : j = 1 := by simp at hj; omega
      exact hs
    · intro _ j hj
      have : j = 0 ∨ j = 1 := by simp at hj; omega
      rcases this with rfl | rfl <;> simp [setsOf] <;> omega
    · rintro ⟨c, hc⟩; simp at hc
  by_cases r4 : recipe = [2, 1, 1]
  · subst r4
    refine ⟨[high ++ close, opening.map (-1 * ·), low.map (-1 * ·)], by simp [getPrices, bind, Except.bind], rfl, hb, ?_, ?_, ?_⟩
    · intro j h0 hj
      have : j = 1 ∨ j = 2 := by simp at hj; omega
      rcases this with rfl | rfl
      · exact n3
      · exact n4
    · intro _ j hj
      have : j = 0 ∨ j = 1 ∨ j = 2 := by simp at hj; omega
      rcases this with rfl | rfl | rfl <;> simp [setsOf] <;> omega
    · rintro ⟨c, hc⟩
      simp only [List.cons.injEq] at hc
      omega
  by_cases r5 : recipe.length = 3 ∧ recipe.tail = recipe.dropLast
  · obtain ⟨c, rfl⟩ : ∃ c, recipe = [c, c, c] := by
      obtain ⟨hl, ht⟩ := r5
      match recipe, hl, ht with
      | [a, b, c], _, ht =>
        simp only [List.tail_cons, List.dropLast_cons_cons, List.dropLast_singleton, List.cons.injEq, and_true] at ht
        exact ⟨a, by rw [ht.2, ht.1]⟩
    refine ⟨[List.zipWith (· + ·) high close, opening.map (-1 * ·), low.map (-1 * ·)], ?_, rfl, sums_nonneg p1 p2, ?_, ?_, ?_⟩
    · by_cases hc : c = 1
      · subst hc
        simp [getPrices, bind, Except.bind]
      · simp [getPrices, bind, Except.bind, hc]
    · intro j h0 hj
      have : j = 1 ∨ j = 2 := by simp at hj; omega
      rcases this with rfl | rfl
      · exact n3
      · exact n4
    · intro h j hj
      obtain rfl : c = 1 := by
        by_contra hc
        exact h c hc rfl
      have : j = 0 ∨ j = 1 ∨ j = 2 := by simp at hj; omega
      rcases this with rfl | rfl | rfl <;> simp [setsOf] <;> omega
    · rintro - j hj
      have : j = 0 ∨ j = 1 ∨ j = 2 := by simp at hj; omega
      rcases this with rfl | rfl | rfl <;> simp <;> omega
  have r6 : recipe ≠ [1, 1, 1] := by
    rintro rfl
    exact r5 ⟨rfl, rfl⟩
  obtain ⟨data, s1, s2, s3, s4, s5⟩ := split_spec (buyers := high ++ close) (sellers := opening.map (-1 * ·) ++ low.map (-1 * ·)) hr
  refine ⟨data, ?_, s2, ?_, ?_, ?_, ?_⟩
  · simp only [getPrices, r1, r2, r3, r4, r5, r6, if_false, s1]
    rfl
  · intro x hx
    obtain ⟨b, hb', rfl⟩ := s4 x hx
    exact mul_nonneg (hb b hb') (Nat.cast_nonneg _)
  · intro j h0 hj x hx
    exact hs x ((s5 j h0 hj).2 x hx)
  · intro _ j hj
    have hset : setsOf R recipe = 2 * R := by
      simp [setsOf, r2, r3, r4, r6]
    rw [hset]
    rcases Nat.eq_zero_or_pos j with rfl | h0
    · rw [s3, List.length_append, h1, h2, two_mul]
    · rw [(s5 j h0 hj).1, List.length_append, List.length_map, List.length_map, h3, h4, two_mul]
  · rintro ⟨c, rfl⟩
    exact absurd ⟨rfl, rfl⟩ r5

/-- Where the prices come from, for the recipes of the last branch: a buyer values a deal at a price of the file (the day's high or its last price) times the number
of sellers in a deal, a seller asks a price of the file (the first of the day or its low), all in thousandths, the fraction dropped. -/
theorem get_prices_origin (p1 : ∀ x ∈ high, 0 ≤ x) (p2 : ∀ x ∈ close, 0 ≤ x) (p3 : ∀ x ∈ opening, 0 ≤ x) (p4 : ∀ x ∈ low, 0 ≤ x) (hr : recipe ≠ [])
    (special : recipe ∉ [[1, 1], [2, 1], [1, 2], [2, 1, 1]]) (equal : ∀ c, recipe ≠ [c, c, c]) {data : List (List ℚ)}
    (h : getPrices high close opening low recipe = .ok data) :
    (∀ x ∈ data.getD 0 [], ∃ b ∈ high ++ close, x = ⌊1000 * (b * (recipe.tail.sum : ℚ))⌋) ∧
    ∀ j, 0 < j → j < recipe.length → ∀ x ∈ data.getD j [], ∃ s ∈ opening ++ low, x = -(⌊1000 * s⌋ : ℚ) := by
  simp only [List.mem_cons, List.not_mem_nil, or_false, not_or] at special
  obtain ⟨r1, r2, r3, r4⟩ := special
  have r5 : ¬ (recipe.length = 3 ∧ recipe.tail = recipe.dropLast) := by
    rintro ⟨hl, ht⟩
    match recipe, hl, ht, equal with
    | [a, b, c], _, ht, equal =>
      simp only [List.tail_cons, List.dropLast_cons_cons, List.dropLast_singleton, List.cons.injEq, and_true] at ht
      exact equal a (by rw [ht.2, ht.1])
  have r6 : recipe ≠ [1, 1, 1] := equal 1
  obtain ⟨d, s1, s2, s3, s4, s5⟩ := split_spec (buyers := high ++ close) (sellers := opening.map (-1 * ·) ++ low.map (-1 * ·)) hr
  have hd : getPrices high close opening low recipe = .ok (d.map (fun category => category.map (fun x => (pyInt (x * 1000) : ℚ)))) := by
    simp only [getPrices, r1, r2, r3, r4, r5, r6, if_false, s1]
    rfl
  rw [hd] at h
  obtain rfl := Except.ok.inj h
  have hj : ∀ j, ((d.map (fun category => category.map (fun x => (pyInt (x * 1000) : ℚ)))).getD j []) =
      (d.getD j []).map (fun x => (pyInt (x * 1000) : ℚ)) := by
    intro j
    simp only [List.getD_eq_getElem?_getD, List.getElem?_map]
    cases d[j]? <;> simp
  constructor
  · rw [hj]
    intro x hx
    obtain ⟨y, hy, rfl⟩ := List.mem_map.1 hx
    obtain ⟨b, hb, rfl⟩ := s4 y hy
    refine ⟨b, hb, ?_⟩
    have hb0 : 0 ≤ b := by
      rcases List.mem_append.1 hb with h | h
      · exact p1 b h
      · exact p2 b h
    have hsum : recipe.sum - recipe.getD 0 0 = recipe.tail.sum := by
      cases recipe with
      | nil => exact absurd rfl hr
      | cons a l => simp
    have hnn : 0 ≤ b * (recipe.tail.sum : ℚ) * 1000 := by positivity
    rw [hsum, pyInt, if_pos hnn, mul_comm (1000 : ℚ)]
  · intro j h0 hjl
    rw [hj]
    intro x hx
    obtain ⟨y, hy, rfl⟩ := List.mem_map.1 hx
    have := (s5 j h0 hjl).2 y hy
    rw [← List.map_append] at this
    obtain ⟨s, hs, rfl⟩ := List.mem_map.1 this
    refine ⟨s, hs, ?_⟩
    have hs0 : 0 ≤ s := by
      rcases List.mem_append.1 hs with h | h
      · exact p3 s h
      · exact p4 s h
    exact pyInt_neg s hs0

end

/-- The exception: for the recipe `(2,2,2)` the market of a file with `R` lines has `R` agents in each category, so only half of them can be in deals at the
same time; and a file with one line has no possible deal. -/
theorem get_prices_two_two_two : getPrices [5] [4] [3] [2] [2, 2, 2] = .ok [[9000], [-3000], [-2000]] := by decide +kernel

/-- And in the last branch with three categories the two seller categories are not dealt the same prices: dealing out in turn, from a list of even length, gives category 1
every other price twice, and category 2 the rest twice. -/
theorem get_prices_alternate : getPrices [5, 6] [4, 7] [3, 1] [2, 8] [1, 1, 2] =
    .ok [[15000, 18000, 12000, 21000], [-3000, -2000, -3000, -2000], [-1000, -1000, -8000, -8000, -1000, -1000, -8000, -8000]] := by decide +kernel

end Auctions.Props
