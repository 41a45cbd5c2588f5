import Verif.Model.Multibuyer
import Verif.Spec.Multibuyer
import Verif.Proofs.Ascending
import Verif.Proofs.TreeShape

set_option autoImplicit false

/-!
# The old auction with several buyer categories: recipes, and the loops
-/

namespace Auctions.Multibuyer

open Auctions Spec

/-! ## Recipes -/

theorem convertEntries_ok {sellers : ℕ} {xs : List ℕ} {i : ℕ} {found : Bool} {counts : List ℕ} (hlen : i + xs.length ≤ counts.length)
    (hsum : xs.sum + (if found then 1 else 0) ≤ 1) (hfree : ∀ j, xs.getD j 0 = 1 → counts.getD (i + j) 0 = 0) :
    ∃ c, convertEntries sellers i found xs counts = .ok c ∧ c.length = counts.length ∧
      ∀ k, c.getD k 0 = counts.getD k 0 + (if i ≤ k then xs.getD (k - i) 0 * sellers else 0) := by
  induction xs generalizing i found counts with
  | nil => exact ⟨counts, rfl, rfl, fun k => by simp⟩
  | cons x xs ih =>
    simp only [List.length_cons] at hlen
    simp only [List.sum_cons] at hsum
    unfold convertEntries
    by_cases hx : x = 0
    · rw [if_pos hx]
      obtain ⟨c, h1, h2, h3⟩ := ih (i := i + 1) (found := found) (counts := counts) (by omega) (by omega) (fun j hj => by
        have := hfree (j + 1) (by simpa using hj)
        rwa [show i + (j + 1) = i + 1 + j from by omega] at this)
      refine ⟨c, h1, h2, fun k => ?_⟩
      rw [h3]
      congr 1
      rcases Nat.lt_trichotomy k i with h | h | h
      · rw [if_neg (by omega), if_neg (by omega)]
      · subst h; simp [hx]
      · rw [if_pos (by omega), if_pos (by omega), show k - i = (k - (i + 1)) + 1 from by omega]; simp
    · have hf : found = false := by
        cases found with
        | false => rfl
        | true => simp at hsum; omega
      subst hf
      have hx1 : x = 1 := by omega
      have hc0 : counts.getD i 0 = 0 := by simpa [hx1] using hfree 0
      have hg : pyGet counts i = .ok 0 := by
        unfold pyGet
        rw [List.getElem?_eq_getElem (by omega)]
        rw [List.getD_eq_getElem?_getD, List.getElem?_eq_getElem (by omega)] at hc0
        simp at hc0
        simp [hc0]
      rw [if_neg hx, if_neg (by simp), if_neg (by simp [hx1])]
      simp only [hg, bind, Except.bind, ne_eq, not_true_eq_false, if_false]
      have hxs : ∀ j, xs.getD j 0 = 0 := by
        intro j
        by_cases hj : j < xs.length
        · have h1 : xs[j] ≤ xs.sum := List.le_sum_of_mem (List.getElem_mem hj)
          rw [List.getD_eq_getElem?_getD, List.getElem?_eq_getElem hj]
          simp only [Option.getD_some]
          omega
        · rw [List.getD_eq_getElem?_getD, List.getElem?_eq_none (by omega)]; rfl
      obtain ⟨c, h1, h2, h3⟩ := ih (i := i + 1) (found := true) (counts := counts.set i sellers) (by rw [List.length_set]; omega) (by simp at hsum ⊢; omega)
        (fun j hj => by rw [hxs] at hj; simp at hj)
      refine ⟨c, h1, by rw [h2, List.length_set], fun k => ?_⟩
      rw [h3, hxs]
      simp only [Nat.zero_mul, ite_self, Nat.add_zero]
      rcases Nat.lt_trichotomy k i with h | h | h
      · rw [if_neg (by omega)]
        simp only [List.getD_eq_getElem?_getD, List.getElem?_set]
        rw [if_neg (by omega)]; rfl
      · subst h
        rw [if_pos (le_refl _), hc0]
        simp only [List.getD_eq_getElem?_getD, List.getElem?_set]
        rw [if_pos trivial, if_pos (by omega)]
        simp [hx1]
      · rw [if_pos (by omega), show k - i = (k - i - 1) + 1 from by omega]
        simp only [List.getD_cons_succ, hxs, Nat.zero_mul, Nat.add_zero]
        simp only [List.getD_eq_getElem?_getD, List.getElem?_set]
        rw [if_neg (by omega)]

theorem convertEntries_error {sellers : ℕ} {xs : List ℕ} {i : ℕ} {found : Bool} {counts : List ℕ} (hlen : i + xs.length ≤ counts.length)
    (hbad : ¬ (xs.sum + (if found then 1 else 0) ≤ 1 ∧ ∀ j, xs.getD j 0 = 1 → counts.getD (i + j) 0 = 0) ∧ (found = true → xs.sum ≠ 0) ∨ (found = true ∧ xs.sum ≠ 0)) :
    convertEntries sellers i found xs counts = .error .valueError := by
  induction xs generalizing i found counts with
  | nil => simp at hbad; exact absurd hbad (by cases found <;> simp)
  | cons x xs ih =>
    simp only [List.length_cons] at hlen
    simp only [List.sum_cons] at hbad
    unfold convertEntries
    by_cases hx : x = 0
    · rw [if_pos hx]
      apply ih (by omega)
      subst hx
      rcases hbad with ⟨h1, h2⟩ | h
      · left
        refine ⟨fun h => h1 ⟨by simpa using h.1, fun j hj => ?_⟩, by simpa using h2⟩
        cases j with
        | zero => simp at hj
        | succ j =>
          have := h.2 j (by simpa using hj)
          rwa [show i + 1 + j = i + (j + 1) from by omega] at this
      · right; simpa using h
    · rw [if_neg hx]
      cases found with
      | true => simp
      | false =>
        simp only [Bool.false_eq_true, if_false]
        by_cases hx1 : x = 1
        · rw [if_neg (by simp [hx1])]
          have hg : pyGet counts i = .ok (counts.getD i 0) := by
            unfold pyGet
            rw [List.getD_eq_getElem?_getD, List.getElem?_eq_getElem (by omega)]; rfl
          simp only [hg, bind, Except.bind]
          by_cases hc : counts.getD i 0 = 0
          · rw [if_neg (by simpa using hc)]
            apply ih (by rw [List.length_set]; omega)
            right
            refine ⟨rfl, fun h0 => ?_⟩
            rcases hbad with ⟨h1, -⟩ | ⟨h, -⟩
            · refine h1 ⟨by simp; omega, fun j hj => ?_⟩
              cases j with
              | zero => exact hc
              | succ j =>
                exfalso
                simp only [List.getD_cons_succ] at hj
                by_cases hjl : j < xs.length
                · have h3 : xs[j] ≤ xs.sum := List.le_sum_of_mem (List.getElem_mem hjl)
                  rw [List.getD_eq_getElem?_getD, List.getElem?_eq_getElem hjl] at hj
                  simp only [Option.getD_some] at hj
                  omega
                · rw [List.getD_eq_getElem?_getD, List.getElem?_eq_none (by omega)] at hj
                  simp at hj
            · simp at h
          · rw [if_pos hc]
        · rw [if_pos hx1]

theorem getD_cast (l : List ℕ) (j : ℕ) (h : j < l.length) : l.getD j 0 = l[j] := by
  rw [List.getD_eq_getElem?_getD, List.getElem?_eq_getElem h]; rfl

/-- The loop over the recipes: the accepted recipes. -/
theorem convertRecipes_ok {n : ℕ} (hn : 0 < n) {rs : List (List ℕ)} {counts : List ℕ} (hc : counts.length = n - 1) (h : BuyerRecipes n rs)
    (hfree : ∀ r ∈ rs, ∀ i, r.dropLast.getD i 0 = 1 → counts.getD i 0 = 0) :
    ∃ c, convertRecipes n rs counts = .ok c ∧ c.length = n - 1 ∧ ∀ k, c.getD k 0 = counts.getD k 0 + unitsOf rs k := by
  induction rs generalizing counts with
  | nil => exact ⟨counts, rfl, hc, fun k => by simp [unitsOf]⟩
  | cons r rs ih =>
    have hl := h.length r (by simp)
    have hr : r ≠ [] := by intro h0; rw [h0] at hl; simp at hl; omega
    have hlast : r.getLast? = some (recipeSellers r) := by
      unfold recipeSellers
      rw [List.getLast?_eq_some_getLast hr, List.getLastD_eq_getLast?, List.getLast?_eq_some_getLast hr]; rfl
    obtain ⟨c1, h1, h2, h3⟩ := convertEntries_ok (sellers := recipeSellers r) (xs := r.dropLast) (i := 0) (found := false) (counts := counts)
      (by rw [List.length_dropLast]; omega) (by simpa using h.one r (by simp)) (fun j hj => by rw [Nat.zero_add]; exact hfree r (by simp) j hj)
    have hpw := List.pairwise_cons.1 h.differ
    obtain ⟨c, h4, h5, h6⟩ := ih (counts := c1) (by omega) ⟨fun r' hr' => h.length r' (by simp [hr']), fun r' hr' => h.one r' (by simp [hr']), hpw.2⟩
      (fun r' hr' i hi => by
        rw [h3, if_pos (Nat.zero_le _), Nat.sub_zero, hfree r' (by simp [hr']) i hi, Nat.zero_add]
        by_cases h0 : r.dropLast.getD i 0 = 1
        · rw [hpw.1 r' hr' i h0 hi]; simp
        · have hle : r.dropLast.getD i 0 ≤ 1 := by
            by_cases hil : i < r.dropLast.length
            · rw [getD_cast _ _ hil]
              exact (List.le_sum_of_mem (List.getElem_mem hil)).trans (h.one r (by simp))
            · rw [List.getD_eq_getElem?_getD, List.getElem?_eq_none (by omega)]; simp
          rw [show r.dropLast.getD i 0 = 0 from by omega]; simp)
    refine ⟨c, ?_, h5, fun k => ?_⟩
    · unfold convertRecipes
      rw [if_neg (by simp [hl]), hlast]
      simp only [bind, Except.bind, h1]
      exact h4
    · rw [h6, h3, if_pos (Nat.zero_le _), Nat.sub_zero]
      simp only [unitsOf, List.map_cons, List.sum_cons]
      omega

/-- The loop over the recipes: all other recipes make it raise `ValueError`. -/
theorem convertRecipes_error {n : ℕ} (hn : 0 < n) {rs : List (List ℕ)} {counts : List ℕ} (hc : counts.length = n - 1)
    (h : ¬ (BuyerRecipes n rs ∧ ∀ r ∈ rs, ∀ i, r.dropLast.getD i 0 = 1 → counts.getD i 0 = 0)) :
    convertRecipes n rs counts = .error .valueError := by
  induction rs generalizing counts with
  | nil => exact absurd ⟨⟨by simp, by simp, by simp⟩, by simp⟩ h
  | cons r rs ih =>
    unfold convertRecipes
    by_cases hl : r.length = n
    swap
    · rw [if_pos hl]
    have hr : r ≠ [] := by intro h0; rw [h0] at hl; simp at hl; omega
    have hlast : r.getLast? = some (recipeSellers r) := by
      unfold recipeSellers
      rw [List.getLast?_eq_some_getLast hr, List.getLastD_eq_getLast?, List.getLast?_eq_some_getLast hr]; rfl
    rw [if_neg (by simp [hl]), hlast]
    simp only [bind, Except.bind]
    by_cases hgood : r.dropLast.sum ≤ 1 ∧ ∀ i, r.dropLast.getD i 0 = 1 → counts.getD i 0 = 0
    swap
    · rw [convertEntries_error (by rw [List.length_dropLast]; omega) (Or.inl ⟨fun h' => hgood ⟨by simpa using h'.1, fun i hi => by simpa using h'.2 i hi⟩, by simp⟩)]
    obtain ⟨c1, h1, h2, h3⟩ := convertEntries_ok (sellers := recipeSellers r) (xs := r.dropLast) (i := 0) (found := false) (counts := counts)
      (by rw [List.length_dropLast]; omega) (by simpa using hgood.1) (fun j hj => by rw [Nat.zero_add]; exact hgood.2 j hj)
    rw [h1]
    refine ih (by omega) fun hrest => h ⟨⟨?_, ?_, ?_⟩, ?_⟩
    · intro r' hr'
      rcases List.mem_cons.1 hr' with rfl | hr'
      · exact hl
      · exact hrest.1.length r' hr'
    · intro r' hr'
      rcases List.mem_cons.1 hr' with rfl | hr'
      · exact hgood.1
      · exact hrest.1.one r' hr'
    · refine List.pairwise_cons.2 ⟨fun r' hr' i hi hi' => ?_, hrest.1.differ⟩
      have := hrest.2 r' hr' i hi'
      rw [h3, if_pos (Nat.zero_le _), Nat.sub_zero, hi] at this
      omega
    · intro r' hr' i hi
      rcases List.mem_cons.1 hr' with rfl | hr'
      · exact hgood.2 i hi
      · have := hrest.2 r' hr' i hi
        rw [h3] at this
        omega

/-- The numbers of sellers per buyer category. -/
theorem convert_eq {n : ℕ} (hn : 0 < n) {rs : List (List ℕ)} (h : BuyerRecipes n rs) :
    convertRecipesToSellerCounts rs n = .ok ((List.range (n - 1)).map (unitsOf rs)) := by
  have hz : ∀ i, (List.replicate (n - 1) 0).getD i 0 = 0 := by
    intro i
    by_cases hi : i < n - 1
    · simp [List.getD_eq_getElem?_getD, hi]
    · rw [List.getD_eq_getElem?_getD, List.getElem?_eq_none (by simpa using hi)]; rfl
  obtain ⟨c, h1, h2, h3⟩ := convertRecipes_ok hn (counts := List.replicate (n - 1) 0) (by simp) h (fun _ _ i _ => hz i)
  unfold convertRecipesToSellerCounts
  rw [h1]
  congr 1
  refine List.ext_getElem (by simp [h2]) fun i hi hi' => ?_
  have := h3 i
  rw [hz, getD_cast _ _ hi, Nat.zero_add] at this
  simp [this]

theorem convert_error {n : ℕ} (hn : 0 < n) {rs : List (List ℕ)} (h : ¬ BuyerRecipes n rs) : convertRecipesToSellerCounts rs n = .error .valueError :=
  convertRecipes_error hn (by simp) fun h' => h h'.1

/-! ## The loops -/

theorem lowestValues_ok {cs : List AgentCategory} (h : ∀ c ∈ cs, c.values ≠ []) : ∃ l, lowestValues cs = .ok l ∧ l.length = cs.length := by
  induction cs with
  | nil => exact ⟨[], rfl, rfl⟩
  | cons c cs ih =>
    obtain ⟨l, h1, h2⟩ := ih fun c' hc' => h c' (by simp [hc'])
    have hc := h c (by simp)
    refine ⟨c.values.getLast hc :: l, ?_, by simp [h2]⟩
    unfold lowestValues AgentCategory.lowestAgentValue
    rw [List.getLast?_eq_some_getLast hc, h1]; rfl

theorem lowestValues_error {cs : List AgentCategory} (h : ∃ c ∈ cs, c.values = []) : lowestValues cs = .error .indexError := by
  induction cs with
  | nil => simp at h
  | cons c cs ih =>
    unfold lowestValues AgentCategory.lowestAgentValue
    by_cases hc : c.values = []
    · rw [hc]; rfl
    · rw [List.getLast?_eq_some_getLast hc, ih (by simpa [hc] using h)]; rfl

theorem valuesPerUnit_ok {l : List ℚ} {counts : List ℕ} (hl : l.length = counts.length) (h : ∀ k ∈ counts, 0 < k) : ∃ l', valuesPerUnit l counts = .ok l' := by
  induction l generalizing counts with
  | nil => exact ⟨[], by unfold valuesPerUnit; cases counts <;> rfl⟩
  | cons x l ih =>
    cases counts with
    | nil => exact ⟨[], rfl⟩
    | cons k counts =>
      obtain ⟨l', h1⟩ := ih (by simpa using hl) fun k' hk' => h k' (by simp [hk'])
      have hk := h k (by simp)
      refine ⟨x / k :: l', ?_⟩
      unfold valuesPerUnit pyDiv
      rw [if_neg (by exact_mod_cast hk.ne'), h1]; rfl

theorem valuesPerUnit_error {l : List ℚ} {counts : List ℕ} (hl : l.length = counts.length) (h : 0 ∈ counts) : valuesPerUnit l counts = .error .zeroDivisionError := by
  induction l generalizing counts with
  | nil =>
    have : counts = [] := List.length_eq_zero_iff.1 (by simpa using hl.symm)
    rw [this] at h; simp at h
  | cons x l ih =>
    cases counts with
    | nil => simp at h
    | cons k counts =>
      unfold valuesPerUnit pyDiv
      by_cases hk : k = 0
      · rw [if_pos (by exact_mod_cast hk)]; rfl
      · rw [if_neg (by exact_mod_cast hk), ih (by simpa using hl) (by simpa [Ne.symm hk] using h)]; rfl

theorem unitsDemanded_pos {buyers : List AgentCategory} {counts : List ℕ} {j : ℕ} (hj : j < buyers.length) (hc : j < counts.length) (h1 : 0 < buyers[j].size)
    (h2 : 0 < counts[j]) : 0 < unitsDemanded counts buyers := by
  unfold unitsDemanded
  have hm : buyers[j].size * counts[j] ∈ List.zipWith (fun (c : AgentCategory) k => c.size * k) buyers counts := by
    rw [List.mem_iff_getElem]
    exact ⟨j, by simp [hj, hc], by simp⟩
  exact lt_of_lt_of_le (Nat.mul_pos h1 h2) (List.le_sum_of_mem hm)

theorem sum_set_nat (l : List ℕ) (i : ℕ) (h : i < l.length) (y : ℕ) : (l.set i y).sum + l[i] = l.sum + y := by
  induction l generalizing i with
  | nil => simp at h
  | cons x l ih =>
    cases i with
    | zero => simp; omega
    | succ i =>
      have := ih i (by simpa using h)
      simp; omega

/-- The number of agents in the market. -/
def agents (s : State) : ℕ := (s.buyers.map AgentCategory.size).sum + s.seller.size

/-- The prices are those of a vector for the recipe `[1, 1]`. -/
def GoodPrices (p : AscendingPriceVector) : Prop := p.psRecipe = [1, 1] ∧ p.prices.length = 2

theorem GoodPrices.increase {p : AscendingPriceVector} (h : GoodPrices p) {i : ℕ} (hi : i < 2) (x : ℚ) : ∃ p', p.increasePriceUpToBalance i x = .ok p' ∧ GoodPrices p' := by
  obtain ⟨r, ps, st⟩ := p
  obtain ⟨h1, h2⟩ := h
  simp only at h1 h2
  subst h1
  obtain ⟨a, b, rfl⟩ := List.length_eq_two.1 h2
  have : i = 0 ∨ i = 1 := by omega
  rcases this with rfl | rfl
  · simp only [AscendingPriceVector.increasePriceUpToBalance, AscendingPriceVector.priceSumWithoutCategory, pyGet, bind, Except.bind, pyDiv]
    simp only [List.getElem?_cons_zero]
    split_ifs
    · simp_all
    · exact ⟨_, rfl, rfl, rfl⟩
    · exact ⟨_, rfl, rfl, rfl⟩
  · simp only [AscendingPriceVector.increasePriceUpToBalance, AscendingPriceVector.priceSumWithoutCategory, pyGet, bind, Except.bind, pyDiv]
    simp only [List.getElem?_cons_succ, List.getElem?_cons_zero]
    split_ifs
    · simp_all
    · exact ⟨_, rfl, rfl, rfl⟩
    · exact ⟨_, rfl, rfl, rfl⟩

theorem lowest_ok {c : AgentCategory} (h : c.values ≠ []) : c.lowestAgentValue = .ok (c.values.getLast h) ∧ c.removeLowestAgent = .ok ⟨c.name, c.values.dropLast⟩ := by
  unfold AgentCategory.lowestAgentValue AgentCategory.removeLowestAgent
  rw [List.getLast?_eq_some_getLast h]
  obtain ⟨n, vs⟩ := c
  cases vs with
  | nil => simp at h
  | cons x vs => exact ⟨rfl, rfl⟩

/-- A round of the buyers' loop in which a buyer is removed. -/
theorem run_remove {counts : List ℕ} {fuel target : ℕ} {s : State} (hl : counts.length = s.buyers.length) (hb : ∀ c ∈ s.buyers, c.values ≠ []) (hk : ∀ k ∈ counts, 0 < k)
    (hp : GoodPrices s.prices) (hd : target < unitsDemanded counts s.buyers) :
    ∃ (i : ℕ) (hi : i < s.buyers.length) (p : AscendingPriceVector), GoodPrices p ∧
      run counts (fuel + 1) true target s =
        run counts fuel true target ⟨s.buyers.set i ⟨s.buyers[i].name, s.buyers[i].values.dropLast⟩, s.seller, p⟩ := by
  obtain ⟨lows, e1, e2⟩ := lowestValues_ok hb
  obtain ⟨per, e3⟩ := valuesPerUnit_ok (l := lows) (counts := counts) (by omega) hk
  have hne : List.range s.buyers.length ≠ [] := by
    intro h0
    have : s.buyers = [] := List.length_eq_zero_iff.1 (by simpa using h0)
    rw [this] at hd
    simp [unitsDemanded] at hd
  obtain ⟨i, e4, hi, -⟩ := Ascending.pyMaxBy_spec (fun i => -(per.getD i 0)) hne
  have hi := List.mem_range.1 hi
  have hbi := hb s.buyers[i] (List.getElem_mem hi)
  obtain ⟨e5, e6⟩ := lowest_ok hbi
  have hki := hk counts[i] (List.getElem_mem (by omega))
  obtain ⟨p, e7, hp'⟩ := hp.increase (i := 0) (by omega) (s.buyers[i].values.getLast hbi / (counts[i] : ℕ))
  refine ⟨i, hi, p, hp', ?_⟩
  rw [run, if_neg (by omega), if_neg (by omega)]
  have e8 : pyGet s.buyers i = .ok s.buyers[i] := by unfold pyGet; rw [List.getElem?_eq_getElem hi]
  have e9 : pyGet counts i = .ok counts[i] := by unfold pyGet; rw [List.getElem?_eq_getElem (by omega)]
  have e10 : pyDiv (s.buyers[i].values.getLast hbi) (counts[i] : ℕ) = .ok (s.buyers[i].values.getLast hbi / (counts[i] : ℕ)) := by
    unfold pyDiv; rw [if_neg (by exact_mod_cast hki.ne')]
  simp only [e1, e3, e4, e8, e5, e9, e10, e7, e6, bind, Except.bind]

theorem agents_remove {s : State} {i : ℕ} (hi : i < s.buyers.length) (hb : s.buyers[i].values ≠ []) (p : AscendingPriceVector) :
    agents ⟨s.buyers.set i ⟨s.buyers[i].name, s.buyers[i].values.dropLast⟩, s.seller, p⟩ + 1 = agents s := by
  unfold agents
  simp only [List.map_set]
  have := sum_set_nat (s.buyers.map AgentCategory.size) i (by simpa using hi) (AgentCategory.size ⟨s.buyers[i].name, s.buyers[i].values.dropLast⟩)
  simp only [List.getElem_map, AgentCategory.size, List.length_dropLast] at this ⊢
  have := List.length_pos_iff.2 hb
  omega

/-- A round of the sellers' loop in which a seller is removed. -/
theorem run_seller {counts : List ℕ} {fuel target : ℕ} {s : State} (hp : GoodPrices s.prices) (hd : target < s.seller.size) :
    ∃ p : AscendingPriceVector, GoodPrices p ∧
      run counts (fuel + 1) false target s = run counts fuel false target ⟨s.buyers, ⟨s.seller.name, s.seller.values.dropLast⟩, p⟩ := by
  have hne : s.seller.values ≠ [] := by intro h0; simp [AgentCategory.size, h0] at hd
  obtain ⟨e5, e6⟩ := lowest_ok hne
  obtain ⟨p, e7, hp'⟩ := hp.increase (i := 1) (by omega) (s.seller.values.getLast hne)
  refine ⟨p, hp', ?_⟩
  rw [run, if_neg (by omega), if_neg (by omega)]
  simp only [e5, e7, e6, bind, Except.bind]

/-- The loops end when no unit is demanded or none is offered. -/
theorem run_end {counts : List ℕ} {fuel : ℕ} {phase : Bool} {target : ℕ} {s s' : State} (h : run counts fuel phase target s = .ok (some s')) :
    unitsDemanded counts s'.buyers = 0 ∨ s'.seller.size = 0 := by
  induction fuel generalizing phase target s with
  | zero => simp [run] at h
  | succ fuel ih =>
    cases phase with
    | true =>
      rw [run] at h
      split_ifs at h with h1 h2
      · simp only [Except.ok.injEq, Option.some.injEq] at h
        subst h; exact Or.inl h1
      · exact ih h
      · obtain ⟨_, _, h⟩ := bind_ok_iff.1 h
        obtain ⟨_, _, h⟩ := bind_ok_iff.1 h
        obtain ⟨_, _, h⟩ := bind_ok_iff.1 h
        obtain ⟨_, _, h⟩ := bind_ok_iff.1 h
        obtain ⟨_, _, h⟩ := bind_ok_iff.1 h
        obtain ⟨_, _, h⟩ := bind_ok_iff.1 h
        obtain ⟨_, _, h⟩ := bind_ok_iff.1 h
        obtain ⟨_, _, h⟩ := bind_ok_iff.1 h
        obtain ⟨_, _, h⟩ := bind_ok_iff.1 h
        exact ih h
    | false =>
      rw [run] at h
      split_ifs at h with h1 h2
      · simp only [Except.ok.injEq, Option.some.injEq] at h
        subst h; exact Or.inr h1
      · exact ih h
      · obtain ⟨_, _, h⟩ := bind_ok_iff.1 h
        obtain ⟨_, _, h⟩ := bind_ok_iff.1 h
        obtain ⟨_, _, h⟩ := bind_ok_iff.1 h
        exact ih h

/-- Two or more buyer categories, and a unit is demanded: the loops raise. -/
theorem run_raises {counts : List ℕ} {fuel : ℕ} {phase : Bool} {target : ℕ} {s : State} (hl : counts.length = s.buyers.length) (h2 : 2 ≤ counts.length)
    (hp : GoodPrices s.prices) (hd : 0 < unitsDemanded counts s.buyers) (hph : phase = false → 0 < target ∧ 0 < s.seller.size)
    (ht : 0 < target → 0 < s.seller.size) (hf : agents s + 2 * target + (if phase then 2 else 1) < fuel) :
    run counts fuel phase target s = .error (if (∀ c ∈ s.buyers, c.values ≠ []) ∧ 0 ∈ counts then .zeroDivisionError else .indexError) := by
  induction fuel generalizing phase target s with
  | zero => simp at hf
  | succ fuel ih =>
    cases phase with
    | true =>
      simp only [if_true] at hf
      by_cases hle : unitsDemanded counts s.buyers ≤ target
      · rw [run, if_neg (by omega), if_pos hle]
        have := ih (phase := false) (target := target) hl hp hd (fun _ => ⟨by omega, ht (by omega)⟩) ht (by simp; omega)
        exact this
      · by_cases hb : ∀ c ∈ s.buyers, c.values ≠ []
        · by_cases h0 : 0 ∈ counts
          · rw [if_pos ⟨hb, h0⟩]
            obtain ⟨lows, e1, e2⟩ := lowestValues_ok hb
            rw [run, if_neg (by omega), if_neg hle, e1]
            simp only [bind, Except.bind]
            rw [valuesPerUnit_error (by omega) h0]
          · rw [if_neg (fun h => h0 h.2)]
            have hk : ∀ k ∈ counts, 0 < k := fun k hk => Nat.pos_of_ne_zero fun h => h0 (h ▸ hk)
            obtain ⟨i, hi, p, hp', he⟩ := run_remove (fuel := fuel) (target := target) hl hb hk hp (by omega)
            rw [he]
            have hag := agents_remove hi (hb _ (List.getElem_mem hi)) p
            -- another category still has buyers
            obtain ⟨j, hj, hji⟩ : ∃ j, j < s.buyers.length ∧ j ≠ i := by
              rcases Nat.eq_zero_or_pos i with h | h
              · exact ⟨1, by omega, by omega⟩
              · exact ⟨0, by omega, by omega⟩
            have hpos : 0 < unitsDemanded counts (s.buyers.set i ⟨s.buyers[i].name, s.buyers[i].values.dropLast⟩) := by
              refine unitsDemanded_pos (j := j) (by simpa using hj) (by omega) ?_ (hk _ (List.getElem_mem _))
              rw [List.getElem_set_ne (Ne.symm hji)]
              exact List.length_pos_iff.2 (hb _ (List.getElem_mem hj))
            have hrec := ih (phase := true) (target := target) (s := ⟨s.buyers.set i ⟨s.buyers[i].name, s.buyers[i].values.dropLast⟩, s.seller, p⟩)
              (by simpa using hl) hp' hpos (by simp) ht (by simp only [if_true]; omega)
            rw [hrec, if_neg (fun h => h0 h.2)]
        · rw [if_neg (fun h => hb h.1)]
          push Not at hb
          rw [run, if_neg (by omega), if_neg hle, lowestValues_error hb]; rfl
    | false =>
      simp only [Bool.false_eq_true, if_false] at hf
      obtain ⟨h3, h4⟩ := hph rfl
      by_cases hle : s.seller.size ≤ target
      · rw [run, if_neg (by omega), if_pos hle]
        exact ih (phase := true) (target := target - 1) hl hp hd (by simp) (fun _ => h4) (by simp only [if_true]; omega)
      · obtain ⟨p, hp', he⟩ := run_seller (counts := counts) (fuel := fuel) (target := target) hp (by omega)
        rw [he]
        have hs : AgentCategory.size ⟨s.seller.name, s.seller.values.dropLast⟩ + 1 = s.seller.size := by
          simp only [AgentCategory.size, List.length_dropLast] at h4 ⊢; omega
        have hs' : 0 < AgentCategory.size ⟨s.seller.name, s.seller.values.dropLast⟩ := by omega
        exact ih (phase := false) (target := target) hl hp' hd (fun _ => ⟨h3, hs'⟩) (fun _ => hs')
          (by simp only [agents, Bool.false_eq_true, if_false] at hf ⊢; omega)

/-- One buyer category: the loops end. -/
theorem run_single {x : ℕ} {fuel : ℕ} {phase : Bool} {target : ℕ} {b : AgentCategory} {s : State} (hsb : s.buyers = [b]) (hp : GoodPrices s.prices)
    (hph : phase = false → 0 < target ∧ 0 < s.seller.size ∧ 0 < unitsDemanded [x] [b])
    (ht : 0 < target → 0 < s.seller.size) (hf : agents s + 2 * target + (if phase then 2 else 1) < fuel) :
    ∃ s', run [x] fuel phase target s = .ok (some s') ∧ (∃ b', s'.buyers = [b']) ∧ GoodPrices s'.prices := by
  induction fuel generalizing phase target s b with
  | zero => simp at hf
  | succ fuel ih =>
    cases phase with
    | true =>
      simp only [if_true] at hf
      by_cases h0 : unitsDemanded [x] s.buyers = 0
      · exact ⟨s, by rw [run, if_pos h0], ⟨b, hsb⟩, hp⟩
      by_cases hle : unitsDemanded [x] s.buyers ≤ target
      · rw [run, if_neg h0, if_pos hle]
        exact ih (phase := false) (target := target) hsb hp (fun _ => ⟨by omega, ht (by omega), by rw [← hsb]; omega⟩) ht (by simp; omega)
      · have hx : 0 < x ∧ b.values ≠ [] := by
          rw [hsb] at h0
          simp only [unitsDemanded, List.zipWith_cons_cons, List.zipWith_nil_left, List.sum_cons, List.sum_nil, Nat.add_zero] at h0
          refine ⟨Nat.pos_of_ne_zero fun h => h0 (by rw [h]; simp), fun h => h0 (by simp [AgentCategory.size, h])⟩
        obtain ⟨i, hi, p, hp', he⟩ := run_remove (fuel := fuel) (target := target) (counts := [x]) (s := s) (by simp [hsb]) (by simp [hsb, hx.2]) (by simp [hx.1]) hp (by omega)
        rw [he]
        have hi0 : i = 0 := by rw [hsb] at hi; simpa using hi
        subst hi0
        have hag := agents_remove hi (by simp [hsb, hx.2]) p
        exact ih (b := ⟨b.name, b.values.dropLast⟩) (by simp [hsb]) hp' (by simp) ht (by simp only [if_true]; omega)
    | false =>
      simp only [Bool.false_eq_true, if_false] at hf
      obtain ⟨h3, h4, h5⟩ := hph rfl
      by_cases hle : s.seller.size ≤ target
      · rw [run, if_neg (by omega), if_pos hle]
        exact ih (phase := true) (target := target - 1) hsb hp (by simp) (fun _ => h4) (by simp only [if_true]; omega)
      · obtain ⟨p, hp', he⟩ := run_seller (counts := [x]) (fuel := fuel) (target := target) hp (by omega)
        rw [he]
        have hs : AgentCategory.size ⟨s.seller.name, s.seller.values.dropLast⟩ + 1 = s.seller.size := by
          simp only [AgentCategory.size, List.length_dropLast] at h4 ⊢; omega
        have hs' : 0 < AgentCategory.size ⟨s.seller.name, s.seller.values.dropLast⟩ := by omega
        exact ih (phase := false) (target := target) (b := b) hsb hp' (fun _ => ⟨h3, hs', h5⟩)
          (fun _ => hs') (by simp only [agents, Bool.false_eq_true, if_false] at hf ⊢; omega)

end Auctions.Multibuyer
