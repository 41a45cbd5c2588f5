import Verif.Model.TreeAuctionInteger
import Verif.Proofs.IntegerCut
import Verif.Proofs.TreeAuctionStart

set_option autoImplicit false

/-! # Helper lemmas: the tree auction with counts, when all counts are 1 -/

namespace Auctions.IntegerAuction

open Auctions Spec TreeAuction

/-- The price vectors of `prices_integer.py` that correspond to price vectors of `prices.py`. -/
def lift (n : ℕ) (v : SimultaneousAscendingPriceVectors) : IntegerPrices.SimultaneousAscendingPriceVectors :=
  ⟨v.psRecipes, List.replicate n 1, v.prices, v.status⟩

theorem dot3_ones {xs : List ℚ} {ys : List ℕ} {n : ℕ} (h : xs.length ≤ n) :
    IntegerPrices.dot3 xs ys (List.replicate n 1) = dot xs ys := by
  induction xs generalizing ys n with
  | nil => simp [IntegerPrices.dot3, dot]
  | cons x xs ih =>
    cases ys with
    | nil => simp [IntegerPrices.dot3, dot]
    | cons y ys =>
      cases n with
      | zero => simp at h
      | succ n =>
        rw [List.replicate_succ, IntegerPrices.dot3, dot, ih (by simpa using h)]
        simp

theorem lift_priceSum {n : ℕ} {v : SimultaneousAscendingPriceVectors} (h : v.prices.length ≤ n) :
    (lift n v).priceSum = v.priceSum := by
  unfold IntegerPrices.SimultaneousAscendingPriceVectors.priceSum SimultaneousAscendingPriceVectors.priceSum lift
  exact dot3_ones h

theorem toNew_eq (prices : List ℚ) (incs : List (ℕ × ℚ)) :
    IntegerPrices.SimultaneousAscendingPriceVectors.increasesToNewPrices prices incs
      = SimultaneousAscendingPriceVectors.increasesToNewPrices prices incs := by
  induction incs with
  | nil => rfl
  | cons a incs ih =>
    obtain ⟨i, x⟩ := a
    simp only [IntegerPrices.SimultaneousAscendingPriceVectors.increasesToNewPrices,
      SimultaneousAscendingPriceVectors.increasesToNewPrices, ih]

theorem apply_ones {n : ℕ} (δ : ℚ) {prices : List ℚ} {incs : List (ℕ × ℚ)} (h : ∀ a ∈ incs, a.1 < n) :
    IntegerPrices.SimultaneousAscendingPriceVectors.applyIncreases (List.replicate n 1) δ prices incs
      = SimultaneousAscendingPriceVectors.applyIncreases δ prices incs := by
  induction incs generalizing prices with
  | nil => rfl
  | cons a incs ih =>
    obtain ⟨i, x⟩ := a
    have hi : i < n := h (i, x) (by simp)
    have e : ∀ p, IntegerPrices.SimultaneousAscendingPriceVectors.applyIncreases (List.replicate n 1) δ p incs
      = SimultaneousAscendingPriceVectors.applyIncreases δ p incs := fun p => ih (fun a ha => h a (by simp [ha]))
    simp only [IntegerPrices.SimultaneousAscendingPriceVectors.applyIncreases,
      SimultaneousAscendingPriceVectors.applyIncreases, e]
    have hg : pyGet (List.replicate n 1) i = .ok 1 := by simp [pyGet, hi]
    rw [hg]
    simp [bind, Except.bind]

theorem inRecipe_ok {counts r : List ℕ} {incs : List (ℕ × ℚ)} (h : ∀ a ∈ incs, a.1 < r.length ∧ ∃ c, counts[a.1]? = some c ∧ 0 < c) :
    ∃ x, IntegerPrices.SimultaneousAscendingPriceVectors.increasesInRecipe counts r incs = .ok x := by
  induction incs with
  | nil => exact ⟨_, rfl⟩
  | cons a incs ih =>
    obtain ⟨i, y⟩ := a
    obtain ⟨h1, c, h2, h3⟩ := h (i, y) (by simp)
    obtain ⟨x, hx⟩ := ih (fun a ha => h a (by simp [ha]))
    rw [IntegerPrices.SimultaneousAscendingPriceVectors.increasesInRecipe, hx]
    simp only [pyGet, List.getElem?_eq_getElem h1, bind, Except.bind]
    simp only at h2
    by_cases hp : r[i] > 0
    · rw [if_pos hp, h2]
      have : (c : ℚ) ≠ 0 := by exact_mod_cast (by omega : c ≠ 0)
      simp [pyDiv, this]
    · rw [if_neg hp]
      exact ⟨_, rfl⟩

theorem perRecipe_ok {counts : List ℕ} {rs : List (List ℕ)} {incs : List (ℕ × ℚ)}
    (h : ∀ r ∈ rs, ∀ a ∈ incs, a.1 < r.length ∧ ∃ c, counts[a.1]? = some c ∧ 0 < c) :
    ∃ x, IntegerPrices.SimultaneousAscendingPriceVectors.increasesPerRecipe counts incs rs = .ok x := by
  induction rs with
  | nil => exact ⟨_, rfl⟩
  | cons r rs ih =>
    obtain ⟨x, hx⟩ := ih (fun r hr => h r (by simp [hr]))
    obtain ⟨y, hy⟩ := inRecipe_ok (h r (by simp))
    rw [IntegerPrices.SimultaneousAscendingPriceVectors.increasesPerRecipe, hx, hy]
    exact ⟨_, rfl⟩

/-- Raising prices simultaneously gives the same, if the check of one increase per recipe passes. -/
theorem increasePrices_lift {n : ℕ} {v : SimultaneousAscendingPriceVectors} {incs : List (ℕ × ℚ)} {bound : ℚ}
    (hp : v.prices.length = n) (hr : ∀ r ∈ v.psRecipes, r.length = n) (hi : ∀ a ∈ incs, a.1 < n)
    (hh : ∀ r ∈ v.psRecipes, hits r incs = 1) :
    (lift n v).increasePrices incs bound = (v.increasePrices incs bound).map (lift n) := by
  have h1 := increasesPerRecipe_eq (rs := v.psRecipes) (incs := incs) (fun r h a ha => by rw [hr r h]; exact hi a ha)
  obtain ⟨x, hx⟩ := perRecipe_ok (counts := List.replicate n 1) (rs := v.psRecipes) (incs := incs) (by
    intro r h a ha
    refine ⟨by rw [hr r h]; exact hi a ha, 1, by simp [hi a ha], by omega⟩)
  have hs := lift_priceSum (v := v) hp.le
  unfold IntegerPrices.SimultaneousAscendingPriceVectors.increasePrices SimultaneousAscendingPriceVectors.increasePrices
  rw [hs]
  simp only [lift, hx, h1, bind, Except.bind, toNew_eq, apply_ones _ hi]
  rw [if_neg]
  · cases SimultaneousAscendingPriceVectors.increasesToNewPrices v.prices incs with
    | error e => rfl
    | ok tn =>
      simp only
      cases pyMin tn with
      | error e => rfl
      | ok mn =>
        simp only
        cases SimultaneousAscendingPriceVectors.applyIncreases (min mn (bound - v.priceSum)) v.prices incs with
        | error e => rfl
        | ok p' =>
          simp only
          split <;> rfl
  · simp only [List.any_eq_true, List.mem_map, decide_eq_true_eq, not_exists, not_and, Decidable.not_not]
    rintro k ⟨r, h, rfl⟩
    exact hh r h

/-- The two loops agree. -/
theorem loop_lift {t : RecipeTree} {n : ℕ} (ht : TreeOn t n) {cnt : ℕ → ℕ} (hc : ∀ i ∈ treeNodes t, cnt i = 1) (fuel : ℕ)
    {cats : List AgentCategory} {v : SimultaneousAscendingPriceVectors} (hcl : cats.length = n)
    (hr : v.psRecipes = t.pathsToLeaf.map (indicator n)) (hp : v.prices.length = n) :
    loop cnt t fuel cats (lift n v) = (TreeAuction.loop t fuel cats v).map (Option.map (fun o => (o.1, lift n o.2))) := by
  induction fuel generalizing cats v with
  | zero => rfl
  | succ fuel ih =>
    have hnode : nodes t.forest = treeNodes t := by simp [RecipeTree.forest, nodes, treeNodes]
    have hlarge : IntegerTree.largestCategories cnt (sizeAt cats) t.forest
        = (((t.largestCategories (sizeAt cats)).1 : ℚ), ((t.largestCategories (sizeAt cats)).2.1 : ℚ),
          (t.largestCategories (sizeAt cats)).2.2) :=
      IntegerTree.largest_one (cnt := cnt) (size := sizeAt cats) (f := t.forest) (by rw [hnode]; exact hc)
    have hlt : ∀ i ∈ cutOf t cats, i < cats.length := by rw [hcl]; exact fun i hi => ht.lt i (cut_mem i hi)
    have hinc := increases_eq (cats := cats) (is := cutOf t cats) hlt
    have hlen : ∀ r ∈ v.psRecipes, r.length = n := by
      rw [hr]; intro r h
      obtain ⟨p, -, rfl⟩ := List.mem_map.1 h
      simp [indicator]
    have hidx : ∀ a ∈ (cutOf t cats).map (fun i => (i, target cats i)), a.1 < n := by
      intro a ha
      obtain ⟨i, hi, rfl⟩ := List.mem_map.1 ha
      rw [← hcl]; exact hlt i hi
    have hhits : ∀ r ∈ v.psRecipes, hits r ((cutOf t cats).map (fun i => (i, target cats i))) = 1 := by
      rw [hr]; intro r h
      obtain ⟨p, hp', rfl⟩ := List.mem_map.1 h
      rw [hits_indicator _ (by rw [← hcl]; exact hlt)]
      exact cut_path ht cats (mem_paths.1 hp')
    have hraise := increasePrices_lift (bound := 0) hp hlen hidx hhits
    have hspec := increasePrices_spec v ((cutOf t cats).map (fun i => (i, target cats i))) 0
      (by rw [hr]; simpa using paths_ne_nil t) (by rw [hp]; exact hlen)
      (by
        rw [hr]
        intro r h x hx
        obtain ⟨p, -, rfl⟩ := List.mem_map.1 h
        simp only [indicator, List.mem_map] at hx
        obtain ⟨i, -, rfl⟩ := hx
        split <;> simp)
      (by rw [hp]; exact hidx)
    rcases hspec with ⟨⟨r, h, h1⟩, -⟩ | ⟨-, d, δ, v', -, -, -, h5, h6, h7, -⟩
    · exact absurd (hhits r h) h1
    · rw [h5] at hraise
      rw [loop, TreeAuction.loop]
      simp only [hlarge]
      have hz : ((((t.largestCategories (sizeAt cats)).2.1 : ℕ) : ℚ) = 0) ↔ (t.largestCategories (sizeAt cats)).2.1 = 0 := by
        exact_mod_cast Iff.rfl
      by_cases h0 : (t.largestCategories (sizeAt cats)).2.1 = 0
      · rw [if_pos (hz.2 h0), if_pos h0]; rfl
      · rw [if_neg (fun h => h0 (hz.1 h)), if_neg h0]
        rw [show (t.largestCategories (sizeAt cats)).2.2 = cutOf t cats from rfl]
        rw [hinc]
        simp only [bind, Except.bind, hraise, h5, Except.map]
        by_cases hs : v'.status = some .stoppedAtZeroSum
        · have hs' : (lift n v').status = some .stoppedAtZeroSum := hs
          rw [if_pos hs', if_pos hs]; rfl
        · have hs' : ¬ (lift n v').status = some .stoppedAtZeroSum := hs
          rw [if_neg hs', if_neg hs]
          have hl : v'.prices.length = cats.length := by rw [h7, hp, hcl]
          have hrm : removeLosers cats (lift n v').prices = _ := removeLosers_eq hl
          rw [hrm, removeLosers_eq hl]
          exact ih (by rw [List.length_zipWith]; change min _ v'.prices.length = n; omega) (by rw [h6, hr]) (by rw [h7, hp])

end Auctions.IntegerAuction
