import Verif.Proofs.Multirecipe
import Verif.Proofs.AscendingOutcome

set_option autoImplicit false

/-! # Helper lemmas: the old auction with several recipes, given one recipe, and the auction for one recipe -/

namespace Auctions.Multirecipe

open Auctions Spec TreeAuction

/-- The two loops are in the same state: the same categories, the same prices of the categories that the recipe uses; all remaining values are above the prices, and differ. -/
structure Same (n : ℕ) (r : List ℕ) (cats : List AgentCategory) (v : SimultaneousAscendingPriceVectors) (p : AscendingPriceVector) : Prop where
  len : cats.length = n
  recipes : v.psRecipes = [r]
  vlen : v.prices.length = n
  recipe : p.psRecipe = r
  plen : p.prices.length = n
  price : ∀ i < n, 0 < rAt r i → p.prices.getD i 0 = v.prices.getD i 0
  above : ∀ i, ∀ x ∈ valuesAt cats i, priceAt v i < x
  sorted : ∀ i, SortedDesc (valuesAt cats i)
  nodup : ∀ i, (valuesAt cats i).Nodup
  neg : recipeSum r p.prices < 0

theorem sum_congr {n : ℕ} {r : List ℕ} {p q : List ℚ} (hr : r.length = n) (hp : p.length = n) (hq : q.length = n) (h : ∀ i < n, 0 < rAt r i → p.getD i 0 = q.getD i 0) :
    recipeSum r p = recipeSum r q := by
  rw [recipeSum_eq_sum hr hp, recipeSum_eq_sum hr hq]
  refine Finset.sum_congr rfl fun i hi => ?_
  rcases Nat.eq_zero_or_pos (rAt r i) with h0 | h0
  · rw [h0]; simp
  · rw [h i (Finset.mem_range.1 hi) h0]

theorem sizeAt_same (cats : List AgentCategory) (i : ℕ) : Ascending.sizeAt ⟨cats⟩ i = sizeAt cats i := by
  unfold Ascending.sizeAt sizeAt
  cases cats[i]? <;> rfl

theorem hits_one {n : ℕ} {r : List ℕ} (hr : r.length = n) {c : ℕ} (hc : c < n) (h1 : rAt r c = 1) (x : ℚ) : hits r [(c, x)] = 1 := by
  have : r[c]? = some 1 := by
    rw [rAt_eq_getElem (by omega)] at h1
    rw [List.getElem?_eq_getElem (by omega), h1]
  simp [hits, this]

/-- The last value of a category, after which the others are larger. -/
theorem dropLast_above {l : List ℚ} (hs : SortedDesc l) (hn : l.Nodup) {y : ℚ} (hy : l.getLast? = some y) : ∀ x ∈ l.dropLast, y < x := by
  obtain ⟨l', rfl⟩ := List.getLast?_eq_some_iff.1 hy
  intro x hx
  rw [List.dropLast_concat] at hx
  have h1 : y ≤ x := by
    have := hs
    unfold SortedDesc at this
    rw [List.pairwise_append] at this
    exact this.2.2 x hx y (by simp)
  have h2 : y ≠ x := by
    rintro rfl
    rw [List.nodup_append] at hn
    exact hn.2.2 y hx y (by simp) rfl
  exact lt_of_le_of_ne h1 h2

/-- The two loops run in the same way. -/
theorem same_loop {n : ℕ} {r : List ℕ} (hr : r.length = n) (hbin : ∀ x ∈ r, x = 0 ∨ x = 1) (rel : List ℕ) (hrel : ∀ i ∈ rel, i < n ∧ rAt r i = 1) (hne : rel ≠ [])
    {a : Analysis} (ha : a.common = [] ∧ a.unique = [rel]) (fuel : ℕ) {cats : List AgentCategory} {v : SimultaneousAscendingPriceVectors} {p : AscendingPriceVector}
    (h : Same n r cats v p) :
    (Ascending.loop r rel fuel ⟨cats⟩ p = .ok none ∧ loop id 1 a fuel cats v = .ok none) ∨
    ∃ cats' ps p', Ascending.loop r rel fuel ⟨cats⟩ p = .ok (some (⟨cats'⟩, p')) ∧ loop id 1 a fuel cats v = .ok (some (.trade cats' ps)) ∧ cats'.length = n ∧
      p'.prices.length = n ∧ ∀ i < n, 0 < rAt r i → p'.prices.getD i 0 = ps.getD i 0 := by
  induction fuel generalizing cats v p with
  | zero => exact Or.inl ⟨rfl, rfl⟩
  | succ fuel ih =>
    obtain ⟨c, hmax, hc, -⟩ := Ascending.pyMaxBy_spec (fun i => (sizeAt cats i : ℚ)) hne
    obtain ⟨hcn, hrc⟩ := hrel c hc
    have hmax' : pyMaxBy (Ascending.fractionalPotentialPs ⟨cats⟩ r) rel = .ok c := by
      rw [← hmax]
      refine Ascending.pyMaxBy_congr fun i hi => ?_
      unfold Ascending.fractionalPotentialPs
      rw [sizeAt_same, Ascending.recipeAt_eq, (hrel i hi).2]; simp
    have hcl : c < cats.length := by rw [h.len]; exact hcn
    have hget : pyGet (⟨cats⟩ : Market).categories c = .ok cats[c] := pyGet_ok (List.getElem?_eq_getElem hcl)
    have hA : Ascending.loop r rel (fuel + 1) ⟨cats⟩ p = (if sizeAt cats c = 0 then .ok (some (⟨cats⟩, p)) else do
        let target ← cats[c].lowestAgentValue
        let prices' ← p.increasePriceUpToBalance c target
        if prices'.status = some .stoppedAtZeroSum then .ok (some (⟨cats⟩, prices'))
        else do
          let mainCategory' ← cats[c].removeLowestAgent
          Ascending.loop r rel fuel ⟨cats.set c mainCategory'⟩ prices') := by
      rw [Ascending.loop, hmax']
      simp only [bind, Except.bind, hget, sizeAt_get hcl]
    have hM : loop id 1 a (fuel + 1) cats v = (if sizeAt cats c = 0 then .ok (some (.trade cats v.prices)) else do
        match ← decision 1 cats (0, 0) [c] with
        | .delete k => .ok (some (.restart k))
        | .increases l => do
          let prices' ← v.increasePrices l
          if prices'.status = some .stoppedAtZeroSum then .ok (some (.trade cats prices'.prices))
          else do
            let cats' ← removeLosers cats prices'.prices
            loop id 1 a fuel cats' prices') := by
      rw [loop, ha.1, ha.2]
      simp only [largestCommon, List.length_nil, lt_self_iff_false, if_false, largestUnique, id, hmax, bind, Except.bind, List.length_singleton, one_ne_zero,
        List.map_cons, List.map_nil, List.sum_cons, List.sum_nil, add_zero]
      rfl
    rw [hA, hM]
    by_cases h0 : sizeAt cats c = 0
    · simp only [h0, if_true]
      exact Or.inr ⟨cats, v.prices, p, rfl, rfl, h.len, h.plen, h.price⟩
    · simp only [if_neg h0]
      have hdec : decision 1 cats (0, 0) [c] = .ok (.increases [(c, target cats c)]) := by
        have h0' := h0
        rw [sizeAt_get hcl] at h0'
        simp [decision, h0, plan, pyGet_ok (List.getElem?_eq_getElem hcl), bind, Except.bind, h0', lowest_eq hcl h0]
      rw [hdec, lowest_eq hcl h0]
      -- the price vectors
      have hsum : recipeSum r p.prices = recipeSum r v.prices := sum_congr hr h.plen h.vlen h.price
      have hvs : v.priceSum = recipeSum r p.prices := by
        unfold SimultaneousAscendingPriceVectors.priceSum
        rw [dot_eq, h.recipes, hsum]; rfl
      have hpc : p.prices.getD c 0 = priceAt v c := h.price c hcn (by omega)
      have hpg : p.prices[c]? = some (priceAt v c) := by
        rw [← hpc, List.getElem?_eq_getElem (by rw [h.plen]; exact hcn)]
        simp [List.getD_eq_getElem?_getD, h.plen, hcn]
      have hrg : r[c]? = some 1 := by
        rw [rAt_eq_getElem (by omega)] at hrc
        rw [List.getElem?_eq_getElem (by omega), hrc]
      rcases increasePrices_spec v [(c, target cats c)] 0 (by rw [h.recipes]; simp) (by rw [h.recipes, h.vlen]; simp [hr]) (by rw [h.recipes]; simpa using hbin)
        (by intro inc hinc; rw [List.mem_singleton.1 hinc, h.vlen]; exact hcn) with ⟨⟨q, hq, h1⟩, -⟩ | ⟨-, d, delta, v', h2, h3, h4, h5, h6, h7, h8, h9, h10⟩
      · rw [h.recipes, List.mem_singleton] at hq
        subst hq; exact absurd (hits_one hr hcn hrc _) h1
      have hd : d = target cats c - priceAt v c := by
        obtain ⟨inc, hinc, e⟩ := h2
        rw [List.mem_singleton.1 hinc] at e
        exact e.symm
      rw [hvs, zero_sub] at h4 h10
      have hlisted : ∀ j, (listed [(c, target cats c)] j : ℚ) = if j = c then 1 else 0 := by
        intro j
        by_cases hj : j = c
        · subst hj; simp [listed]
        · simp [listed, hj, Ne.symm hj]
      have hv' : ∀ j < n, v'.prices.getD j 0 = v.prices.getD j 0 + if j = c then delta else 0 := by
        intro j hj
        rw [h8 j (by rw [h.vlen]; exact hj), hlisted]; split <;> simp
      have hdpos : 0 < d := by
        have := h.above c _ (target_mem h0); linarith
      by_cases hz : 0 ≤ recipeSum r p.prices - priceAt v c + target cats c
      · -- the price crosses zero
        have hdelta : delta = -recipeSum r p.prices := by rw [h4, min_eq_right]; linarith
        have hp' : p.increasePriceUpToBalance c (target cats c) = .ok { p with prices := p.prices.set c (-(recipeSum r p.prices - priceAt v c)), status := some .stoppedAtZeroSum } := by
          unfold AscendingPriceVector.increasePriceUpToBalance AscendingPriceVector.priceSumWithoutCategory
          simp only [h.recipe, pyGet_ok hrg, pyGet_ok hpg, bind, Except.bind, AscendingPriceVector.priceSum, dot_eq, Nat.cast_one, one_mul, ge_iff_le, hz, if_true, pyDiv, one_ne_zero, if_false,
            zero_sub, div_one]
        right
        refine ⟨cats, v'.prices, _, by simp only [bind, Except.bind, hp']; rfl, by simp only [bind, Except.bind, h5, h10, hdelta, if_true], h.len, by simp [h.plen], fun i hi hri => ?_⟩
        rw [hv' i hi]
        by_cases hic : i = c
        · subst hic
          rw [if_pos rfl, hdelta]
          simp only [List.getD_eq_getElem?_getD, List.getElem?_set_self (show i < p.prices.length by rw [h.plen]; exact hi), Option.getD_some]
          unfold priceAt
          rw [List.getD_eq_getElem?_getD]; ring
        · rw [if_neg hic, add_zero]
          simp only [List.getD_eq_getElem?_getD, List.getElem?_set_ne (Ne.symm hic)]
          simpa [List.getD_eq_getElem?_getD] using h.price i hi hri
      · -- the lowest agent leaves
        have hdelta : delta = d := by rw [h4, min_eq_left]; linarith
        have hp' : p.increasePriceUpToBalance c (target cats c) = .ok { p with prices := p.prices.set c (target cats c), status := some .stoppedAtAgentValue } := by
          unfold AscendingPriceVector.increasePriceUpToBalance AscendingPriceVector.priceSumWithoutCategory
          simp only [h.recipe, pyGet_ok hrg, pyGet_ok hpg, bind, Except.bind, AscendingPriceVector.priceSum, dot_eq, Nat.cast_one, one_mul, ge_iff_le, hz, if_false]
        have hstat : v'.status = some .stoppedAtAgentValue := by
          rw [h10, if_neg]; linarith
        have hpv' : ∀ j, priceAt v' j = if j = c then target cats c else priceAt v j := by
          intro j
          unfold priceAt
          by_cases hj : j < n
          · rw [hv' j hj, hdelta, hd]
            by_cases hjc : j = c
            · subst hjc; simp [priceAt]
            · simp [hjc]
          · rw [if_neg (by omega), List.getD_eq_getElem?_getD, List.getD_eq_getElem?_getD, List.getElem?_eq_none (by rw [h7, h.vlen]; omega),
              List.getElem?_eq_none (by rw [h.vlen]; omega)]
        have hlen : v'.prices.length = cats.length := by rw [h7, h.vlen, h.len]
        obtain ⟨y, hy⟩ : ∃ y, cats[c].values.getLast? = some y := by
          cases hl : cats[c].values.getLast? with
          | none =>
            rw [List.getLast?_eq_none_iff] at hl
            rw [sizeAt_get hcl] at h0
            simp [AgentCategory.size, hl] at h0
          | some y => exact ⟨y, rfl⟩
        have hty : target cats c = y := by unfold target; rw [valuesAt_get hcl, hy]; rfl
        have hrem : cats[c].removeLowestAgent = .ok ⟨cats[c].name, cats[c].values.dropLast⟩ := by
          unfold AgentCategory.removeLowestAgent
          cases hl : cats[c].values with
          | nil => rw [hl] at hy; simp at hy
          | cons x xs => rfl
        -- only the lowest agent of the raised category leaves
        have hcats : List.zipWith (fun c p => (⟨c.name, afterRemoval c.values p⟩ : AgentCategory)) cats v'.prices = cats.set c ⟨cats[c].name, cats[c].values.dropLast⟩ := by
          apply List.ext_getElem
          · simp [hlen]
          · intro i hi hi'
            have hil : i < cats.length := by simpa using hi'
            have hpi : v'.prices[i]'(by omega) = priceAt v' i := by
              unfold priceAt; simp [List.getD_eq_getElem?_getD, hlen, hil]
            rw [List.getElem_zipWith, hpi, hpv', List.getElem_set]
            by_cases hic : i = c
            · subst hic
              rw [if_pos rfl, if_pos rfl]
              congr 1
              unfold afterRemoval
              rw [if_pos ⟨y, hy, by rw [hty]⟩]
            · rw [if_neg hic, if_neg (Ne.symm hic)]
              have : afterRemoval cats[i].values (priceAt v i) = cats[i].values := by
                unfold afterRemoval
                rw [if_neg]
                rintro ⟨x, hx, hle⟩
                have := h.above i x (by rw [valuesAt_get hil]; exact List.mem_of_getLast? hx)
                linarith
              rw [this]
        have hvals : ∀ i, valuesAt (cats.set c ⟨cats[c].name, cats[c].values.dropLast⟩) i = if i = c then cats[c].values.dropLast else valuesAt cats i := by
          intro i
          unfold valuesAt
          rw [List.getElem?_set]
          by_cases hic : i = c
          · subst hic; simp [hcl]
          · rw [if_neg (Ne.symm hic), if_neg hic]
        have hsame : Same n r (cats.set c ⟨cats[c].name, cats[c].values.dropLast⟩) v' { p with prices := p.prices.set c (target cats c), status := some .stoppedAtAgentValue } := by
          refine ⟨by simp [h.len], by rw [h6, h.recipes], by rw [h7, h.vlen], h.recipe, by simp [h.plen], ?_, ?_, ?_, ?_, ?_⟩
          · intro i hi hri
            have e : v'.prices.getD i 0 = priceAt v' i := rfl
            rw [e, hpv']
            by_cases hic : i = c
            · subst hic
              rw [if_pos rfl]
              simp [List.getD_eq_getElem?_getD, h.plen, hi]
            · rw [if_neg hic]
              simp only [List.getD_eq_getElem?_getD, List.getElem?_set_ne (Ne.symm hic)]
              simpa [List.getD_eq_getElem?_getD, priceAt] using h.price i hi hri
          · intro i x hx
            rw [hvals] at hx
            rw [hpv']
            by_cases hic : i = c
            · subst hic
              rw [if_pos rfl] at hx ⊢
              rw [hty]
              have hs := h.sorted i; have hn := h.nodup i
              rw [valuesAt_get hcl] at hs hn
              exact dropLast_above hs hn hy x hx
            · rw [if_neg hic] at hx ⊢; exact h.above i x hx
          · intro i
            rw [hvals]
            split
            · rename_i hic; subst hic
              have hs := h.sorted i
              rw [valuesAt_get hcl] at hs
              rw [List.dropLast_eq_take]; exact hs.take _
            · exact h.sorted i
          · intro i
            rw [hvals]
            split
            · rename_i hic; subst hic
              have hs := h.nodup i
              rw [valuesAt_get hcl] at hs
              exact hs.sublist (List.dropLast_sublist _)
            · exact h.nodup i
          · show recipeSum r (p.prices.set c (target cats c)) < 0
            rw [recipeSum_set hrg hpg]
            simp only [Nat.cast_one, one_mul]; linarith
        simp only [bind, Except.bind, hp', hrem, h5, hstat, removeLosers_eq hlen, hcats, Option.some.injEq, reduceCtorEq, if_false]
        exact ih hsame

end Auctions.Multirecipe
