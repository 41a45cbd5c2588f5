import Verif.Model.FloatingTree
import Verif.Proofs.Floating
import Verif.Proofs.TreeAuctionStart

set_option autoImplicit false

/-! # Helper lemmas: the recipe-tree auction with rounded arithmetic -/

namespace Auctions.Floating

open Auctions Auctions.Spec Auctions.TreeAuction

section
variable {f : ℚ → ℚ} (hf : Rounding f) {M : ℕ} {vals : ℕ → List ℚ} (hv : ∀ i, ∀ x ∈ vals i, Small M x)
include hf hv

/-! ### Combined values -/

theorem combinedValues_eq (F : Forest) (hb : M * (nodes F).length ≤ 2 ^ 53) :
    combinedValues f vals F = F.combinedValues vals ∧ ∀ x ∈ F.combinedValues vals, Small (M * (nodes F).length) x := by
  induction F with
  | nil => exact ⟨rfl, by simp [Forest.combinedValues]⟩
  | cons i ch sib ih1 ih2 =>
    have hl : M * (nodes (.cons i ch sib)).length = M + (M * (nodes ch).length + M * (nodes sib).length) := by
      simp only [nodes, List.length_cons, List.length_append]; ring
    obtain ⟨h1, h2⟩ := ih1 (by omega)
    obtain ⟨h3, h4⟩ := ih2 (by omega)
    unfold combinedValues Forest.combinedValues
    cases ch with
    | nil =>
      dsimp only
      rw [h3]
      refine ⟨rfl, fun x hx => ?_⟩
      rcases List.mem_append.1 hx with hx | hx
      · exact (hv i x hx).mono (by omega)
      · exact (h4 x hx).mono (by omega)
    | cons j ch' sib' =>
      dsimp only
      rw [h1, h3]
      have key : ∀ {a b : ℚ}, a ∈ vals i → b ∈ sortDesc (Forest.combinedValues vals (.cons j ch' sib')) →
          Small (M + M * (nodes (.cons j ch' sib')).length) (a + b) := by
        intro a b ha hb'
        exact (hv i a ha).add (h2 b ((List.mem_insertionSort _).1 hb'))
      constructor
      · congr 1
        have : ∀ (l l' : List ℚ), (∀ a ∈ l, ∀ b ∈ l', f (a + b) = a + b) → List.zipWith (fun a b => f (a + b)) l l' = List.zipWith (· + ·) l l' := by
          intro l
          induction l with
          | nil => intro l' _; rfl
          | cons a l ih =>
            intro l' h
            cases l' with
            | nil => rfl
            | cons b l' =>
              rw [List.zipWith_cons_cons, List.zipWith_cons_cons, h a (by simp) b (by simp), ih l' fun x hx y hy => h x (by simp [hx]) y (by simp [hy])]
        exact this _ _ fun a ha b hb' => (key ha hb').fl hf (by omega)
      · intro x hx
        rcases List.mem_append.1 hx with hx | hx
        · rw [List.mem_iff_getElem] at hx
          obtain ⟨k, hk, rfl⟩ := hx
          rw [List.getElem_zipWith]
          exact (key (List.getElem_mem _) (List.getElem_mem _)).mono (by omega)
        · exact (h4 x hx).mono (by omega)

omit hv in
theorem itemKey_eq {x : Forest.Item} {N : ℕ} (h : ∀ v ∈ x.flat, Small M v) (hl : x.flat.length ≤ N) (hb : M * N ≤ 2 ^ 53) : itemKey f x = x.key := by
  cases x with
  | num v => rfl
  | tup vs =>
    have : M * vs.length ≤ M * N := Nat.mul_le_mul_left M hl
    exact (flSum_eq hf h (this.trans hb)).1

theorem detailed_eq (F : Forest) (hb : M * (nodes F).length ≤ 2 ^ 53) :
    combinedValuesDetailed f vals F = F.combinedValuesDetailed vals ∧
    ∀ x ∈ F.combinedValuesDetailed vals, (∀ v ∈ x.flat, Small M v) ∧ x.flat.length ≤ (nodes F).length := by
  induction F with
  | nil => exact ⟨rfl, by simp [Forest.combinedValuesDetailed]⟩
  | cons i ch sib ih1 ih2 =>
    have hl : M * (nodes (.cons i ch sib)).length = M + (M * (nodes ch).length + M * (nodes sib).length) := by
      simp only [nodes, List.length_cons, List.length_append]; ring
    have hl' : (nodes (.cons i ch sib)).length = 1 + ((nodes ch).length + (nodes sib).length) := by
      simp only [nodes, List.length_cons, List.length_append]; ring
    obtain ⟨h1, h2⟩ := ih1 (by omega)
    obtain ⟨h3, h4⟩ := ih2 (by omega)
    unfold combinedValuesDetailed Forest.combinedValuesDetailed
    cases ch with
    | nil =>
      dsimp only
      rw [h3]
      refine ⟨rfl, fun x hx => ?_⟩
      rcases List.mem_append.1 hx with hx | hx
      · obtain ⟨v, hv', rfl⟩ := List.mem_map.1 hx
        simp only [Forest.Item.flat, List.mem_singleton, forall_eq, List.length_singleton]
        exact ⟨hv i v hv', by omega⟩
      · exact ⟨(h4 x hx).1, (h4 x hx).2.trans (by omega)⟩
    | cons j ch' sib' =>
      dsimp only
      rw [h1, h3]
      rw [sort_congr (p := fun x y => itemKey f x ≥ itemKey f y) (q := fun x y => x.key ≥ y.key) (fun x hx y hy => by
        rw [itemKey_eq hf (h2 x hx).1 (h2 x hx).2 (by omega), itemKey_eq hf (h2 y hy).1 (h2 y hy).2 (by omega)])]
      refine ⟨rfl, fun x hx => ?_⟩
      rcases List.mem_append.1 hx with hx | hx
      · rw [List.mem_iff_getElem] at hx
        obtain ⟨k, hk, rfl⟩ := hx
        rw [List.getElem_zipWith]
        have hmem : ∀ y, y ∈ (Forest.combinedValuesDetailed vals (.cons j ch' sib')).insertionSort (fun x y => x.key ≥ y.key) → _ := fun y hy => h2 y ((List.mem_insertionSort _).1 hy)
        have h5 := hmem _ (List.getElem_mem (n := k) (by rw [List.length_zipWith] at hk; omega))
        simp only [Forest.Item.flat, List.length_cons]
        refine ⟨fun v hv' => ?_, le_trans (Nat.succ_le_succ h5.2) (by omega)⟩
        rcases List.mem_cons.1 hv' with rfl | hv'
        · exact hv i _ (List.getElem_mem _)
        · exact h5.1 v hv'
      · exact ⟨(h4 x hx).1, (h4 x hx).2.trans (by omega)⟩

omit hf hv in
theorem tree_lengths (t : RecipeTree) (vals : ℕ → List ℚ) : (t.forest.combinedValues vals).length ≤ (vals t.index).length ∧ (t.forest.combinedValuesDetailed vals).length ≤ (vals t.index).length := by
  obtain ⟨i, ch⟩ := t
  unfold RecipeTree.forest Forest.combinedValues Forest.combinedValuesDetailed
  cases ch <;> simp [Forest.combinedValues, Forest.combinedValuesDetailed]

theorem treeOptimalTradeGFT_eq (t : RecipeTree) {A : ℕ} (hA : (vals t.index).length ≤ A) (hb0 : M * (treeNodes t).length ≤ 2 ^ 53) (hb : M * (treeNodes t).length * A ≤ 2 ^ 53) :
    treeOptimalTradeGFT f t vals = t.optimalTradeGFT vals := by
  have hn : (nodes t.forest).length = (treeNodes t).length := by simp [RecipeTree.forest, nodes, treeNodes]
  obtain ⟨h1, h2⟩ := combinedValues_eq hf hv t.forest (by rw [hn]; exact hb0)
  unfold treeOptimalTradeGFT RecipeTree.optimalTradeGFT RecipeTree.combinedValues
  rw [h1]
  refine (flSum_eq hf (B := M * (nodes t.forest).length) (fun x hx => h2 x (List.mem_of_mem_filter hx)) ?_).1
  rw [hn]
  refine le_trans (Nat.mul_le_mul_left _ ?_) hb
  exact (List.length_filter_le _ _).trans ((tree_lengths t vals).1.trans hA)

omit hf hv in
theorem mapM_itemSum {l : List Forest.Item} {ts : List (List ℚ)} (h : l.mapM RecipeTree.itemSum = .ok ts) : ts = l.map Forest.Item.flat := by
  induction l generalizing ts with
  | nil =>
    simp only [List.mapM_nil, pure, Except.pure, Except.ok.injEq] at h
    subst h; rfl
  | cons x l ih =>
    rw [List.mapM_cons] at h
    cases x with
    | num v => simp [RecipeTree.itemSum, bind, Except.bind] at h
    | tup vs =>
      cases hr : l.mapM RecipeTree.itemSum with
      | error e => rw [hr] at h; simp [RecipeTree.itemSum, bind, Except.bind] at h
      | ok us =>
        rw [hr] at h
        simp only [RecipeTree.itemSum, bind, Except.bind, pure, Except.pure, Except.ok.injEq] at h
        subst h
        rw [ih hr]; rfl

theorem treeOptimalTrade_eq (t : RecipeTree) {A : ℕ} (hA : (vals t.index).length ≤ A) (hb0 : M * (treeNodes t).length ≤ 2 ^ 53) (hb : M * (treeNodes t).length * A ≤ 2 ^ 53) :
    treeOptimalTrade f t vals = t.optimalTrade vals := by
  have hn : (nodes t.forest).length = (treeNodes t).length := by simp [RecipeTree.forest, nodes, treeNodes]
  obtain ⟨h1, h2⟩ := detailed_eq hf hv t.forest (by rw [hn]; exact hb0)
  unfold treeOptimalTrade RecipeTree.optimalTrade RecipeTree.combinedValuesDetailed
  rw [h1]
  cases hm : (t.forest.combinedValuesDetailed vals).mapM RecipeTree.itemSum with
  | error e => rfl
  | ok ts =>
    have hts := mapM_itemSum hm
    have hsmall : ∀ vs ∈ ts, (∀ v ∈ vs, Small M v) ∧ vs.length ≤ (treeNodes t).length := by
      intro vs hvs
      rw [hts] at hvs
      obtain ⟨x, hx, rfl⟩ := List.mem_map.1 hvs
      rw [← hn]; exact h2 x hx
    have hlen : ts.length ≤ A := by rw [hts, List.length_map]; exact (tree_lengths t vals).2.trans hA
    simp only [bind, Except.bind]
    have hfilter : ts.filter (fun vs => decide (flSum f vs ≥ 0)) = ts.filter (fun vs => decide (vs.sum ≥ 0)) := by
      refine List.filter_congr fun vs hvs => ?_
      rw [(flSum_eq hf (hsmall vs hvs).1 ((Nat.mul_le_mul_left M (hsmall vs hvs).2).trans hb0)).1]
    rw [hfilter]
    have hflat : ∀ l : List (List ℚ), (∀ vs ∈ l, vs.length ≤ (treeNodes t).length) → l.flatten.length ≤ (treeNodes t).length * l.length := by
      intro l
      induction l with
      | nil => simp
      | cons a l ih =>
        intro h
        have h5 := ih fun vs hvs => h vs (by simp [hvs])
        have h6 := h a (by simp)
        simp only [List.flatten_cons, List.length_append, List.length_cons]
        rw [Nat.mul_succ]; omega
    have hsum := (flSum_eq hf (l := (ts.filter (fun vs => decide (vs.sum ≥ 0))).flatten) (B := M) (by
      intro x hx
      obtain ⟨vs, hvs, hx⟩ := List.mem_flatten.1 hx
      exact (hsmall vs (List.mem_of_mem_filter hvs)).1 x hx) (by
      have h7 := hflat (ts.filter (fun vs => decide (vs.sum ≥ 0))) fun vs hvs => (hsmall vs (List.mem_of_mem_filter hvs)).2
      have h8 : (ts.filter (fun vs => decide (vs.sum ≥ 0))).length ≤ A := (List.length_filter_le _ _).trans hlen
      calc M * (ts.filter (fun vs => decide (vs.sum ≥ 0))).flatten.length ≤ M * ((treeNodes t).length * A) :=
            Nat.mul_le_mul_left M (h7.trans (Nat.mul_le_mul_left _ h8))
        _ = M * (treeNodes t).length * A := by ring
        _ ≤ 2 ^ 53 := hb)).1
    rw [hsum]

end

/-! ### Prices -/

section
variable {f : ℚ → ℚ} (hf : Rounding f)
include hf

theorem toNew_eq {M P : ℕ} {prices : List ℚ} (hp : ∀ q ∈ prices, Small P q) (hb : M + P ≤ 2 ^ 53) {incs : List (ℕ × ℚ)} (hi : ∀ x ∈ incs, Small M x.2) :
    increasesToNewPrices f prices incs = SimultaneousAscendingPriceVectors.increasesToNewPrices prices incs ∧
    ∀ l, SimultaneousAscendingPriceVectors.increasesToNewPrices prices incs = .ok l → ∀ q ∈ l, Small (M + P) q := by
  induction incs with
  | nil => exact ⟨rfl, fun l h => by simp only [SimultaneousAscendingPriceVectors.increasesToNewPrices, Except.ok.injEq] at h; subst h; simp⟩
  | cons x incs ih =>
    obtain ⟨i, t⟩ := x
    obtain ⟨h1, h2⟩ := ih fun y hy => hi y (by simp [hy])
    unfold increasesToNewPrices SimultaneousAscendingPriceVectors.increasesToNewPrices
    rw [h1]
    cases hg : pyGet prices i with
    | error e => exact ⟨rfl, fun l h => by simp [bind, Except.bind] at h⟩
    | ok p =>
      have hps : Small P p := by
        unfold pyGet at hg
        split at hg
        · rename_i y hy
          simp only [Except.ok.injEq] at hg
          subst hg
          exact hp _ (List.mem_of_getElem? hy)
        · simp at hg
      have ht : Small (M + P) (t - p) := (hi (i, t) (by simp)).sub hps
      simp only [bind, Except.bind]
      rw [ht.fl hf hb]
      cases hr : SimultaneousAscendingPriceVectors.increasesToNewPrices prices incs with
      | error e => exact ⟨rfl, fun l h => by simp at h⟩
      | ok l0 =>
        refine ⟨rfl, fun l h => ?_⟩
        simp only [Except.ok.injEq] at h
        subst h
        intro q hq
        rcases List.mem_cons.1 hq with rfl | hq
        · exact ht
        · exact h2 l0 hr q hq

theorem apply_eq {D P : ℕ} {δ : ℚ} (hδ : Small D δ) (hb : P + D ≤ 2 ^ 53) {incs : List (ℕ × ℚ)} (hnd : (incs.map Prod.fst).Nodup) {prices : List ℚ}
    (hp : ∀ i ∈ incs.map Prod.fst, ∀ q, pyGet prices i = .ok q → Small P q) :
    applyIncreases f δ prices incs = SimultaneousAscendingPriceVectors.applyIncreases δ prices incs := by
  induction incs generalizing prices with
  | nil => rfl
  | cons x incs ih =>
    obtain ⟨i, t⟩ := x
    unfold applyIncreases SimultaneousAscendingPriceVectors.applyIncreases
    rw [List.map_cons, List.nodup_cons] at hnd
    cases hg : pyGet prices i with
    | error e => rfl
    | ok p =>
      simp only [bind, Except.bind]
      rw [((hp i (by simp) p hg).add hδ).fl hf hb]
      refine ih hnd.2 fun j hj q hq => hp j (by simp only [List.map_cons, List.mem_cons]; exact Or.inr hj) q ?_
      have hij : i ≠ j := fun h => hnd.1 (h ▸ hj)
      unfold pyGet at hq ⊢
      rwa [List.getElem?_set_ne hij] at hq

theorem increasePrices_eq {M P : ℕ} {v : SimultaneousAscendingPriceVectors} (hp : ∀ q ∈ v.prices, Small P q) {incs : List (ℕ × ℚ)} (hi : ∀ x ∈ incs, Small M x.2)
    (hnd : (incs.map Prod.fst).Nodup) (hb : M + (2 * P + P * (v.psRecipes.headD []).sum) ≤ 2 ^ 53) :
    increasePrices f v incs = v.increasePrices incs := by
  unfold increasePrices SimultaneousAscendingPriceVectors.increasePrices SimultaneousAscendingPriceVectors.priceSum
  obtain ⟨h1, h2⟩ := flDot_eq hf hp (r := v.psRecipes.headD []) (by omega)
  obtain ⟨h3, h4⟩ := toNew_eq hf hp (M := M) (by omega) hi
  have hub : Small (P * (v.psRecipes.headD []).sum) (0 - dot v.prices (v.psRecipes.headD [])) := ((Small.zero (a := 0)).sub h2).mono (by omega)
  rw [h1, h3, hub.fl hf (by omega)]
  cases SimultaneousAscendingPriceVectors.increasesPerRecipe incs v.psRecipes with
  | error e => rfl
  | ok iprs =>
    simp only [bind, Except.bind]
    split_ifs with hany
    · rfl
    cases hn : SimultaneousAscendingPriceVectors.increasesToNewPrices v.prices incs with
    | error e => rfl
    | ok l =>
      dsimp only
      cases hmin : pyMin l with
      | error e => rfl
      | ok d =>
        dsimp only
        have hd : Small (M + P) d := h4 l hn d (by
          have hl : l ≠ [] := by rintro rfl; simp [pyMin] at hmin
          obtain ⟨x, hx, hx', -⟩ := pyMin_spec hl
          rw [hmin] at hx
          simp only [Except.ok.injEq] at hx
          rwa [hx])
        have hδ : Small (M + P + P * (v.psRecipes.headD []).sum) (min d (0 - dot v.prices (v.psRecipes.headD []))) := by
          rcases min_choice d (0 - dot v.prices (v.psRecipes.headD [])) with h | h <;> rw [h]
          · exact hd.mono (by omega)
          · exact hub.mono (by omega)
        rw [apply_eq hf hδ (by omega) hnd (P := P) (fun i _ q hq => by
          unfold pyGet at hq
          split at hq
          · rename_i y hy
            simp only [Except.ok.injEq] at hq
            subst hq
            exact hp _ (List.mem_of_getElem? hy)
          · simp at hq)]

end

/-! ### The loop -/

theorem small_of_bounds {q : ℚ} {P : ℕ} (hw : ∃ z : ℤ, q = z) (h1 : -(P : ℚ) ≤ q) (h2 : q ≤ P) : Small P q := by
  obtain ⟨z, rfl⟩ := hw
  refine ⟨z, rfl, abs_le.2 ⟨?_, ?_⟩⟩
  · exact_mod_cast h1
  · exact_mod_cast h2

theorem Small.whole {q : ℚ} {P : ℕ} (h : Small P q) : ∃ z : ℤ, q = z := ⟨h.choose, h.choose_spec.1⟩

theorem whole_sum {l : List ℚ} (h : ∀ q ∈ l, ∃ z : ℤ, q = z) : ∃ z : ℤ, l.sum = z := by
  induction l with
  | nil => exact ⟨0, by simp⟩
  | cons a l ih =>
    obtain ⟨x, hx⟩ := h a (by simp)
    obtain ⟨y, hy⟩ := ih fun q hq => h q (by simp [hq])
    exact ⟨x + y, by rw [List.sum_cons, hx, hy]; push_cast; rfl⟩

/-- One iteration, with its intermediate results. -/
theorem tree_iteration {t : RecipeTree} {n : ℕ} (ht : TreeOn t n) {cats0 cats : List AgentCategory} {v : SimultaneousAscendingPriceVectors} {s : ℚ} (h : TInv t n cats0 cats v s) :
    ∃ v' d, increases cats (cutOf t cats) = .ok ((cutOf t cats).map fun i => (i, target cats i)) ∧
      v.increasePrices ((cutOf t cats).map fun i => (i, target cats i)) = .ok v' ∧
      (∃ i ∈ cutOf t cats, target cats i - priceAt v i = d) ∧ (∀ i ∈ cutOf t cats, d ≤ target cats i - priceAt v i) ∧
      (∀ j, priceAt v' j = priceAt v j + if j ∈ cutOf t cats then min d (-s) else 0) ∧
      ((v'.status = some .stoppedAtZeroSum ∧ min d (-s) = -s ∧ TInv t n cats0 cats v' 0) ∨
       (v'.status ≠ some .stoppedAtZeroSum ∧ min d (-s) = d ∧ s + d < 0 ∧ ∃ cats', removeLosers cats v'.prices = .ok cats' ∧ TInv t n cats0 cats' v' (s + d) ∧ NextState t cats v cats' v' d)) := by
  obtain ⟨incs, v', d, h1, h2, ⟨i0, hi0, hd0⟩, h4, h5, h6, h7⟩ := raise_step ht h.len h.fits
  have hinc := increases_eq (cats := cats) (is := cutOf t cats) (by rw [h.len]; exact fun i hi => ht.lt i (cut_mem i hi))
  rw [hinc] at h1
  simp only [Except.ok.injEq] at h1
  subst h1
  refine ⟨v', d, hinc, h2, ⟨i0, hi0, hd0⟩, h4, h5, ?_⟩
  by_cases hz : 0 ≤ s + d
  · left
    have hmin : min d (-s) = -s := min_eq_right (by linarith)
    rw [hmin, add_neg_cancel] at h6
    exact ⟨by rw [h7, if_pos hz], hmin, ⟨h.len, h.names, h.pre, h.sorted, h6⟩⟩
  · right
    have hmin : min d (-s) = d := min_eq_left (by linarith)
    rw [hmin] at h6 h5
    have hlen : v'.prices.length = cats.length := by rw [h6.length, h.len]
    have hvals := valuesAt_removal hlen
    refine ⟨by rw [h7, if_neg hz]; simp, hmin, by linarith, List.zipWith (fun c p => ⟨c.name, afterRemoval c.values p⟩) cats v'.prices, removeLosers_eq hlen,
      ⟨?_, ?_, ?_, ?_, h6⟩, ⟨⟨i0, hi0, by linarith⟩, fun i hi => by have := h4 i hi; linarith, h5, hvals⟩⟩
    · simp [hlen, h.len]
    · rw [← h.names]
      apply List.ext_getElem
      · simp [hlen]
      · intro k h1 h2; simp
    · intro i
      obtain ⟨k, hk⟩ := h.pre i
      obtain ⟨k', hk'⟩ := afterRemoval_take (valuesAt cats i) (v'.prices.getD i 0)
      exact ⟨min k' k, by rw [hvals, hk', hk, List.take_take]⟩
    · intro i
      obtain ⟨k', hk'⟩ := afterRemoval_take (valuesAt cats i) (v'.prices.getD i 0)
      rw [hvals, hk']; exact (h.sorted i).take _

theorem target_small {cats : List AgentCategory} {M : ℕ} (hM : 100000000 ≤ M) {i : ℕ} (h : ∀ x ∈ valuesAt cats i, Small M x) : Small M (target cats i) := by
  unfold target
  cases hl : (valuesAt cats i).getLast? with
  | none => exact ⟨100000000, by simp [MAX_VALUE], by simpa using hM⟩
  | some y => exact h y (List.mem_of_getLast? hl)

theorem indicator_sum_le (n : ℕ) (p : List ℕ) : (indicator n p).sum ≤ n := by
  unfold indicator
  have : ∀ l : List ℕ, (l.map fun i => if i ∈ p then 1 else 0).sum ≤ l.length := by
    intro l
    induction l with
    | nil => simp
    | cons a l ih =>
      simp only [List.map_cons, List.sum_cons, List.length_cons]
      split_ifs <;> omega
  simpa using this (List.range n)

theorem treeLoop_eq {f : ℚ → ℚ} (hf : Rounding f) {t : RecipeTree} {n : ℕ} (ht : TreeOn t n) {cats0 : List AgentCategory} (hc : ∀ i, ∀ x ∈ valuesAt cats0 i, Small 100000000 x) {P : ℕ} (hP : 100000000 ≤ P)
    (hb : (n + 3) * P ≤ 2 ^ 53) (fuel : ℕ) {cats : List AgentCategory} {v : SimultaneousAscendingPriceVectors} {s : ℚ} (h : TInv t n cats0 cats v s) (hs : s < 0)
    (hfair : Fair cats0 cats v) (hw : ∀ i, Small P (priceAt v i)) :
    treeLoop f t fuel cats v = loop t fuel cats v ∧ ∀ cats' v', loop t fuel cats v = .ok (some (cats', v')) → (∀ i, Small P (priceAt v' i)) ∧ ∃ s', TInv t n cats0 cats' v' s' := by
  have hmax : ∀ i, ∀ x ∈ valuesAt cats0 i, x ≤ MAX_VALUE := by
    intro i x hx
    have := (hc i x hx).abs_le
    have := (abs_le.1 this).2
    simpa [MAX_VALUE] using this
  induction fuel generalizing cats v s with
  | zero => exact ⟨rfl, fun cats' v' h => by simp [loop] at h⟩
  | succ fuel ih =>
    unfold treeLoop loop
    simp only [cut_size]
    by_cases hroot : sizeAt cats t.index = 0
    · rw [if_pos hroot, if_pos hroot]
      refine ⟨rfl, fun cats' v' he => ?_⟩
      simp only [Except.ok.injEq, Option.some.injEq, Prod.mk.injEq] at he
      obtain ⟨rfl, rfl⟩ := he
      exact ⟨hw, s, h⟩
    rw [if_neg hroot, if_neg hroot]
    obtain ⟨v', d, h1, h2, ⟨i0, hi0, hd0⟩, h4, h5, h6⟩ := tree_iteration ht h
    have hcs : ∀ i, ∀ x ∈ valuesAt cats i, Small 100000000 x := fun i x hx => hc i x (mem_valuesAt_of_pre (h.pre i) hx)
    have hts : ∀ i, Small 100000000 (target cats i) := fun i => target_small le_rfl (hcs i)
    have h3 : increasePrices f v ((cutOf t cats).map fun i => (i, target cats i)) = .ok v' := by
      rw [← h2]
      refine increasePrices_eq hf (M := 100000000) (P := P) ?_ ?_ ?_ ?_
      · intro q hq
        obtain ⟨k, hk, rfl⟩ := List.getElem_of_mem hq
        have := hw k
        unfold priceAt at this
        simpa [List.getD_eq_getElem?_getD, List.getElem?_eq_getElem hk] using this
      · intro x hx
        obtain ⟨i, -, rfl⟩ := List.mem_map.1 hx
        exact hts i
      · rw [List.map_map]
        have : (Prod.fst ∘ fun i => (i, target cats i)) = (id : ℕ → ℕ) := rfl
        rw [this, List.map_id]
        exact cut_nodup ht cats
      · have hsum : (v.psRecipes.headD []).sum ≤ n := by
          rw [h.fits.recipes]
          cases t.pathsToLeaf with
          | nil => simp
          | cons p ps => simpa using indicator_sum_le n p
        have := Nat.mul_le_mul_left P hsum
        have e : (n + 3) * P = P * n + 3 * P := by ring
        omega
    -- the raise is whole and not negative
    have hsw : ∃ z : ℤ, s = z := by
      obtain ⟨p, hp⟩ := treePath_exists t
      rw [← h.fits.balanced p hp]
      refine whole_sum fun q hq => ?_
      obtain ⟨i, -, rfl⟩ := List.mem_map.1 hq
      exact (hw i).whole
    have hdw : ∃ z : ℤ, d = z := by
      obtain ⟨x, hx⟩ := (hts i0).whole
      obtain ⟨y, hy⟩ := (hw i0).whole
      exact ⟨x - y, by rw [← hd0, hx, hy]; push_cast; rfl⟩
    have hd : 0 ≤ d := by
      have := le_target hfair.rational (hfair.le_max i0)
      linarith
    have hw' : ∀ i, Small P (priceAt v' i) := by
      intro i
      rw [h5 i]
      split_ifs with hi
      · have hm : min d (-s) ≤ target cats i - priceAt v i := (min_le_left _ _).trans (h4 i hi)
        have hm0 : 0 ≤ min d (-s) := le_min hd (by linarith)
        have hb1 := (abs_le.1 (hw i).abs_le).1
        have hb2 := (abs_le.1 (hts i).abs_le).2
        refine small_of_bounds ?_ (by linarith) ?_
        · obtain ⟨x, hx⟩ := (hw i).whole
          obtain ⟨y, hy⟩ := hdw
          obtain ⟨z, hz⟩ := hsw
          rcases min_choice d (-s) with hmc | hmc <;> rw [hmc, hx]
          · exact ⟨x + y, by rw [hy]; push_cast; rfl⟩
          · exact ⟨x - z, by rw [hz]; push_cast; ring⟩
        · have : ((100000000 : ℕ) : ℚ) ≤ P := by exact_mod_cast hP
          linarith
      · rw [add_zero]; exact hw i
    have hcut : (t.largestCategories (sizeAt cats)).2.2 = cutOf t cats := rfl
    rw [hcut, h1]
    simp only [bind, Except.bind]
    rw [h2, h3]
    dsimp only
    rcases h6 with ⟨hst, hmin, hinv⟩ | ⟨hst, hmin, hsd, cats', hrem, hinv, hns⟩
    · rw [if_pos hst, if_pos hst]
      refine ⟨rfl, fun cats' v'' he => ?_⟩
      simp only [Except.ok.injEq, Option.some.injEq, Prod.mk.injEq] at he
      obtain ⟨rfl, rfl⟩ := he
      exact ⟨hw', 0, hinv⟩
    · rw [if_neg hst, if_neg hst, hrem]
      exact ih hinv hsd (fair_next h hmax hfair hns) hw'

/-- The whole auction. -/
theorem treeAuction_eq {f : ℚ → ℚ} (hf : Rounding f) {g : List (List ℕ) → ℚ → Py (List ℚ)} (hg : PriceContract g) {m : Market} {P A : ℕ}
    (hr : WholeTreeReports m A) (hw : ∀ recipes p0, g recipes (-MAX_VALUE) = .ok p0 → WholePrices P p0) (hP : (m.categories.length + 3) * P ≤ 2 ^ 53) {struct : List PyObj}
    (hn : ∀ t, RecipeTree.init m.numCategories struct = .ok t → (treeNodes t).Nodup) (fuel : ℕ) :
    treeAuction f g m struct fuel = auction g m struct fuel := by
  unfold treeAuction auction
  by_cases hc : m.categories = []
  · have he : m.clone = .error .valueError := by unfold Market.clone; rw [hc]; rfl
    rw [he]; rfl
  rw [Market.clone_eq hc]
  have hnum : (⟨m.sorted⟩ : Market).numCategories = m.numCategories := m.sorted_length
  simp only [bind, Except.bind, hnum]
  cases ht : RecipeTree.init m.numCategories struct with
  | error e => rfl
  | ok t =>
    have hto := treeOn_of_init ht (hn t ht)
    dsimp only
    rw [recipes_of_treeOn hto]
    dsimp only
    have hsorted : ∀ i, ∃ l, (l = [] ∨ ∃ c ∈ m.categories, l = c.values) ∧ valuesAt m.sorted i = sortDesc l := by
      intro i
      refine ⟨m.valueLists.getD i [], ?_, valuesAt_sorted m i⟩
      unfold Market.valueLists
      rw [List.getD_eq_getElem?_getD, List.getElem?_map]
      cases hi : m.categories[i]? with
      | none => left; rfl
      | some c => right; exact ⟨c, List.mem_of_getElem? hi, rfl⟩
    have hsmall : ∀ i, ∀ x ∈ valuesAt m.sorted i, Small 100000000 x := by
      intro i x hx
      obtain ⟨l, hl, he⟩ := hsorted i
      rw [he] at hx
      have hx := (List.mem_insertionSort _).1 hx
      rcases hl with rfl | ⟨c, hc', rfl⟩
      · simp at hx
      · exact hr.whole c hc' x hx
    have hlen : ∀ i, (valuesAt m.sorted i).length ≤ A := by
      intro i
      obtain ⟨l, hl, he⟩ := hsorted i
      rw [he]
      unfold sortDesc
      rw [List.length_insertionSort]
      rcases hl with rfl | ⟨c, hc', rfl⟩
      · simp
      · exact hr.agents c hc'
    have hnodes : (treeNodes t).length ≤ m.categories.length := by
      have := hto.nodup.subperm (l₂ := List.range m.numCategories) (fun i hi => List.mem_range.2 (hto.lt i hi))
      simpa [Market.numCategories] using this.length_le
    have hgA : 100000000 * (treeNodes t).length * (A + 1) ≤ 2 ^ 53 := (Nat.mul_le_mul_right _ (Nat.mul_le_mul_left _ hnodes)).trans hr.gains
    have hg0 : 100000000 * (treeNodes t).length ≤ 2 ^ 53 := (Nat.le_mul_of_pos_right _ (Nat.succ_pos A)).trans hgA
    have hA1 : ∀ i, (valuesAt m.sorted i).length ≤ A + 1 := fun i => (hlen i).trans (Nat.le_succ A)
    rw [treeOptimalTrade_eq hf hsmall t (hA1 _) hg0 hgA]
    cases t.optimalTrade (valuesAt m.sorted) with
    | error e => rfl
    | ok o =>
      dsimp only
      cases hp0 : g (t.pathsToLeaf.map (indicator m.numCategories)) (-MAX_VALUE) with
      | error e => rfl
      | ok p0 =>
        dsimp only
        rw [init_vector]
        dsimp only
        have hcontract := hg _ _ _ hp0
        obtain ⟨s, hinv, hs, hstart⟩ := start_inv hto hcontract
        have hwp := hw _ _ hp0
        have hlenp : p0.length = m.numCategories := hinv.fits.length
        have hpos : 0 < m.numCategories := List.length_pos_of_ne_nil hc
        have hget : ∀ i < m.numCategories, p0.getD i 0 ∈ p0 := by
          intro i hi
          rw [List.getD_eq_getElem?_getD, List.getElem?_eq_getElem (by omega)]
          exact List.getElem_mem _
        have hPm : 100000000 ≤ P := by
          obtain ⟨z, hz, hz2⟩ := hwp _ (hget 0 hpos)
          have h0 := hstart 0 hpos
          rw [show priceAt (startVector t m.numCategories p0) 0 = p0.getD 0 0 from rfl, hz] at h0
          have h1 : z ≤ -100000000 := by
            have : (z : ℚ) ≤ ((-100000000 : ℤ) : ℚ) := by simpa [MAX_VALUE] using h0
            exact_mod_cast this
          omega
        have hpsmall : ∀ i, Small P (priceAt (startVector t m.numCategories p0) i) := by
          intro i
          by_cases hi : i < m.numCategories
          · obtain ⟨z, hz, hz2⟩ := hwp _ (hget i hi)
            have h0 := hstart i hi
            rw [show priceAt (startVector t m.numCategories p0) i = p0.getD i 0 from rfl] at h0 ⊢
            refine small_of_bounds ⟨z, hz⟩ (by rw [hz]; exact_mod_cast hz2) ?_
            have := max_value_pos
            have : (0 : ℚ) ≤ P := by positivity
            linarith
          · have : priceAt (startVector t m.numCategories p0) i = 0 := by
              unfold priceAt startVector
              simp only [List.getD_eq_getElem?_getD]
              rw [List.getElem?_eq_none (by omega)]
              rfl
            rw [this]; exact Small.zero
        have hfair : Fair m.sorted m.sorted (startVector t m.numCategories p0) := by
          refine ⟨?_, ?_, fun i => ⟨(valuesAt m.sorted i).length, by simp⟩⟩
          · intro i x hx
            by_cases hi : i < m.numCategories
            · have h1 := (abs_le.1 (hsmall i x hx).abs_le).1
              have h2 := hstart i hi
              have : (-MAX_VALUE : ℚ) = -((100000000 : ℕ) : ℚ) := by simp [MAX_VALUE]
              linarith
            · rw [valuesAt_ge (by rw [m.sorted_length]; omega)] at hx
              simp at hx
          · intro i
            by_cases hi : i < m.numCategories
            · have h2 := hstart i hi
              linarith [max_value_pos]
            · have : priceAt (startVector t m.numCategories p0) i = 0 := by
                unfold priceAt startVector
                simp only [List.getD_eq_getElem?_getD]
                rw [List.getElem?_eq_none (by omega)]
                rfl
              rw [this]; exact max_value_pos.le
        obtain ⟨h1, h2⟩ := treeLoop_eq hf hto hsmall hPm hP fuel hinv (by linarith [max_value_pos]) hfair hpsmall
        rw [show (⟨t.pathsToLeaf.map (indicator m.numCategories), p0, none⟩ : SimultaneousAscendingPriceVectors) = startVector t m.numCategories p0 from rfl, h1]
        cases hl : loop t fuel m.sorted (startVector t m.numCategories p0) with
        | error e => rfl
        | ok r =>
          cases r with
          | none => rfl
          | some x =>
            obtain ⟨cats, v⟩ := x
            obtain ⟨-, s', hend⟩ := h2 cats v hl
            simp only [treeTrade, TradeWithMultipleRecipes.init]
            have hsm : ∀ i, ∀ x ∈ valuesAt cats i, Small 100000000 x := fun i x hx => hsmall i x (mem_valuesAt_of_pre (hend.pre i) hx)
            have hl2 : (valuesAt cats t.index).length ≤ A + 1 := by
              obtain ⟨k, hk⟩ := hend.pre t.index
              rw [hk, List.length_take]
              have := hA1 t.index
              omega
            rw [treeOptimalTradeGFT_eq hf hsm t hl2 hg0 hgA]

end Auctions.Floating
