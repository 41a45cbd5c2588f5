import Verif.Proofs.FloatingTree
import Verif.Proofs.FloatingError
import Mathlib.Tactic.GCongr

set_option autoImplicit false

/-! # Helper lemmas: a run of the recipe-tree auction with rounded arithmetic, on decimal reports -/

namespace Auctions.Floating

open Auctions Auctions.Spec Auctions.TreeAuction

/-! ### One raise, for any rounding -/

theorem pyGet_lt {l : List ℚ} {i : ℕ} (h : i < l.length) : pyGet l i = .ok (l.getD i 0) := by
  simp [pyGet, List.getElem?_eq_getElem h, List.getD_eq_getElem?_getD]

theorem flToNew_eq (fl : ℚ → ℚ) {prices : List ℚ} {incs : List (ℕ × ℚ)} (h : ∀ x ∈ incs, x.1 < prices.length) :
    increasesToNewPrices fl prices incs = .ok (incs.map fun x => fl (x.2 - prices.getD x.1 0)) := by
  induction incs with
  | nil => rfl
  | cons x incs ih =>
    obtain ⟨i, t⟩ := x
    unfold increasesToNewPrices
    rw [pyGet_lt (h (i, t) (by simp)), ih fun y hy => h y (by simp [hy])]
    rfl

theorem flApply_eq (fl : ℚ → ℚ) (δ : ℚ) {incs : List (ℕ × ℚ)} {prices : List ℚ} (h : ∀ x ∈ incs, x.1 < prices.length) (hn : (incs.map Prod.fst).Nodup) :
    ∃ prices', applyIncreases fl δ prices incs = .ok prices' ∧ prices'.length = prices.length ∧
      ∀ j, prices'.getD j 0 = if j ∈ incs.map Prod.fst then fl (prices.getD j 0 + δ) else prices.getD j 0 := by
  induction incs generalizing prices with
  | nil => exact ⟨prices, rfl, rfl, by simp⟩
  | cons x incs ih =>
    obtain ⟨i, t⟩ := x
    rw [List.map_cons, List.nodup_cons] at hn
    have hi : i < prices.length := h (i, t) (by simp)
    obtain ⟨q, h1, h2, h3⟩ := ih (prices := prices.set i (fl (prices.getD i 0 + δ))) (by
      intro y hy
      rw [List.length_set]
      exact h y (by simp [hy])) hn.2
    refine ⟨q, ?_, by rw [h2, List.length_set], fun j => ?_⟩
    · unfold applyIncreases
      rw [pyGet_lt hi]
      exact h1
    · rw [h3 j]
      by_cases hj : j = i
      · subst hj
        rw [if_neg hn.1, if_pos (by simp)]
        simp [List.getD_eq_getElem?_getD, hi]
      · have e : (prices.set i (fl (prices.getD i 0 + δ))).getD j 0 = prices.getD j 0 := by
          simp [List.getD_eq_getElem?_getD, List.getElem?_set_ne (Ne.symm hj)]
        rw [e]
        simp only [List.map_cons, List.mem_cons, hj, false_or]

theorem flRaise (fl : ℚ → ℚ) {t : RecipeTree} {n : ℕ} (ht : TreeOn t n) {cats : List AgentCategory} (hc : cats.length = n) {v : SimultaneousAscendingPriceVectors}
    (hrec : v.psRecipes = t.pathsToLeaf.map (indicator n)) (hlen : v.prices.length = n) :
    ∃ incs v' d, increases cats (cutOf t cats) = .ok incs ∧ increasePrices fl v incs = .ok v' ∧ (∀ i ∈ cutOf t cats, d ≤ fl (target cats i - priceAt v i)) ∧
      (∃ i ∈ cutOf t cats, fl (target cats i - priceAt v i) = d) ∧
      (∀ j, priceAt v' j = if j ∈ cutOf t cats then fl (priceAt v j + min d (fl (0 - flDot fl v.prices (v.psRecipes.headD [])))) else priceAt v j) ∧
      v'.psRecipes = v.psRecipes ∧ v'.prices.length = n ∧
      v'.status = if min d (fl (0 - flDot fl v.prices (v.psRecipes.headD []))) = fl (0 - flDot fl v.prices (v.psRecipes.headD [])) then some .stoppedAtZeroSum else some .stoppedAtAgentValue := by
  have hlt : ∀ i ∈ cutOf t cats, i < n := fun i hi => ht.lt i (cut_mem i hi)
  have hinc := increases_eq (cats := cats) (is := cutOf t cats) (by rw [hc]; exact hlt)
  set incs : List (ℕ × ℚ) := (cutOf t cats).map (fun i => (i, target cats i)) with hincs
  have hidx : ∀ x ∈ incs, x.1 < v.prices.length := by
    intro x hx
    obtain ⟨i, hi, rfl⟩ := List.mem_map.1 hx
    rw [hlen]; exact hlt i hi
  have hfst : incs.map Prod.fst = cutOf t cats := by
    rw [hincs, List.map_map]
    exact List.map_id _
  have hper := increasesPerRecipe_eq (rs := v.psRecipes) (incs := incs) (by
    intro r hr x hx
    rw [hrec] at hr
    obtain ⟨p, -, rfl⟩ := List.mem_map.1 hr
    have := hidx x hx
    rw [hlen] at this
    simpa [indicator] using this)
  have hone : ∀ r ∈ v.psRecipes, hits r incs = 1 := by
    intro r hr
    rw [hrec] at hr
    obtain ⟨p, hp, rfl⟩ := List.mem_map.1 hr
    rw [hincs, hits_indicator _ hlt]
    exact cut_path ht cats (mem_paths.1 hp)
  have hcut : cutOf t cats ≠ [] := by
    obtain ⟨p, hp⟩ := treePath_exists t
    intro h0
    have := cut_path ht cats hp
    rw [h0] at this
    simp at this
  have hne : incs.map (fun x => fl (x.2 - v.prices.getD x.1 0)) ≠ [] := by
    rw [hincs]; simpa using hcut
  obtain ⟨d, hd, hdm, hdl⟩ := pyMin_spec hne
  obtain ⟨q, hq1, hq2, hq3⟩ := flApply_eq fl (min d (fl (0 - flDot fl v.prices (v.psRecipes.headD [])))) hidx (by rw [hfst]; exact cut_nodup ht cats)
  rw [hfst] at hq3
  have hall : (v.psRecipes.map (fun r => hits r incs)).any (fun n => n ≠ 1) = false := by
    rw [List.any_eq_false]
    intro x hx
    obtain ⟨r, hr, rfl⟩ := List.mem_map.1 hx
    simp [hone r hr]
  set B : ℚ := fl (0 - flDot fl v.prices (v.psRecipes.headD [])) with hB
  refine ⟨incs, ⟨v.psRecipes, q, if min d B = B then some PriceStatus.stoppedAtZeroSum else some PriceStatus.stoppedAtAgentValue⟩, d, hinc, ?_, ?_, ?_, hq3, rfl, by rw [← hlen, ← hq2], rfl⟩
  · unfold increasePrices
    rw [hper, flToNew_eq fl hidx]
    simp only [bind, Except.bind, hall, hd, ← hB, hq1, Bool.false_eq_true, if_false]
    split <;> rfl
  · intro i hi
    exact hdl _ (List.mem_map.2 ⟨(i, target cats i), List.mem_map.2 ⟨i, hi, rfl⟩, rfl⟩)
  · obtain ⟨x, hx, hxd⟩ := List.mem_map.1 hdm
    obtain ⟨i, hi, rfl⟩ := List.mem_map.1 hx
    exact ⟨i, hi, hxd⟩

/-! ### Price sums of paths -/

theorem pathSum_change {prices prices' : List ℚ} {L p : List ℕ} {g : ℕ → ℚ} (h : ∀ j, prices'.getD j 0 = prices.getD j 0 + if j ∈ L then g j else 0) :
    pathSum prices' p = pathSum prices p + ((p.filter (· ∈ L)).map g).sum := by
  unfold pathSum
  induction p with
  | nil => simp
  | cons j p ih =>
    rw [List.map_cons, List.sum_cons, ih, h j, List.filter_cons]
    by_cases hj : j ∈ L <;> simp [hj] <;> ring

theorem path_one {t : RecipeTree} {n : ℕ} (ht : TreeOn t n) (cats : List AgentCategory) {p : List ℕ} (hp : TreePath t p) :
    ∃ j ∈ cutOf t cats, p.filter (· ∈ cutOf t cats) = [j] := by
  have h1 := cut_path ht cats hp
  have hperm : ((cutOf t cats).filter (· ∈ p)).length = (p.filter (· ∈ cutOf t cats)).length := by
    apply List.Perm.length_eq
    rw [List.perm_ext_iff_of_nodup ((cut_nodup ht cats).filter _) ((ht.path_nodup hp).filter _)]
    intro a
    simp only [List.mem_filter, decide_eq_true_eq]
    tauto
  rw [hperm] at h1
  obtain ⟨j, hj⟩ := List.length_eq_one_iff.1 h1
  refine ⟨j, ?_, hj⟩
  have : j ∈ p.filter (· ∈ cutOf t cats) := by rw [hj]; simp
  simpa using (List.mem_filter.1 this).2

theorem path_bound {t : RecipeTree} {n : ℕ} (ht : TreeOn t n) {v : SimultaneousAscendingPriceVectors} (hlen : v.prices.length = n) {p : List ℕ} (hp : TreePath t p) :
    recipeSum (indicator n p) v.prices = pathSum v.prices p := recipeSum_indicator hlen (ht.path_nodup hp) (ht.path_lt hp)

/-! ### The invariant -/

/-- What holds after `c` iterations: `u` is the largest error of one operation. -/
structure FInv (t : RecipeTree) (n : ℕ) (cats0 : List AgentCategory) (P u e : ℚ) (c : ℕ) (cats : List AgentCategory) (v : SimultaneousAscendingPriceVectors) : Prop where
  len : cats.length = n
  names : cats.map AgentCategory.name = cats0.map AgentCategory.name
  recipes : v.psRecipes = t.pathsToLeaf.map (indicator n)
  plen : v.prices.length = n
  low : ∀ i, -(P + 4 * c * u) ≤ priceAt v i
  rational : ∀ i, ∀ x ∈ valuesAt cats i, priceAt v i ≤ x + 2 * u
  le_max : ∀ i, priceAt v i ≤ MAX_VALUE + 2 * u
  left : ∀ i, ∃ k, valuesAt cats i = (valuesAt cats0 i).take k ∧ ∀ x ∈ (valuesAt cats0 i).drop k, x ≤ priceAt v i + 4 * c * u
  balanced : ∀ p q, TreePath t p → TreePath t q → |pathSum v.prices p - pathSum v.prices q| ≤ e + 2 * c * u
  negative : pathSum v.prices (t.pathsToLeaf.headD []) ≤ (2 * n + 2) * u

/-- What holds at the end of a run that stops because the price sum is zero. -/
structure FEnd (t : RecipeTree) (n : ℕ) (cats0 : List AgentCategory) (u e : ℚ) (c : ℕ) (cats : List AgentCategory) (v : SimultaneousAscendingPriceVectors) : Prop where
  names : cats.map AgentCategory.name = cats0.map AgentCategory.name
  rational : ∀ i, ∀ x ∈ valuesAt cats i, priceAt v i ≤ x + 2 * u
  left : ∀ i, ∃ k, valuesAt cats i = (valuesAt cats0 i).take k ∧ ∀ x ∈ (valuesAt cats0 i).drop k, x ≤ priceAt v i + (4 * n + 4 * c + 4) * u
  balanced : ∀ p, TreePath t p → |pathSum v.prices p| ≤ e + (2 * n + 2 * c + 4) * u

theorem head_path (t : RecipeTree) : TreePath t (t.pathsToLeaf.headD []) := by
  have h := paths_ne_nil t
  cases hp : t.pathsToLeaf with
  | nil => exact absurd hp h
  | cons p ps => exact mem_paths.1 (by rw [hp]; simp)

theorem target_in {cats : List AgentCategory} {i : ℕ} : target cats i = MAX_VALUE ∨ target cats i ∈ valuesAt cats i := by
  unfold target
  cases hl : (valuesAt cats i).getLast? with
  | none => left; rfl
  | some y => right; exact List.mem_of_getLast? hl

theorem drop_removal {l : List ℚ} {k : ℕ} {w : List ℚ} (hk : w = l.take k) (p : ℚ) : ∃ k', afterRemoval w p = l.take k' ∧ ∀ x ∈ l.drop k', x ∈ l.drop k ∨ x ≤ p := by
  unfold afterRemoval
  split
  · rename_i h
    obtain ⟨y, hy, hyp⟩ := h
    have hw : w ≠ [] := by rintro rfl; simp at hy
    obtain ⟨w', rfl⟩ : ∃ w', w = w' ++ [y] := ⟨w.dropLast, (List.dropLast_append_getLast? y hy).symm⟩
    refine ⟨w'.length, ?_, fun x hx => ?_⟩
    · rw [List.dropLast_concat]
      have h2 : w' <+: l := (List.prefix_append w' [y]).trans (hk ▸ List.take_prefix k l)
      exact List.prefix_iff_eq_take.1 h2
    · have e : l = (w' ++ [y]) ++ l.drop k := by rw [hk, List.take_append_drop]
      rw [e, List.append_assoc, List.drop_left] at hx
      rcases List.mem_append.1 hx with h | h
      · right
        rw [List.mem_singleton] at h
        rw [h]; exact hyp
      · left; exact h
  · exact ⟨k, hk, fun x hx => Or.inl hx⟩

section

variable {fl : ℚ → ℚ} {A u P e : ℚ} {n : ℕ} {t : RecipeTree} {cats0 : List AgentCategory}
  (hu : 0 < u) (hn : NearTo fl A u) (hP : MAX_VALUE ≤ P) (hA : (n + 4) * (P + 2) ≤ A) (hnu : (4 * n + 4) * u ≤ 1) (ht : TreeOn t n) (hs0 : ∀ i, SortedDesc (valuesAt cats0 i))
  (hv0 : ∀ i, ∀ x ∈ valuesAt cats0 i, -MAX_VALUE ≤ x ∧ x ≤ MAX_VALUE)
include hu hn hP hA hnu ht hs0 hv0

theorem flStep {c : ℕ} (hc : 4 * (c + 1) * u ≤ 1) {cats : List AgentCategory} {v : SimultaneousAscendingPriceVectors} (h : FInv t n cats0 P u e c cats v) (fuel : ℕ) :
    (sizeAt cats t.index = 0 ∧ treeLoop fl t (fuel + 1) cats v = .ok (some (cats, v))) ∨
    (∃ v', treeLoop fl t (fuel + 1) cats v = .ok (some (cats, v')) ∧ FEnd t n cats0 u e c cats v') ∨
    (∃ cats' v', treeLoop fl t (fuel + 1) cats v = treeLoop fl t fuel cats' v' ∧ FInv t n cats0 P u e (c + 1) cats' v') := by
  have hM : (0 : ℚ) < MAX_VALUE := max_value_pos
  have hcu : 0 ≤ 4 * (c : ℚ) * u := by positivity
  have hc' : 4 * (c : ℚ) * u + 4 * u ≤ 1 := by linarith
  by_cases hroot : sizeAt cats t.index = 0
  · left
    refine ⟨hroot, ?_⟩
    rw [treeLoop]
    simp only [cut_size, hroot, if_true]
  right
  obtain ⟨incs, v', d, h1, h2, h3, ⟨i0, hi0, h4⟩, h5, h6, h7, h8⟩ := flRaise fl ht h.len h.recipes h.plen
  have hhead : v.psRecipes.headD [] = indicator n (t.pathsToLeaf.headD []) := by
    rw [h.recipes]
    have := paths_ne_nil t
    cases hp : t.pathsToLeaf with
    | nil => exact absurd hp this
    | cons p ps => rfl
  rw [hhead] at h5 h8
  set s : ℚ := pathSum v.prices (t.pathsToLeaf.headD []) with hs
  set B : ℚ := fl (0 - flDot fl v.prices (indicator n (t.pathsToLeaf.headD []))) with hB
  have hprice : ∀ i, |priceAt v i| ≤ P + 1 := by
    intro i
    have := h.low i
    have := h.le_max i
    rw [abs_le]; constructor <;> linarith
  have hsumn : ((indicator n (t.pathsToLeaf.headD [])).sum : ℚ) ≤ n := by exact_mod_cast indicator_sum_le n _
  have hlen : v.prices.length = (indicator n (t.pathsToLeaf.headD [])).length := by rw [h.plen]; simp [indicator]
  have hlenn : ((indicator n (t.pathsToLeaf.headD [])).length : ℚ) = n := by simp [indicator]
  have hmem : ∀ q ∈ v.prices, |q| ≤ P + 1 := by
    intro q hq
    obtain ⟨i, hi, rfl⟩ := List.getElem_of_mem hq
    have := hprice i
    unfold priceAt at this
    rwa [List.getD_eq_getElem?_getD, List.getElem?_eq_getElem hi] at this
  have hn0 : (0 : ℚ) ≤ n := by positivity
  have hnu' : 0 ≤ (n : ℚ) * u := by positivity
  have hPn : 0 ≤ (n : ℚ) * P := mul_nonneg hn0 (by linarith)
  have hD := flDot_near hu.le hn hmem hlen (by linarith) (by
    have : (P + 1) * ((indicator n (t.pathsToLeaf.headD [])).sum : ℚ) ≤ (P + 1) * n := mul_le_mul_of_nonneg_left hsumn (by linarith)
    rw [hlenn]
    nlinarith)
  have hS := recipeSum_bound (M := P + 1) (by linarith) (r := indicator n (t.pathsToLeaf.headD [])) hmem
  rw [path_bound ht h.plen (head_path t), hlenn] at hD
  rw [path_bound ht h.plen (head_path t)] at hS
  have hS' : |s| ≤ (P + 1) * n := hS.trans (mul_le_mul_of_nonneg_left hsumn (by linarith))
  obtain ⟨hD1, hD2⟩ := abs_le.1 hD
  obtain ⟨hS1, hS2⟩ := abs_le.1 hS'
  have hBn := hn (0 - flDot fl v.prices (indicator n (t.pathsToLeaf.headD []))) (by
    rw [abs_le]; constructor <;> nlinarith)
  rw [← hB] at hBn
  obtain ⟨hB1, hB2⟩ := abs_le.1 hBn
  have hBlow : -s - (2 * n + 1) * u ≤ B := by linarith
  have hBup : B ≤ -s + (2 * n + 1) * u := by linarith
  have hneg := h.negative
  rw [← hs] at hneg
  have htb : ∀ i, -MAX_VALUE ≤ target cats i ∧ target cats i ≤ MAX_VALUE ∧ priceAt v i ≤ target cats i + 2 * u := by
    intro i
    rcases target_in (cats := cats) (i := i) with h0 | h0
    · rw [h0]
      exact ⟨by linarith, le_refl _, h.le_max i⟩
    · obtain ⟨k, hk, -⟩ := h.left i
      have h9 : target cats i ∈ valuesAt cats0 i := by
        have := h0
        rw [hk] at this
        exact List.mem_of_mem_take this
      exact ⟨(hv0 i _ h9).1, (hv0 i _ h9).2, h.rational i _ h0⟩
  have hdn : ∀ i, |fl (target cats i - priceAt v i) - (target cats i - priceAt v i)| ≤ u := by
    intro i
    obtain ⟨a1, a2, a3⟩ := htb i
    obtain ⟨b1, b2⟩ := abs_le.1 (hprice i)
    refine hn _ ?_
    rw [abs_le]; constructor <;> nlinarith
  have hdlow : -(3 * u) ≤ d := by
    obtain ⟨a1, a2, a3⟩ := htb i0
    obtain ⟨b1, b2⟩ := abs_le.1 (hdn i0)
    rw [← h4]; linarith
  set δ : ℚ := min d B with hδ
  have hδd : δ ≤ d := min_le_left _ _
  have hδlow : -((4 * n + 3) * u) ≤ δ := le_min (by linarith) (by linarith)
  have hup : ∀ i ∈ cutOf t cats, priceAt v i + δ ≤ target cats i + u := by
    intro i hi
    have := h3 i hi
    obtain ⟨b1, b2⟩ := abs_le.1 (hdn i)
    linarith
  have hnear : ∀ i ∈ cutOf t cats, |priceAt v' i - (priceAt v i + δ)| ≤ u := by
    intro i hi
    rw [h5 i, if_pos hi]
    refine hn _ ?_
    obtain ⟨a1, a2, a3⟩ := htb i
    obtain ⟨b1, b2⟩ := abs_le.1 (hprice i)
    have := hup i hi
    rw [abs_le]; constructor <;> nlinarith
  have hoff : ∀ i, i ∉ cutOf t cats → priceAt v' i = priceAt v i := fun i hi => by rw [h5 i, if_neg hi]
  have hsort : ∀ i, SortedDesc (valuesAt cats i) := by
    intro i
    obtain ⟨k, hk, -⟩ := h.left i
    rw [hk]; exact (hs0 i).take _
  have hrat : ∀ i, ∀ x ∈ valuesAt cats i, priceAt v' i ≤ x + 2 * u := by
    intro i x hx
    by_cases hi : i ∈ cutOf t cats
    · obtain ⟨b1, b2⟩ := abs_le.1 (hnear i hi)
      have := hup i hi
      have := target_le (hsort i) x hx
      linarith
    · rw [hoff i hi]; exact h.rational i x hx
  have hmax : ∀ i, priceAt v' i ≤ MAX_VALUE + 2 * u := by
    intro i
    by_cases hi : i ∈ cutOf t cats
    · obtain ⟨b1, b2⟩ := abs_le.1 (hnear i hi)
      have := hup i hi
      have := (htb i).2.1
      linarith
    · rw [hoff i hi]; exact h.le_max i
  have hlow : ∀ i, ∀ γ : ℚ, -γ ≤ δ → 0 ≤ γ → priceAt v i - γ - u ≤ priceAt v' i := by
    intro i γ hγ hγ0
    by_cases hi : i ∈ cutOf t cats
    · obtain ⟨b1, b2⟩ := abs_le.1 (hnear i hi)
      linarith
    · rw [hoff i hi]; linarith
  have hpath : ∀ p, TreePath t p → |pathSum v'.prices p - (pathSum v.prices p + δ)| ≤ u := by
    intro p hp
    obtain ⟨j, hj, hf⟩ := path_one ht cats hp
    rw [pathSum_change (prices := v.prices) (prices' := v'.prices) (L := cutOf t cats) (g := fun j => priceAt v' j - priceAt v j) (fun j => by
      by_cases hj : j ∈ cutOf t cats
      · rw [if_pos hj]; unfold priceAt; ring
      · rw [if_neg hj, add_zero]; exact hoff j hj), hf]
    simp only [List.map_cons, List.map_nil, List.sum_cons, List.sum_nil, add_zero]
    have := hnear j hj
    rw [show pathSum v.prices p + (priceAt v' j - priceAt v j) - (pathSum v.prices p + δ) = priceAt v' j - (priceAt v j + δ) by ring]
    exact this
  have hbal : ∀ p q, TreePath t p → TreePath t q → |pathSum v'.prices p - pathSum v'.prices q| ≤ e + 2 * c * u + 2 * u := by
    intro p q hp hq
    obtain ⟨a1, a2⟩ := abs_le.1 (hpath p hp)
    obtain ⟨b1, b2⟩ := abs_le.1 (hpath q hq)
    obtain ⟨c1, c2⟩ := abs_le.1 (h.balanced p q hp hq)
    rw [abs_le]; constructor <;> linarith
  have hloop : ∀ r, (do
      let incs ← increases cats (cutOf t cats)
      let prices' ← increasePrices fl v incs
      if prices'.status = some .stoppedAtZeroSum then .ok (some (cats, prices'))
      else do
        let cats' ← removeLosers cats prices'.prices
        treeLoop fl t fuel cats' prices') = r → treeLoop fl t (fuel + 1) cats v = r := by
    intro r hr
    rw [treeLoop]
    simp only [cut_size]
    rw [if_neg hroot]
    exact hr
  by_cases hz : δ = B
  · left
    rw [if_pos hz] at h8
    refine ⟨v', hloop _ (by simp only [h1, h2, bind, Except.bind, h8, if_true]), h.names, hrat, fun i => ?_, fun p hp => ?_⟩
    · obtain ⟨k, hk, hl⟩ := h.left i
      refine ⟨k, hk, fun x hx => ?_⟩
      have := hl x hx
      have := hlow i _ hδlow (by positivity)
      linarith
    · obtain ⟨a1, a2⟩ := abs_le.1 (hbal p _ hp (head_path t))
      obtain ⟨b1, b2⟩ := abs_le.1 (hpath _ (head_path t))
      rw [← hs, hz] at b1 b2
      rw [abs_le]; constructor <;> linarith
  · right
    rw [if_neg hz] at h8
    have hδe : δ = d := by
      rcases min_choice d B with h9 | h9
      · exact h9
      · exact absurd h9 hz
    have hlen' : v'.prices.length = cats.length := by rw [h7, h.len]
    have hvals := valuesAt_removal hlen'
    have hlow' := fun i => hlow i (3 * u) (by rw [hδe]; exact hdlow) (by linarith)
    refine ⟨List.zipWith (fun c p => ⟨c.name, afterRemoval c.values p⟩) cats v'.prices, v', hloop _ ?_, ?_, ?_, by rw [h6, h.recipes], h7, ?_, ?_, hmax, ?_, ?_, ?_⟩
    · simp only [h1, h2, bind, Except.bind, h8, removeLosers_eq hlen']
      simp
    · simp [hlen', h.len]
    · rw [← h.names]
      apply List.ext_getElem
      · simp [hlen']
      · intro k h1 h2; simp
    · intro i
      have := h.low i
      have := hlow' i
      push_cast
      linarith
    · intro i x hx
      rw [hvals] at hx
      exact hrat i x (afterRemoval_subset hx)
    · intro i
      obtain ⟨k, hk, hl⟩ := h.left i
      obtain ⟨k', hk', hd'⟩ := drop_removal hk (v'.prices.getD i 0)
      refine ⟨k', by rw [hvals, hk'], fun x hx => ?_⟩
      push_cast
      rcases hd' x hx with h9 | h9
      · have := hl x h9
        have := hlow' i
        linarith
      · change x ≤ priceAt v' i at h9
        linarith
    · intro p q hp hq
      have := hbal p q hp hq
      push_cast
      linarith
    · obtain ⟨b1, b2⟩ := abs_le.1 (hpath _ (head_path t))
      have : δ ≤ B := min_le_right _ _
      rw [← hs] at b1 b2
      linarith

/-- How a run ends. -/
theorem flLoop_end (fuel : ℕ) {c : ℕ} (hc : 4 * (c + fuel) * u ≤ 1) {cats : List AgentCategory} {v : SimultaneousAscendingPriceVectors} (h : FInv t n cats0 P u e c cats v) :
    treeLoop fl t fuel cats v = .ok none ∨ ∃ cats' v', treeLoop fl t fuel cats v = .ok (some (cats', v')) ∧
      ((sizeAt cats' t.index = 0 ∧ ∃ c' ≤ c + fuel, FInv t n cats0 P u e c' cats' v') ∨ ∃ c', c' + 1 ≤ c + fuel ∧ FEnd t n cats0 u e c' cats' v') := by
  induction fuel generalizing c cats v with
  | zero => left; rfl
  | succ fuel ih =>
    have hf0 : (0 : ℚ) ≤ fuel := by positivity
    have hc1 : 4 * ((c : ℚ) + 1) * u ≤ 1 := by
      push_cast at hc
      nlinarith
    rcases flStep hu hn hP hA hnu ht hs0 hv0 hc1 h fuel with ⟨h1, h2⟩ | ⟨v', h1, h2⟩ | ⟨cats', v', h1, h2⟩
    · exact Or.inr ⟨cats, v, h2, Or.inl ⟨h1, c, by omega, h⟩⟩
    · exact Or.inr ⟨cats, v', h1, Or.inr ⟨c, by omega, h2⟩⟩
    · rw [h1]
      rcases ih (c := c + 1) (by push_cast at hc ⊢; linarith) h2 with h3 | ⟨cats'', v'', h3, h4⟩
      · exact Or.inl h3
      · refine Or.inr ⟨cats'', v'', h3, ?_⟩
        rcases h4 with ⟨h4, c', h5, h6⟩ | ⟨c', h5, h6⟩
        · exact Or.inl ⟨h4, c', by omega, h6⟩
        · exact Or.inr ⟨c', by omega, h6⟩

end

end Auctions.Floating
