import Verif.Proofs.FloatingTreeRun
import Verif.Props.TreeAuction
import Verif.Props.FloatingDecimals
import Verif.Props.TreeTermination

set_option autoImplicit false

/-!
# C111 — the recipe-tree auction with rounded arithmetic, on decimal reports

`g` stands for the linear program that computes the initial prices; the sums of its prices on the paths are equal up to `ε`.
-/

namespace Auctions.Floating

open Auctions Auctions.Spec Auctions.TreeAuction

theorem flTree_inv {fl : ℚ → ℚ} {g : List (List ℕ) → ℚ → Py (List ℚ)} {m : Market} {struct : List PyObj} {fuel : ℕ} {trade : TradeWithMultipleRecipes} {t : RecipeTree}
    (ht : RecipeTree.init m.numCategories struct = .ok t) (hn : (treeNodes t).Nodup) (h : treeAuction fl g m struct fuel = .ok (some trade)) :
    ∃ p0 cats v, g (t.pathsToLeaf.map (indicator m.numCategories)) (-MAX_VALUE) = .ok p0 ∧
      treeLoop fl t fuel m.sorted (startVector t m.numCategories p0) = .ok (some (cats, v)) ∧ trade = treeTrade fl cats t v.prices := by
  have hto := treeOn_of_init ht hn
  by_cases hc : m.categories = []
  · exfalso
    unfold treeAuction at h
    simp [Market.clone, hc, Market.init, bind, Except.bind] at h
  · unfold treeAuction at h
    rw [Market.clone_eq hc] at h
    have hnum : (⟨m.sorted⟩ : Market).numCategories = m.numCategories := m.sorted_length
    rw [bind_ok_iff] at h
    obtain ⟨m', hm', h⟩ := h
    simp only [Except.ok.injEq] at hm'
    subst hm'
    rw [hnum, ht, bind_ok_iff] at h
    obtain ⟨t', ht', h⟩ := h
    simp only [Except.ok.injEq] at ht'
    subst ht'
    rw [recipes_of_treeOn hto, bind_ok_iff] at h
    obtain ⟨rs, hrs, h⟩ := h
    simp only [Except.ok.injEq] at hrs
    subst hrs
    rw [bind_ok_iff] at h
    obtain ⟨-, -, h⟩ := h
    rw [bind_ok_iff] at h
    obtain ⟨p0, hp0, h⟩ := h
    rw [init_vector, bind_ok_iff] at h
    obtain ⟨v0, hv0, h⟩ := h
    simp only [Except.ok.injEq] at hv0
    subst hv0
    rw [bind_ok_iff] at h
    obtain ⟨r, hr, h⟩ := h
    cases r with
    | none => simp at h
    | some cv =>
      obtain ⟨cats, v⟩ := cv
      simp only [Except.ok.injEq, Option.some.injEq] at h
      exact ⟨p0, cats, v, hp0, hr, h.symm⟩

theorem flEmpty_root {fl : ℚ → ℚ} {t : RecipeTree} {cats : List AgentCategory} {ps : List ℚ} (h : sizeAt cats t.index = 0) :
    (treeTrade fl cats t ps).numOfDeals = 0 ∧ (treeTrade fl cats t ps).gainFromTrade = 0 := by
  refine ⟨(Props.empty_root (ps := ps) h).1, ?_⟩
  change treeOptimalTradeGFT fl t (valuesAt cats) = 0
  have hv : valuesAt cats t.index = [] := by
    rw [sizeAt_eq] at h; exact List.length_eq_zero_iff.1 h
  unfold treeOptimalTradeGFT RecipeTree.forest combinedValues
  rw [hv]
  cases t.children <;> simp [combinedValues, flSum]

theorem flStart {t : RecipeTree} {m : Market} (ht : TreeOn t m.numCategories) {p0 : List ℚ} {ε P u : ℚ} (hu : 0 ≤ u) (hP : 0 ≤ P)
    (hp : NearInitialPrices ε P (t.pathsToLeaf.map (indicator m.numCategories)) (-MAX_VALUE) p0) (hv : ∀ i, ∀ x ∈ valuesAt m.sorted i, -MAX_VALUE ≤ x) :
    FInv t m.numCategories m.sorted P u (2 * ε) 0 m.sorted (startVector t m.numCategories p0) := by
  have hM := max_value_pos
  obtain ⟨h1, h2, s, h3⟩ := hp
  have hlen : p0.length = m.numCategories := by
    have := h1 _ (List.mem_map_of_mem (mem_paths.2 (head_path t)))
    rw [← this]; simp [indicator]
  have hb : ∀ i, -P ≤ p0.getD i 0 ∧ p0.getD i 0 ≤ 0 := by
    intro i
    by_cases hi : i < p0.length
    · rw [List.getD_eq_getElem?_getD, List.getElem?_eq_getElem hi]
      obtain ⟨a, b⟩ := h2 _ (List.getElem_mem hi)
      exact ⟨a, by simp only [Option.getD_some]; linarith⟩
    · rw [List.getD_eq_getElem?_getD, List.getElem?_eq_none (by omega)]
      exact ⟨by simpa using hP, le_refl _⟩
  have hs : ∀ p, TreePath t p → |pathSum p0 p - s| ≤ ε := by
    intro p hp
    rw [← recipeSum_indicator hlen (ht.path_nodup hp) (ht.path_lt hp)]
    exact h3 _ (List.mem_map_of_mem (mem_paths.2 hp))
  refine ⟨m.sorted_length, rfl, rfl, hlen, fun i => ?_, fun i x hx => ?_, fun i => ?_, fun i => ?_, fun p q hp hq => ?_, ?_⟩
  · have := (hb i).1
    simpa [priceAt, startVector] using this
  · have hx' := hv i x hx
    have hi : i < p0.length := by
      by_contra hc
      rw [valuesAt_ge (by rw [m.sorted_length]; omega)] at hx
      simp at hx
    have : p0.getD i 0 ≤ -MAX_VALUE := by
      rw [List.getD_eq_getElem?_getD, List.getElem?_eq_getElem hi]
      exact (h2 _ (List.getElem_mem hi)).2
    change p0.getD i 0 ≤ _
    linarith
  · have := (hb i).2
    change p0.getD i 0 ≤ _
    linarith
  · exact ⟨(valuesAt m.sorted i).length, by simp, by simp⟩
  · obtain ⟨a1, a2⟩ := abs_le.1 (hs p hp)
    obtain ⟨b1, b2⟩ := abs_le.1 (hs q hq)
    change |pathSum p0 p - pathSum p0 q| ≤ _
    rw [abs_le]; constructor <;> push_cast <;> linarith
  · have h4 : pathSum p0 (t.pathsToLeaf.headD []) ≤ 0 := by
      unfold pathSum
      generalize t.pathsToLeaf.headD [] = q
      induction q with
      | nil => simp
      | cons i q ih =>
        rw [List.map_cons, List.sum_cons]
        have := (hb i).2
        linarith
    have : 0 ≤ (2 * (m.numCategories : ℚ) + 2) * u := by positivity
    change pathSum p0 _ ≤ _
    linarith

section

variable {fl : ℚ → ℚ} (hf : Rounding fl) {g : List (List ℕ) → ℚ → Py (List ℚ)} {m : Market} {P k : ℕ} (hm : DecimalTreeReports m P k) {struct : List PyObj} {t : RecipeTree}
  (ht : RecipeTree.init m.numCategories struct = .ok t) (hn : (treeNodes t).Nodup) {ε : ℚ} {fuel : ℕ} (hfuel : 4 * fuel ≤ 2 ^ k)
include hf hm ht hn hfuel

theorem flRun {p0 : List ℚ} (hp : NearInitialPrices ε P (t.pathsToLeaf.map (indicator m.numCategories)) (-MAX_VALUE) p0) :
    treeLoop fl t fuel m.sorted (startVector t m.numCategories p0) = .ok none ∨ ∃ cats v, treeLoop fl t fuel m.sorted (startVector t m.numCategories p0) = .ok (some (cats, v)) ∧
      ((sizeAt cats t.index = 0 ∧ ∃ c ≤ fuel, FInv t m.numCategories m.sorted P (1 / 2 ^ k) (2 * ε) c cats v) ∨
        ∃ c, c + 1 ≤ fuel ∧ FEnd t m.numCategories m.sorted (1 / 2 ^ k) (2 * ε) c cats v) := by
  have hto := treeOn_of_init ht hn
  have h2k : (0 : ℚ) < 2 ^ k := by positivity
  have hb : ∀ i, ∀ x ∈ valuesAt m.sorted i, -MAX_VALUE ≤ x ∧ x ≤ MAX_VALUE := by
    intro i x hx
    rw [valuesAt_sorted, mem_sortDesc] at hx
    unfold Market.valueLists at hx
    rw [List.getD_eq_getElem?_getD, List.getElem?_map] at hx
    cases hi : m.categories[i]? with
    | none => rw [hi] at hx; simp at hx
    | some c =>
      rw [hi] at hx
      have := abs_le.1 (hm.bounds c (List.mem_of_getElem? hi) x (by simpa using hx))
      simpa [MAX_VALUE] using this
  have hPM : MAX_VALUE ≤ (P : ℚ) := by
    have : (100000000 : ℚ) ≤ P := by exact_mod_cast hm.constant
    simpa [MAX_VALUE] using this
  have hd := hm.digits
  have hA0 : (1 : ℕ) ≤ (m.categories.length + 4) * (P + 2) := Nat.mul_pos (by omega) (by omega)
  have hk : k ≤ 1074 := by
    have h1 : 2 ^ k ≤ 2 ^ 53 := (Nat.le_mul_of_pos_left _ hA0).trans hd
    have := (Nat.pow_le_pow_iff_right (by norm_num : 1 < 2)).1 h1
    omega
  have hnear : NearTo fl ((((m.categories.length + 4) * (P + 2) : ℕ)) : ℚ) (1 / 2 ^ k) := fun q hq => (Props.float_near hf hq hd hk).le
  have hend := flLoop_end (u := 1 / 2 ^ k) (P := (P : ℚ)) (e := 2 * ε) (n := m.numCategories) (t := t) (cats0 := m.sorted) (by positivity) hnear hPM
    (le_of_eq (by simp [Market.numCategories]))
    (by
      have : ((4 * m.categories.length + 4 : ℕ) : ℚ) ≤ ((2 ^ k : ℕ) : ℚ) := by exact_mod_cast hm.categories
      rw [mul_one_div, div_le_one h2k]
      push_cast at this
      simpa [Market.numCategories] using this)
    hto (fun i => by rw [valuesAt_sorted]; exact sortDesc_sorted _) hb fuel (c := 0)
    (by
      have : ((4 * fuel : ℕ) : ℚ) ≤ ((2 ^ k : ℕ) : ℚ) := by exact_mod_cast hfuel
      rw [mul_one_div, div_le_one h2k]
      push_cast at this ⊢
      linarith)
    (flStart (u := 1 / 2 ^ k) hto (by positivity) (by positivity) hp (fun i x hx => (hb i x hx).1))
  simpa only [zero_add] using hend

end

end Auctions.Floating

namespace Auctions.Props

open Auctions Auctions.Spec Auctions.Floating Auctions.TreeAuction

section

variable {fl : ℚ → ℚ} (hf : Rounding fl) {g : List (List ℕ) → ℚ → Py (List ℚ)} {m : Market} {P k : ℕ} (hm : DecimalTreeReports m P k) {struct : List PyObj} {t : RecipeTree}
  (ht : RecipeTree.init m.numCategories struct = .ok t) (hn : (treeNodes t).Nodup) {ε : ℚ} {fuel : ℕ} (hfuel : 4 * fuel ≤ 2 ^ k)
  (hg : ∀ p0, g (t.pathsToLeaf.map (indicator m.numCategories)) (-MAX_VALUE) = .ok p0 → NearInitialPrices ε P (t.pathsToLeaf.map (indicator m.numCategories)) (-MAX_VALUE) p0)
include hf hm ht hn hfuel hg

/-- The prices of the categories on every path sum up to almost zero (or nothing is traded). -/
theorem float_tree_nearly_balanced {trade : TradeWithMultipleRecipes} (h : Floating.treeAuction fl g m struct fuel = .ok (some trade)) :
    trade.recipeTree = t ∧ ((trade.numOfDeals = 0 ∧ trade.gainFromTrade = 0) ∨
      ∀ p, TreePath t p → |(p.map (finalPrice trade)).sum| ≤ 2 * ε + (2 * m.numCategories + 2 * fuel + 2) / 2 ^ k) := by
  obtain ⟨p0, cats, v, h1, h2, rfl⟩ := flTree_inv ht hn h
  refine ⟨rfl, ?_⟩
  rcases flRun hf hm ht hn hfuel (hg _ h1) with e | ⟨cats', v', e, h3⟩
  · rw [h2] at e; simp at e
  · rw [h2] at e
    simp only [Except.ok.injEq, Option.some.injEq, Prod.mk.injEq] at e
    obtain ⟨rfl, rfl⟩ := e
    rcases h3 with ⟨h3, -⟩ | ⟨c, hc, h3⟩
    · left; exact flEmpty_root h3
    · right
      intro p hp
      have h4 := h3.balanced p hp
      have hc' : (c : ℚ) + 1 ≤ fuel := by exact_mod_cast hc
      refine h4.trans ?_
      rw [mul_one_div]
      have h5 : (2 * (m.numCategories : ℚ) + 2 * c + 4) / 2 ^ k ≤ (2 * m.numCategories + 2 * fuel + 2) / 2 ^ k :=
        div_le_div_of_nonneg_right (by linarith) (by positivity)
      linarith

/-- No remaining agent pays more than a small amount above its value; the agents that left have at most a slightly larger value than the price; no agent is added or lost. -/
theorem float_tree_rational {trade : TradeWithMultipleRecipes} (h : Floating.treeAuction fl g m struct fuel = .ok (some trade)) (i : ℕ) :
    (∀ x ∈ remaining trade i, finalPrice trade i ≤ x + 2 / 2 ^ k) ∧
      ∃ out : List ℚ, ((remaining trade i ++ out).Perm (m.valueLists.getD i [])) ∧ (∀ x ∈ remaining trade i, ∀ y ∈ out, y ≤ x) ∧
        ∀ y ∈ out, y ≤ finalPrice trade i + (4 * m.numCategories + 4 * fuel) / 2 ^ k := by
  obtain ⟨p0, cats, v, h1, h2, rfl⟩ := flTree_inv ht hn h
  have hpos : (0 : ℚ) < 2 ^ k := by positivity
  have key : (∀ x ∈ valuesAt cats i, priceAt v i ≤ x + 2 * (1 / 2 ^ k)) ∧ ∃ j, valuesAt cats i = (valuesAt m.sorted i).take j ∧
      ∀ x ∈ (valuesAt m.sorted i).drop j, x ≤ priceAt v i + (4 * m.numCategories + 4 * fuel) / 2 ^ k := by
    rcases flRun hf hm ht hn hfuel (hg _ h1) with e | ⟨cats', v', e, h3⟩
    · rw [h2] at e; simp at e
    · rw [h2] at e
      simp only [Except.ok.injEq, Option.some.injEq, Prod.mk.injEq] at e
      obtain ⟨rfl, rfl⟩ := e
      rcases h3 with ⟨-, c, hc, h3⟩ | ⟨c, hc, h3⟩
      · refine ⟨h3.rational i, ?_⟩
        obtain ⟨j, hj, hl⟩ := h3.left i
        refine ⟨j, hj, fun x hx => (hl x hx).trans ?_⟩
        have hc' : (c : ℚ) ≤ fuel := by exact_mod_cast hc
        rw [mul_one_div]
        have h6 : (0 : ℚ) ≤ m.numCategories := by positivity
        have h5 : (4 * c : ℚ) / 2 ^ k ≤ (4 * m.numCategories + 4 * fuel) / 2 ^ k := div_le_div_of_nonneg_right (by linarith) (by positivity)
        linarith
      · refine ⟨h3.rational i, ?_⟩
        obtain ⟨j, hj, hl⟩ := h3.left i
        refine ⟨j, hj, fun x hx => (hl x hx).trans ?_⟩
        have hc' : (c : ℚ) + 1 ≤ fuel := by exact_mod_cast hc
        rw [mul_one_div]
        have h5 : (4 * m.numCategories + 4 * c + 4 : ℚ) / 2 ^ k ≤ (4 * m.numCategories + 4 * fuel) / 2 ^ k := div_le_div_of_nonneg_right (by linarith) (by positivity)
        linarith
  rw [remaining_eq]
  obtain ⟨k1, j, hj, hl⟩ := key
  have hs : SortedDesc (valuesAt m.sorted i) := by rw [valuesAt_sorted]; exact sortDesc_sorted _
  refine ⟨fun x hx => ?_, (valuesAt m.sorted i).drop j, ?_, ?_, hl⟩
  · have := k1 x hx
    rw [mul_one_div] at this
    exact this
  · change (valuesAt cats i ++ _).Perm _
    rw [hj, List.take_append_drop, valuesAt_sorted]
    exact sortDesc_perm _
  · intro x hx y hy
    change x ∈ valuesAt cats i at hx
    rw [hj] at hx
    have h5 := hs
    rw [← List.take_append_drop j (valuesAt m.sorted i)] at h5
    exact (List.pairwise_append.1 h5).2.2 x hx y hy

end

/-- The deals of `combined_values_detailed` can be added up if the root has children. -/
theorem flOptimal_ok (fl : ℚ → ℚ) {t : RecipeTree} (vals : ℕ → List ℚ) (hch : t.children ≠ .nil) : ∃ o, Floating.treeOptimalTrade fl t vals = .ok o := by
  have key : ∀ (a : List ℚ) (b : List Forest.Item), ∃ ts, (List.zipWith (fun x y => Forest.Item.tup (x :: y.flat)) a b).mapM RecipeTree.itemSum = .ok ts := by
    intro a
    induction a with
    | nil => intro b; exact ⟨[], rfl⟩
    | cons x a ih =>
      intro b
      cases b with
      | nil => exact ⟨[], rfl⟩
      | cons y b =>
        obtain ⟨ts, hts⟩ := ih b
        refine ⟨(x :: y.flat) :: ts, ?_⟩
        rw [List.zipWith_cons_cons, List.mapM_cons, hts]
        rfl
  obtain ⟨i, ch⟩ := t
  cases ch with
  | nil => exact absurd rfl hch
  | cons j c s =>
    obtain ⟨ts, hts⟩ := key (vals i) ((Floating.combinedValuesDetailed fl vals (.cons j c s)).insertionSort (fun x y => Floating.itemKey fl x ≥ Floating.itemKey fl y))
    refine ⟨(ts.filter (fun vs => Floating.flSum fl vs ≥ 0), (ts.filter (fun vs => Floating.flSum fl vs ≥ 0)).length, Floating.flSum fl (ts.filter (fun vs => Floating.flSum fl vs ≥ 0)).flatten), ?_⟩
    unfold Floating.treeOptimalTrade RecipeTree.forest Floating.combinedValuesDetailed
    simp only [Floating.combinedValuesDetailed, List.append_nil] at hts ⊢
    rw [hts]
    rfl

section

variable {fl : ℚ → ℚ} (hf : Rounding fl) {g : List (List ℕ) → ℚ → Py (List ℚ)} {m : Market} {P k : ℕ} (hm : DecimalTreeReports m P k) {struct : List PyObj} {t : RecipeTree}
  (ht : RecipeTree.init m.numCategories struct = .ok t) (hn : (treeNodes t).Nodup) {ε : ℚ} {fuel : ℕ} (hfuel : 4 * fuel ≤ 2 ^ k)
include hf hm ht hn hfuel

/-- If the linear program finds prices, then the auction does not raise an exception. -/
theorem float_tree_never_raises (hc : m.categories ≠ []) (hch : t.children ≠ .nil)
    (hg : ∃ p0, g (t.pathsToLeaf.map (indicator m.numCategories)) (-MAX_VALUE) = .ok p0 ∧ NearInitialPrices ε P (t.pathsToLeaf.map (indicator m.numCategories)) (-MAX_VALUE) p0) :
    ∃ o, Floating.treeAuction fl g m struct fuel = .ok o := by
  obtain ⟨p0, hp0, hp⟩ := hg
  have hto := treeOn_of_init ht hn
  have hnum : (⟨m.sorted⟩ : Market).numCategories = m.numCategories := m.sorted_length
  obtain ⟨o, ho⟩ := flOptimal_ok fl (valuesAt m.sorted) hch
  unfold Floating.treeAuction
  rw [Market.clone_eq hc]
  simp only [bind, Except.bind, hnum, ht, recipes_of_treeOn hto, ho, hp0, init_vector]
  rcases flRun hf hm ht hn hfuel hp with e | ⟨cats, v, e, -⟩
  · unfold startVector at e
    rw [e]; exact ⟨_, rfl⟩
  · unfold startVector at e
    rw [e]; exact ⟨_, rfl⟩

end

/-! ### Examples -/

/-- Sellers with two possible buyers, decimal reports. -/
def decimalTreeMarket (a b c : List ℤ) : Market := ⟨[⟨"seller", a.map tenths⟩, ⟨"A", b.map tenths⟩, ⟨"B", c.map tenths⟩]⟩

def decimalTreeStruct : List PyObj := [.int 0, .list [.int 1, .none, .int 2, .none]]

def lowestPrices : List ℚ := [-100000000, -100000000, -100000000]

theorem near_of_fixed {p : List ℚ} {P : ℚ} (hP : ∀ x ∈ p, -P ≤ x) {rs : List (List ℕ)} {p0 : List ℚ} (h : fixedSolver p rs (-MAX_VALUE) = .ok p0) : NearInitialPrices 0 P rs (-MAX_VALUE) p0 := by
  obtain ⟨h1, h2, s, h3⟩ := fixedSolver_contract p _ _ _ h
  unfold fixedSolver at h
  split at h
  · simp only [Except.ok.injEq] at h
    subst h
    exact ⟨h1, fun x hx => ⟨hP x hx, h2 x hx⟩, s, fun r hr => by rw [h3 r hr, sub_self, abs_zero]⟩
  · simp at h

theorem decimalTree_reports {a b c : List ℤ} (h : ∀ n ∈ a ++ b ++ c, |n| ≤ 10000) : DecimalTreeReports (decimalTreeMarket a b c) 100000000 23 where
  bounds := by
    intro d hd v hv
    simp only [decimalTreeMarket, List.mem_cons, List.not_mem_nil, or_false] at hd
    rcases hd with rfl | rfl | rfl <;> obtain ⟨n, hn, rfl⟩ := List.mem_map.1 hv <;> exact_mod_cast (tenths_float n (h n (by simp [hn]))).2.1
  constant := le_rfl
  digits := by norm_num [decimalTreeMarket]
  categories := by norm_num [decimalTreeMarket]

/-- A path whose prices sum up to less than zero: sellers -8.1 and -8.5, buyers 8.7, 8.7 and 0.4, 0. The buyer pays 8.7, the seller gets 8.700000002980232. -/
theorem float_tree_deficit : ∃ (a b c : List ℤ) (trade : TradeWithMultipleRecipes), DecimalTreeReports (decimalTreeMarket a b c) 100000000 23 ∧
    Floating.treeAuction nearestFloat (fixedSolver lowestPrices) (decimalTreeMarket a b c) decimalTreeStruct 100 = .ok (some trade) ∧
    trade.numOfDeals = 1 ∧ finalPrice trade 0 + finalPrice trade 1 < 0 := by
  have h : (match Floating.treeAuction nearestFloat (fixedSolver lowestPrices) (decimalTreeMarket [-85, -81] [87, 87] [4, 0]) decimalTreeStruct 100 with
      | .ok (some t) => decide (t.numOfDeals = 1 ∧ finalPrice t 0 + finalPrice t 1 < 0)
      | _ => false) = true := by decide +kernel
  split at h
  · rename_i t ht
    obtain ⟨h1, h2⟩ := of_decide_eq_true h
    exact ⟨_, _, _, t, decimalTree_reports (by decide), ht, h1, h2⟩
  · simp at h

/-- A remaining agent that loses a bit: the seller with the value -8.6 gets 8.599999994039536. -/
theorem float_tree_loss : ∃ (a b c : List ℤ) (trade : TradeWithMultipleRecipes), DecimalTreeReports (decimalTreeMarket a b c) 100000000 23 ∧
    Floating.treeAuction nearestFloat (fixedSolver lowestPrices) (decimalTreeMarket a b c) decimalTreeStruct 100 = .ok (some trade) ∧
    trade.numOfDeals = 1 ∧ tenths (-86) ∈ remaining trade 0 ∧ tenths (-86) < finalPrice trade 0 := by
  have h : (match Floating.treeAuction nearestFloat (fixedSolver lowestPrices) (decimalTreeMarket [-1, -86] [9, 86] [42, 87]) decimalTreeStruct 100 with
      | .ok (some t) => decide (t.numOfDeals = 1 ∧ tenths (-86) ∈ remaining t 0 ∧ tenths (-86) < finalPrice t 0)
      | _ => false) = true := by decide +kernel
  split at h
  · rename_i t ht
    obtain ⟨h1, h2, h3⟩ := of_decide_eq_true h
    exact ⟨_, _, _, t, decimalTree_reports (by decide), ht, h1, h2, h3⟩
  · simp at h

/-- The theorems above, for this market. -/
example : ∃ trade, Floating.treeAuction nearestFloat (fixedSolver lowestPrices) (decimalTreeMarket [-1, -86] [9, 86] [42, 87]) decimalTreeStruct 100 = .ok (some trade) ∧ trade.numOfDeals = 1 ∧
    (∀ p, TreePath trade.recipeTree p → |(p.map (finalPrice trade)).sum| ≤ 2 * 0 + (2 * (3 : ℕ) + 2 * (100 : ℕ) + 2) / 2 ^ 23) ∧
    ∀ i, ∀ x ∈ remaining trade i, finalPrice trade i ≤ x + 2 / 2 ^ 23 := by
  have h : (match Floating.treeAuction nearestFloat (fixedSolver lowestPrices) (decimalTreeMarket [-1, -86] [9, 86] [42, 87]) decimalTreeStruct 100 with
      | .ok (some t) => decide (t.numOfDeals = 1)
      | _ => false) = true := by decide +kernel
  have hm : DecimalTreeReports (decimalTreeMarket [-1, -86] [9, 86] [42, 87]) 100000000 23 := decimalTree_reports (by decide)
  have ht : RecipeTree.init (decimalTreeMarket [-1, -86] [9, 86] [42, 87]).numCategories decimalTreeStruct = .ok ⟨0, .cons 1 .nil (.cons 2 .nil .nil)⟩ := by decide +kernel
  have hl : ∀ x ∈ lowestPrices, -((100000000 : ℕ) : ℚ) ≤ x := by
    intro x hx
    simp only [lowestPrices, List.mem_cons, List.not_mem_nil, or_false] at hx
    rcases hx with rfl | rfl | rfl <;> norm_num
  split at h
  · rename_i trade hrun
    have h1 := of_decide_eq_true h
    obtain ⟨h2, h3⟩ := float_tree_nearly_balanced python_rounding.1 hm ht (by decide) (by norm_num) (fun p0 hp0 => near_of_fixed hl hp0) hrun
    refine ⟨trade, hrun, h1, ?_, fun i => (float_tree_rational python_rounding.1 hm ht (by decide) (by norm_num) (fun p0 hp0 => near_of_fixed hl hp0) hrun i).1⟩
    rcases h3 with ⟨h3, -⟩ | h3
    · omega
    · rw [h2]; exact h3
  · simp at h

/-! ### A market on which only the auction with rounded arithmetic runs forever -/

/-- One iteration of the loop with rounded arithmetic as a function on states; `none` if the loop ends or raises. -/
def flIteration (fl : ℚ → ℚ) (t : RecipeTree) (w : List AgentCategory × SimultaneousAscendingPriceVectors) :
    Option (List AgentCategory × SimultaneousAscendingPriceVectors) :=
  if (t.largestCategories (sizeAt w.1)).2.1 = 0 then none
  else match increases w.1 (t.largestCategories (sizeAt w.1)).2.2 with
    | .error _ => none
    | .ok incs => match Floating.increasePrices fl w.2 incs with
      | .error _ => none
      | .ok v' => if v'.status = some .stoppedAtZeroSum then none else match removeLosers w.1 v'.prices with
        | .error _ => none
        | .ok cats' => some (cats', v')

theorem flIteration_loop {fl : ℚ → ℚ} {t : RecipeTree} {w w' : List AgentCategory × SimultaneousAscendingPriceVectors}
    (h : flIteration fl t w = some w') (fuel : ℕ) : Floating.treeLoop fl t (fuel + 1) w.1 w.2 = Floating.treeLoop fl t fuel w'.1 w'.2 := by
  unfold flIteration at h
  rw [Floating.treeLoop]
  simp only
  split at h
  · simp at h
  · rename_i h0
    rw [if_neg h0]
    split at h
    · simp at h
    · rename_i incs h1
      split at h
      · simp at h
      · rename_i v' h2
        split at h
        · simp at h
        · rename_i h3
          split at h
          · simp at h
          · rename_i cats' h4
            simp only [Option.some.injEq] at h
            subst h
            simp only [h1, h2, bind, Except.bind]
            rw [if_neg h3]
            simp only [h4]

/-- `k` iterations of the loop. -/
def flIterations (fl : ℚ → ℚ) (t : RecipeTree) :
    ℕ → List AgentCategory × SimultaneousAscendingPriceVectors → Option (List AgentCategory × SimultaneousAscendingPriceVectors)
  | 0, w => some w
  | k + 1, w => match flIteration fl t w with
    | none => none
    | some w' => flIterations fl t k w'

/-- A run that reaches a state that an iteration does not change never ends. -/
theorem fl_diverges {fl : ℚ → ℚ} {t : RecipeTree} {w w' : List AgentCategory × SimultaneousAscendingPriceVectors} (k : ℕ)
    (h : flIterations fl t k w = some w') (hw : flIteration fl t w' = some w') (fuel : ℕ) : Floating.treeLoop fl t fuel w.1 w.2 = .ok none := by
  induction fuel generalizing k w with
  | zero => rfl
  | succ n ih =>
    cases k with
    | zero =>
      rw [flIterations, Option.some.injEq] at h
      subst h
      rw [flIteration_loop hw]
      exact ih 0 rfl
    | succ k =>
      rw [flIterations] at h
      split at h
      · simp at h
      · rename_i w1 h1
        rw [flIteration_loop h1]
        exact ih k h

/-- Five categories; in the category `B` are three different values with nine digits after the decimal point. -/
def closeMarket : Market := ⟨[⟨"seller", [-4]⟩, ⟨"A", [3, 2, 1]⟩,
  ⟨"B", [nearestFloat (4999999999 / 10 ^ 9), nearestFloat (4999999998 / 10 ^ 9), nearestFloat (4999999997 / 10 ^ 9)]⟩, ⟨"C", [7]⟩, ⟨"buyer", [9]⟩]⟩

def closeStruct : List PyObj := [.int 0, .list [.int 1, .list [.int 2, .list [.int 3, .none]], .int 4, .none]]

def closePrices : List ℚ := [-100000000, -100000000, -100000000, -100000000, -300000000]

/-- The prices that the linear program has to find for this market: as high as possible, with equal sums. -/
theorem closePrices_initial : InitialPrices [[1, 1, 1, 1, 0], [1, 0, 0, 0, 1]] (-MAX_VALUE) closePrices := by
  refine ⟨by decide, by decide +kernel, -400000000, by decide +kernel⟩

/-- All values of the market are different, and with exact arithmetic the auction ends. With the arithmetic of Python it runs forever: the prices near -10^8 are
multiples of 2^-26, so all three agents of `B` leave at once, and the price of `B` is then the price of an empty category. -/
theorem float_tree_runs_forever : (closeMarket.categories.map AgentCategory.values).flatten.Nodup ∧
    (∃ trade, auction (fixedSolver closePrices) closeMarket closeStruct 100 = .ok (some trade)) ∧
    ∀ fuel, Floating.treeAuction nearestFloat (fixedSolver closePrices) closeMarket closeStruct fuel = .ok none := by
  refine ⟨by decide +kernel, ?_, ?_⟩
  · have h : (match auction (fixedSolver closePrices) closeMarket closeStruct 100 with | .ok (some _) => true | _ => false) = true := by decide +kernel
    split at h
    · rename_i t ht; exact ⟨t, ht⟩
    · simp at h
  · intro fuel
    have e : RecipeTree.init closeMarket.numCategories closeStruct = .ok ⟨0, .cons 1 (.cons 2 (.cons 3 .nil .nil) .nil) (.cons 4 .nil .nil)⟩ := by decide +kernel
    have hto := treeOn_of_init e (by decide)
    have hr : (⟨0, .cons 1 (.cons 2 (.cons 3 .nil .nil) .nil) (.cons 4 .nil .nil)⟩ : RecipeTree).pathsToLeaf.map (indicator closeMarket.numCategories)
        = [[1, 1, 1, 1, 0], [1, 0, 0, 0, 1]] := by decide +kernel
    have hp : fixedSolver closePrices [[1, 1, 1, 1, 0], [1, 0, 0, 0, 1]] (-MAX_VALUE) = .ok closePrices := by decide +kernel
    obtain ⟨o, ho⟩ := flOptimal_ok nearestFloat (t := ⟨0, .cons 1 (.cons 2 (.cons 3 .nil .nil) .nil) (.cons 4 .nil .nil)⟩) (valuesAt closeMarket.sorted) (by simp)
    have hnum : (⟨closeMarket.sorted⟩ : Market).numCategories = closeMarket.numCategories := closeMarket.sorted_length
    have hrec := recipes_of_treeOn hto
    rw [hr] at hrec
    have hi : SimultaneousAscendingPriceVectors.init [[1, 1, 1, 1, 0], [1, 0, 0, 0, 1]] closePrices = .ok ⟨[[1, 1, 1, 1, 0], [1, 0, 0, 0, 1]], closePrices, none⟩ := by decide +kernel
    unfold Floating.treeAuction
    rw [Market.clone_eq (by simp [closeMarket])]
    simp only [bind, Except.bind, hnum, e, hrec, ho, hp, hi]
    rw [fl_diverges (w := (closeMarket.sorted, _)) (w' := ([⟨"seller", [-4]⟩, ⟨"A", []⟩, ⟨"B", []⟩, ⟨"C", [7]⟩, ⟨"buyer", [9]⟩],
      ⟨[[1, 1, 1, 1, 0], [1, 0, 0, 0, 1]], [-MAX_VALUE, MAX_VALUE, 5, -MAX_VALUE, 5], some .stoppedAtAgentValue⟩)) 5
      (by decide +kernel) (by decide +kernel) fuel]

end Auctions.Props
