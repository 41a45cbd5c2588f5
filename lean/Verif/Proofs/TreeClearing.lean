import Verif.Proofs.TreeCountsLoop
import Verif.Proofs.TreeTruthful
import Verif.Props.TreeAuction
import Verif.Spec.Offers

set_option autoImplicit false

/-! # Helper lemmas: the price of the root of the tree auction -/

namespace Auctions

open Spec TreeAuction

/-! ## How a run ends, with the root not empty before -/

/-- `tree_loop_end`, with the fact that the root has agents when an iteration is done. -/
theorem tree_loop_end' {t : RecipeTree} {n : ℕ} (ht : TreeOn t n) {cats0 : List AgentCategory}
    (P : List AgentCategory → SimultaneousAscendingPriceVectors → ℚ → Prop)
    (hP : ∀ cats v s cats' v' d, sizeAt cats t.index ≠ 0 → TInv t n cats0 cats v s → s < 0 → P cats v s → s + d < 0 → TInv t n cats0 cats' v' (s + d) →
      NextState t cats v cats' v' d → P cats' v' (s + d))
    (hPz : ∀ cats v s v' d, sizeAt cats t.index ≠ 0 → TInv t n cats0 cats v s → s < 0 → P cats v s → TInv t n cats0 cats v' 0 →
      (∀ i ∈ cutOf t cats, d ≤ target cats i - priceAt v i) → (∃ i ∈ cutOf t cats, target cats i - priceAt v i = d) →
      -s ≤ d → (∀ j, priceAt v' j = priceAt v j + if j ∈ cutOf t cats then -s else 0) → P cats v' 0)
    (fuel : ℕ) {cats : List AgentCategory} {v : SimultaneousAscendingPriceVectors} {s : ℚ} (h : TInv t n cats0 cats v s)
    (hs : s < 0) (hp : P cats v s) :
    loop t fuel cats v = .ok none ∨ ∃ cats' v' s', loop t fuel cats v = .ok (some (cats', v')) ∧ TInv t n cats0 cats' v' s' ∧
      P cats' v' s' ∧ (s' = 0 ∨ sizeAt cats' t.index = 0) := by
  induction fuel generalizing cats v s with
  | zero => left; rfl
  | succ fuel ih =>
    rcases tree_loop_step ht h fuel with ⟨h1, h2⟩ | ⟨h1, v', d, h2, h3, h4, h5, h6, h7⟩ | ⟨h1, cats', v', d, h2, h3, h4, h5⟩
    · right; exact ⟨cats, v, s, h2, h, hp, Or.inr h1⟩
    · right; exact ⟨cats, v', 0, h2, h3, hPz _ _ _ _ _ h1 h hs hp h3 h4 h5 h6 h7, Or.inl rfl⟩
    · rw [h2]
      exact ih h4 h3 (hP _ _ _ _ _ _ h1 h hs hp h3 h4 h5)

theorem outcome' {f : List (List ℕ) → ℚ → Py (List ℚ)} {m : Market} {struct : List PyObj} {fuel : ℕ} {trade : TradeWithMultipleRecipes} {t : RecipeTree}
    (hf : PriceContract f) (ht : RecipeTree.init m.numCategories struct = .ok t) (hn : (treeNodes t).Nodup)
    (P : List AgentCategory → SimultaneousAscendingPriceVectors → ℚ → Prop)
    (hP : ∀ cats v s cats' v' d, sizeAt cats t.index ≠ 0 → TInv t m.numCategories m.sorted cats v s → s < 0 → P cats v s → s + d < 0 →
      TInv t m.numCategories m.sorted cats' v' (s + d) → NextState t cats v cats' v' d → P cats' v' (s + d))
    (hPz : ∀ cats v s v' d, sizeAt cats t.index ≠ 0 → TInv t m.numCategories m.sorted cats v s → s < 0 → P cats v s → TInv t m.numCategories m.sorted cats v' 0 →
      (∀ i ∈ cutOf t cats, d ≤ target cats i - priceAt v i) → (∃ i ∈ cutOf t cats, target cats i - priceAt v i = d) →
      -s ≤ d → (∀ j, priceAt v' j = priceAt v j + if j ∈ cutOf t cats then -s else 0) → P cats v' 0)
    (h0 : ∀ v s, TInv t m.numCategories m.sorted m.sorted v s → s ≤ -MAX_VALUE →
      (∀ i < m.numCategories, priceAt v i ≤ -MAX_VALUE) → P m.sorted v s)
    (h : auction f m struct fuel = .ok (some trade)) :
    ∃ cats v s, trade = TradeWithMultipleRecipes.init cats t v.prices ∧ TInv t m.numCategories m.sorted cats v s ∧ P cats v s ∧
      (s = 0 ∨ sizeAt cats t.index = 0) := by
  obtain ⟨p0, cats, v, h1, h2, rfl⟩ := auction_inv ht hn h
  have hto := treeOn_of_init ht hn
  obtain ⟨s, hi, hs, hp⟩ := start_inv hto (hf _ _ _ h1)
  rcases tree_loop_end' hto P hP hPz fuel hi (by linarith [max_value_pos]) (h0 _ _ hi hs hp) with e | ⟨cats', v', s', e, e1, e2, e3⟩
  · rw [h2] at e; simp at e
  · rw [h2] at e
    simp only [Except.ok.injEq, Option.some.injEq, Prod.mk.injEq] at e
    obtain ⟨rfl, rfl⟩ := e
    exact ⟨cats, v, s', rfl, e1, e2, e3⟩

/-! ## Counting -/

theorem countP_le_of {l : List ℚ} {P Q : ℚ → Prop} [DecidablePred P] [DecidablePred Q] (h : ∀ x, P x → Q x) : l.countP (fun x => P x) ≤ l.countP (fun x => Q x) := by
  apply List.countP_mono_left
  intro x _ hx
  simp only [decide_eq_true_eq] at hx ⊢
  exact h x hx

/-- One more when the threshold itself is in the list. -/
theorem countP_lt_of_mem {l : List ℚ} {q : ℚ} (h : q ∈ l) : l.countP (fun x => q < x) + 1 ≤ l.countP (fun x => q ≤ x) := by
  induction l with
  | nil => simp at h
  | cons a l ih =>
    rw [List.countP_cons, List.countP_cons]
    rcases List.mem_cons.1 h with rfl | h
    · have := countP_le_of (l := l) (P := fun x => q < x) (Q := fun x => q ≤ x) fun x hx => hx.le
      simp only [lt_irrefl, le_refl, decide_true, decide_false, Bool.false_eq_true, if_true, if_false]
      omega
    · have := ih h
      by_cases h1 : q < a
      · simp only [h1, h1.le, decide_true, if_true]; omega
      · simp only [h1, decide_false, Bool.false_eq_true, if_false]; omega

/-- The price of the root is the lowest one at which its agents do not ask for more than its children offer. -/
theorem root_price {V : ℕ → List ℚ} {R : ℕ → ℕ} {p : ℕ → ℚ} {M B : ℚ} (hB : 0 ≤ B) {i : ℕ} {ch : Forest} {t q κ : ℚ} (hch : ch ≠ .nil)
    (hset : Setting V R p B (.cons i ch .nil)) (hl : Level p (.cons i ch .nil) q) (hcl : Clocked V R p M B (.cons i ch .nil) t q)
    (hcap : Capped B p κ (.cons i ch .nil)) (hκ : B * (κ - 1) ≤ t + M) (ha : t + height (.cons i ch .nil) * B < 0)
    (hpt : ∃ x ∈ V i, p i ≤ x) (he : q = 0 ∨ q ≤ 0 ∧ R i = 0) :
    IsLeast {x | (V i).countP (fun y => x < y) ≤ (ch.combinedValues V).countP (fun y => -x ≤ y)} (p i) := by
  have hsp := hset.split i (by simp [nodes])
  have hRc := splitAt_count hsp
  obtain ⟨b, hb, hpb⟩ := hpt
  have hbB := (hset.bound i (by simp [nodes]) b hb).2
  have hlen : 0 < (V i).length := List.length_pos_of_mem hb
  obtain ⟨c1, c2, c3⟩ := hcl.1 hch
  have hh1 : (height ch : ℚ) + 1 ≤ height (.cons i ch .nil) := by rw [height]; exact_mod_cast le_max_left _ _
  have h1 : (height ch : ℚ) * B + B ≤ height (.cons i ch .nil) * B := by nlinarith
  have h0 : (0 : ℚ) ≤ height ch * B := by positivity
  -- an empty root below the top of its values
  by_cases htc : t - B < q - p i
  · have hN : (ch.combinedValues V).countP (fun x => q - p i < x) = ch.rootSizes R :=
      count_above hB hset.children hl.children hcl.2.1 hcap.2.1 (a := t) (by linarith) (by linarith) (by linarith) htc
    have hbelow : ∀ x < p i, (ch.combinedValues V).countP (fun y => -x ≤ y) ≤ ch.rootSizes R := by
      intro x hx
      rw [← hN]
      apply countP_le_of
      intro y hy
      rcases he with rfl | ⟨he, -⟩ <;> linarith
    have hge : ∀ x < p i, R i ≤ (V i).countP (fun y => x < y) := by
      intro x hx
      rw [← hRc]
      apply countP_le_of
      intro y hy; linarith
    constructor
    · show (V i).countP (fun y => p i < y) ≤ (ch.combinedValues V).countP (fun y => -p i ≤ y)
      rw [hRc]
      rcases he with rfl | ⟨-, he⟩
      · rw [zero_sub] at hN c1
        by_cases hR : ch.rootSizes R < R i
        · obtain ⟨e1, e2⟩ := c1 (by linarith) hR
          have := countP_lt_of_mem e2
          omega
        · have := countP_le_of (l := ch.combinedValues V) (P := fun x => -p i < x) (Q := fun x => -p i ≤ x) fun x hx => hx.le
          omega
      · omega
    · intro x hx
      rw [Set.mem_ofPred_eq] at hx
      by_contra hlt
      rw [not_le] at hlt
      have e1 := hbelow x hlt
      have e2 := hge x hlt
      by_cases hR : ch.rootSizes R < R i
      · omega
      · have hone : 1 ≤ (V i).countP (fun y => x < y) := by
          rw [Nat.one_le_iff_ne_zero, Ne, List.countP_eq_zero]
          intro h
          have := h b hb
          simp only [decide_eq_true_eq, not_lt] at this
          linarith
        obtain ⟨r, hr⟩ := exists_path hch
        have hqc : q - p i ≤ B * (κ - 1) := (hl.children r hr) ▸ hcap.1 r hr
        rcases c2 (by omega) with ⟨g1, g2⟩ | ⟨g1, g2⟩ | g1
        · rcases he with rfl | ⟨he, he'⟩
          · linarith
          · omega
        · have hmem : p i ∈ V i := List.mem_of_getElem? g2
          have h5 := countP_lt_of_mem hmem
          have h6 := countP_le_of (l := V i) (P := fun y => p i ≤ y) (Q := fun y => x < y) fun y hy => by linarith
          omega
        · omega
  · -- the children are low: then there are no offers
    rcases he with rfl | ⟨he, hR⟩
    · exfalso; linarith
    · have h6 := c3 (by omega)
      have hnil : ch.combinedValues V = [] :=
        no_deals hB hset.children hl.children hcl.2.1 (a := t) (by linarith) (by omega) (by linarith)
      constructor
      · show (V i).countP (fun y => p i < y) ≤ _
        rw [hRc, hR]; omega
      · intro x hx
        rw [Set.mem_ofPred_eq, hnil, List.countP_nil, Nat.le_zero, List.countP_eq_zero] at hx
        have := hx b hb
        simp only [decide_eq_true_eq, not_lt] at this
        linarith

/-- The price of a category with children is the lowest one at which its agents do not ask for more than its children offer, given the price sum of its subtree. -/
theorem node_price {V : ℕ → List ℚ} {R : ℕ → ℕ} {p : ℕ → ℚ} {M B : ℚ} (hB : 0 ≤ B) {i : ℕ} {ch s : Forest} {t q κ : ℚ} (hch : ch ≠ .nil)
    (hset : Setting V R p B (.cons i ch s)) (hl : Level p (.cons i ch s) q) (hcl : Clocked V R p M B (.cons i ch s) t q)
    (hcap : Capped B p κ (.cons i ch s)) (hκ : B * (κ - 1) ≤ t + M) (ha : t + height (.cons i ch s) * B < 0)
    (hpt : ∃ x ∈ V i, p i ≤ x) (hq : t < q) :
    t - B < q - p i ∧ IsLeast {x | (V i).countP (fun y => x < y) ≤ (ch.combinedValues V).countP (fun y => q - x ≤ y)} (p i) := by
  have hsp := hset.split i (by simp [nodes])
  have hRc := splitAt_count hsp
  obtain ⟨b, hb, hpb⟩ := hpt
  have hbB := (hset.bound i (by simp [nodes]) b hb).2
  obtain ⟨c1, c2, c3⟩ := hcl.1 hch
  have hh1 : (height ch : ℚ) + 1 ≤ height (.cons i ch s) := by rw [height]; exact_mod_cast le_max_left _ _
  have h1 : (height ch : ℚ) * B + B ≤ height (.cons i ch s) * B := by nlinarith
  have h0 : (0 : ℚ) ≤ height ch * B := by positivity
  have htc : t - B < q - p i := by linarith
  refine ⟨htc, ?_⟩
  have hN : (ch.combinedValues V).countP (fun x => q - p i < x) = ch.rootSizes R :=
    count_above hB hset.children hl.children hcl.2.1 hcap.2.1 (a := t) (by linarith) (by linarith) (by linarith) htc
  constructor
  · show (V i).countP (fun y => p i < y) ≤ (ch.combinedValues V).countP (fun y => q - p i ≤ y)
    rw [hRc]
    by_cases hR : ch.rootSizes R < R i
    · obtain ⟨e1, e2⟩ := c1 htc hR
      have := countP_lt_of_mem e2
      omega
    · have := countP_le_of (l := ch.combinedValues V) (P := fun x => q - p i < x) (Q := fun x => q - p i ≤ x) fun x hx => hx.le
      omega
  · intro x hx
    rw [Set.mem_ofPred_eq] at hx
    by_contra hlt
    rw [not_le] at hlt
    have e1 : (ch.combinedValues V).countP (fun y => q - x ≤ y) ≤ ch.rootSizes R := by
      rw [← hN]
      apply countP_le_of
      intro y hy; linarith
    have e2 : R i ≤ (V i).countP (fun y => x < y) := by
      rw [← hRc]
      apply countP_le_of
      intro y hy; linarith
    by_cases hR : ch.rootSizes R < R i
    · omega
    · have hone : 1 ≤ (V i).countP (fun y => x < y) := by
        rw [Nat.one_le_iff_ne_zero, Ne, List.countP_eq_zero]
        intro h
        have := h b hb
        simp only [decide_eq_true_eq, not_lt] at this
        linarith
      obtain ⟨r, hr⟩ := exists_path hch
      have hqc : q - p i ≤ B * (κ - 1) := (hl.children r hr) ▸ hcap.1 r hr
      rcases c2 (by omega) with ⟨g1, g2⟩ | ⟨g1, g2⟩ | g1
      · linarith
      · have hmem : p i ∈ V i := List.mem_of_getElem? g2
        have h5 := countP_lt_of_mem hmem
        have h6 := countP_le_of (l := V i) (P := fun y => p i ≤ y) (Q := fun y => x < y) fun y hy => by linarith
        omega
      · omega

/-! ## Along a run -/

/-- What the loop preserves, with the prices at the end. -/
structure ARun (t : RecipeTree) (cats0 : List AgentCategory) (B : ℚ) (cats : List AgentCategory) (v : SimultaneousAscendingPriceVectors) (s : ℚ) : Prop where
  run : CRun t cats0 B cats v s
  top : ∃ x ∈ valuesAt cats0 t.index, priceAt v t.index ≤ x
  stopped : s = 0 → Rational cats v ∧ ∃ R, CInv t (valuesAt cats0) B R (priceAt v) 0
  near : s = 0 → ∃ s0 < 0, ∀ r, s0 ≤ r → r < 0 → ∃ R p, CInv t (valuesAt cats0) B R p r ∧ ∀ i ∈ nodes t.forest, R i = sizeAt cats i

/-- The prices of the chosen categories raised by `e`. -/
def raisedBy (t : RecipeTree) (n : ℕ) (cats : List AgentCategory) (v : SimultaneousAscendingPriceVectors) (e : ℚ) : SimultaneousAscendingPriceVectors :=
  ⟨v.psRecipes, (List.range n).map (fun j => priceAt v j + if j ∈ cutOf t cats then e else 0), v.status⟩

theorem raisedBy_price {t : RecipeTree} {n : ℕ} (ht : TreeOn t n) {cats : List AgentCategory} {v : SimultaneousAscendingPriceVectors} {s e : ℚ} (hf : Fits t n v s) (j : ℕ) :
    priceAt (raisedBy t n cats v e) j = priceAt v j + if j ∈ cutOf t cats then e else 0 := by
  by_cases hj : j < n
  · simp [priceAt, raisedBy, List.getD_eq_getElem?_getD, hj]
  · have hc : j ∉ cutOf t cats := fun h => hj (ht.lt j (cut_mem j h))
    rw [if_neg hc, add_zero, priceAt, priceAt, List.getD_eq_getElem?_getD, List.getD_eq_getElem?_getD,
      List.getElem?_eq_none (by simp [raisedBy]; omega), List.getElem?_eq_none (by rw [hf.length]; omega)]

theorem raisedBy_fits {t : RecipeTree} {n : ℕ} (ht : TreeOn t n) {cats : List AgentCategory} {v : SimultaneousAscendingPriceVectors} {s e : ℚ} (hf : Fits t n v s) :
    Fits t n (raisedBy t n cats v e) (s + e) := by
  refine ⟨hf.recipes, by simp [raisedBy], fun p hp => ?_⟩
  rw [← hf.balanced p hp]
  rw [pathSum_raise (δ := e) (ht.path_nodup hp) (cut_nodup ht cats) (fun j _ => raisedBy_price ht hf j), cut_path ht cats hp]
  simp

theorem arun_top {t : RecipeTree} {cats0 cats : List AgentCategory} {v v' : SimultaneousAscendingPriceVectors} {d : ℚ}
    (hpre : ∃ k, valuesAt cats t.index = (valuesAt cats0 t.index).take k) (hroot : sizeAt cats t.index ≠ 0)
    (htop : ∃ x ∈ valuesAt cats0 t.index, priceAt v t.index ≤ x) (hle : ∀ i ∈ cutOf t cats, priceAt v i + d ≤ target cats i)
    (hp : priceAt v' t.index = priceAt v t.index + if t.index ∈ cutOf t cats then d else 0) :
    ∃ x ∈ valuesAt cats0 t.index, priceAt v' t.index ≤ x := by
  by_cases hc : t.index ∈ cutOf t cats
  · rw [if_pos hc] at hp
    refine ⟨target cats t.index, mem_valuesAt_of_pre hpre (target_mem ?_), by rw [hp]; exact hle _ hc⟩
    intro h0
    rw [sizeAt_eq, h0] at hroot
    exact hroot rfl
  · rw [if_neg hc, add_zero] at hp
    rw [hp]; exact htop

theorem arun_next {t : RecipeTree} {n : ℕ} (ht : TreeOn t n) {B : ℚ} (hB : 0 ≤ B)
    (hM : 3 * height t.forest * B < MAX_VALUE) {cats0 cats cats' : List AgentCategory}
    (hd : Distinct (valuesAt cats0) t.forest) (hmax : ∀ i, ∀ x ∈ valuesAt cats0 i, x ≤ MAX_VALUE)
    {v v' : SimultaneousAscendingPriceVectors} {s d : ℚ} (hroot : sizeAt cats t.index ≠ 0) (h : TInv t n cats0 cats v s)
    (hs : s < 0) (hc : ARun t cats0 B cats v s) (hsd : s + d < 0) (h' : TInv t n cats0 cats' v' (s + d))
    (hn : NextState t cats v cats' v' d) : ARun t cats0 B cats' v' (s + d) :=
  ⟨crun_next ht hB hM hd hmax h hs hc.run hsd h' hn, arun_top (h.pre _) hroot hc.top hn.le (hn.price _), fun e => by linarith, fun e => by linarith⟩

theorem arun_stop {t : RecipeTree} {n : ℕ} (ht : TreeOn t n) {B : ℚ} (hB : 0 ≤ B)
    (hM : 3 * height t.forest * B < MAX_VALUE) {cats0 cats : List AgentCategory}
    (hd : Distinct (valuesAt cats0) t.forest)
    {v v' : SimultaneousAscendingPriceVectors} {s d : ℚ} (hroot : sizeAt cats t.index ≠ 0) (h : TInv t n cats0 cats v s)
    (hs : s < 0) (hc : ARun t cats0 B cats v s) (h' : TInv t n cats0 cats v' 0)
    (hdt : ∀ i ∈ cutOf t cats, d ≤ target cats i - priceAt v i) (hsd : -s ≤ d)
    (hp : ∀ j, priceAt v' j = priceAt v j + if j ∈ cutOf t cats then -s else 0) : ARun t cats0 B cats v' 0 := by
  obtain ⟨h1, h2, h3⟩ := hc.run.running hs
  refine ⟨crun_stop ht hB hM hd h hs hc.run h' hdt hsd hp, arun_top (h.pre _) hroot hc.top (fun i hi => by have := hdt i hi; linarith) (hp _), fun _ => ⟨rational_stop h h2 hdt hsd hp, fun i => (afterRemoval (valuesAt cats i) (priceAt v' i)).length, ?_⟩,
    fun _ => ⟨s, hs, fun r hr1 hr2 => ?_⟩⟩
  · exact cinv_raise ht hB hM hd h h1 (by linarith) (fun i hi => by have := hdt i hi; linarith) hp h'.fits (fun i => rfl)
  · have hfit := raisedBy_fits ht (cats := cats) (e := r - s) h.fits
    rw [show s + (r - s) = r by ring] at hfit
    refine ⟨fun i => (afterRemoval (valuesAt cats i) (priceAt (raisedBy t n cats v (r - s)) i)).length, _,
      cinv_raise ht hB hM hd h h1 (e := r - s) (by linarith) (fun i hi => by have := hdt i hi; linarith) (raisedBy_price ht h.fits) hfit (fun i => rfl), fun i hi => ?_⟩
    show (afterRemoval (valuesAt cats i) (priceAt (raisedBy t n cats v (r - s)) i)).length = _
    rw [sizeAt_eq]
    congr 1
    rw [afterRemoval, if_neg]
    rintro ⟨x, hx, hxp⟩
    have hne : valuesAt cats i ≠ [] := by rintro e; rw [e] at hx; simp at hx
    have hxt : x = target cats i := by rw [target, Option.mem_def.1 hx]; rfl
    rw [raisedBy_price ht h.fits] at hxp
    by_cases hc' : i ∈ cutOf t cats
    · rw [if_pos hc'] at hxp
      have := hdt _ hc'
      linarith
    · rw [if_neg hc', add_zero] at hxp
      have hsp := h1.set.split i hi
      have hxm : x ∈ valuesAt cats i := List.mem_of_mem_getLast? hx
      obtain ⟨k, hk⟩ := h.pre i
      obtain ⟨j, hj, rfl⟩ := List.getElem_of_mem hxm
      have hj2 : (valuesAt cats i)[j]? = (valuesAt cats0 i)[j]? := by
        have hkk : j < k := by rw [hk, List.length_take] at hj; omega
        rw [hk, List.getElem?_take_of_lt hkk]
      have hle := hsp.le
      rw [sizeAt_eq] at hsp hle
      rw [List.getElem?_eq_getElem hj, List.getElem?_eq_getElem (by omega), Option.some.injEq] at hj2
      have := hsp.above j (by omega) hj
      linarith

/-- A number below zero, above the negative elements of a list. -/
theorem exists_gap (l : List ℚ) (s0 : ℚ) (hs : s0 < 0) : ∃ r < 0, s0 ≤ r ∧ ∀ y ∈ l, r < y → 0 ≤ y := by
  induction l with
  | nil => exact ⟨s0, hs, le_refl _, by simp⟩
  | cons a l ih =>
    obtain ⟨r, h1, h2, h3⟩ := ih
    by_cases ha : a < 0
    · refine ⟨max r a, max_lt h1 ha, le_trans h2 (le_max_left _ _), ?_⟩
      intro y hy hlt
      rw [max_lt_iff] at hlt
      rcases List.mem_cons.1 hy with rfl | hy
      · exact absurd hlt.2 (lt_irrefl _)
      · exact h3 y hy hlt.1
    · refine ⟨r, h1, h2, ?_⟩
      intro y hy hlt
      rcases List.mem_cons.1 hy with rfl | hy
      · exact not_lt.1 ha
      · exact h3 y hy hlt

/-- What is known at the end of a run: the price of the root, and the number of its agents. -/
theorem arun_end {t : RecipeTree} {B : ℚ} (hB : 0 ≤ B) (hM : 3 * height t.forest * B < MAX_VALUE) (hch : t.children ≠ .nil) {cats0 cats : List AgentCategory}
    {v : SimultaneousAscendingPriceVectors} {s : ℚ} (hc : ARun t cats0 B cats v s) (he : s = 0 ∨ sizeAt cats t.index = 0) :
    IsLeast {x | (valuesAt cats0 t.index).countP (fun y => x < y) ≤ (t.children.combinedValues (valuesAt cats0)).countP (fun y => -x ≤ y)} (priceAt v t.index) ∧
      sizeAt cats t.index = (t.forest.combinedValues (valuesAt cats0)).countP (fun y => 0 ≤ y) := by
  have hpos := max_value_pos
  have hL1 : (1 : ℚ) ≤ height t.forest := by
    have : 1 ≤ height t.forest := by rw [RecipeTree.forest, height]; omega
    exact_mod_cast this
  have hLB : 0 ≤ (height t.forest : ℚ) * B := mul_nonneg (by linarith) hB
  have hroots : ∀ R : ℕ → ℕ, t.forest.rootSizes R = R t.index := by
    intro R; rw [RecipeTree.forest, Forest.rootSizes]; rfl
  rcases eq_or_lt_of_le hc.run.nonpos with h0 | hneg
  · obtain ⟨-, R, h1, h2, h3, h4⟩ := hc.stopped h0
    refine ⟨root_price hB hch h1 h2 h3 h4 (by linarith) (by rw [RecipeTree.forest] at hLB hM ⊢; linarith) hc.top (Or.inl rfl), ?_⟩
    obtain ⟨s0, hs0, hnear⟩ := hc.near h0
    obtain ⟨r, r1, r2, r3⟩ := exists_gap (t.forest.combinedValues (valuesAt cats0)) 
      (max s0 ((-MAX_VALUE + 2 * height t.forest * B) / 2)) (max_lt hs0 (by linarith))
    rw [max_le_iff] at r2
    obtain ⟨R', p', ⟨g1, g2, g3, g4⟩, g5⟩ := hnear r r2.1 r1
    have hcount := count_above hB g1 g2 g3 g4 (a := -MAX_VALUE + 2 * height t.forest * B) (le_refl _) (by linarith) (by linarith) (by linarith)
    rw [hroots, g5 t.index (by simp [RecipeTree.forest, nodes])] at hcount
    rw [← hcount]
    apply List.countP_congr
    intro y hy
    simp only [decide_eq_true_eq]
    exact ⟨r3 y hy, fun h => by linarith⟩
  · have hroot : sizeAt cats t.index = 0 := he.resolve_left (by intro h; linarith)
    obtain ⟨⟨h1, h2, h3, h4⟩, -, -⟩ := hc.run.running hneg
    refine ⟨root_price hB hch h1 h2 h3 h4 (by linarith) (by rw [RecipeTree.forest] at hLB hM ⊢; linarith) hc.top (Or.inr ⟨hneg.le, hroot⟩), ?_⟩
    have hr0 : t.forest.rootSizes (sizeAt cats) = 0 := by rw [hroots, hroot]
    rw [hroot, eq_comm, List.countP_eq_zero]
    intro y hy
    rw [decide_eq_true_eq, not_le]
    by_cases hq : s ≤ -MAX_VALUE + 2 * height t.forest * B
    · rw [no_deals hB h1 h2 h3 (a := -MAX_VALUE + 2 * height t.forest * B) (by linarith) hr0 hq] at hy
      simp at hy
    · push Not at hq
      have hcount := count_above hB h1 h2 h3 h4 (a := -MAX_VALUE + 2 * height t.forest * B) (le_refl _) (by linarith) (by linarith) hq
      rw [hr0, List.countP_eq_zero] at hcount
      have := hcount y hy
      simp only [decide_eq_true_eq, not_lt] at this
      linarith

end Auctions
