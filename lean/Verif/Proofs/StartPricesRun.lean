import Verif.Proofs.StartPrices
import Verif.Proofs.TreeAuctionStart

set_option autoImplicit false

/-! # Helper lemmas: runs of the recipe-tree auction started at different prices -/

namespace Auctions.StartPrices

open Auctions Spec TreeAuction

/-! ## Chains of raises -/

/-- The prices after raising the chosen ones by `e`. -/
def bump (vals : ℕ → List ℚ) (t : RecipeTree) (p : ℕ → ℚ) (e : ℚ) (j : ℕ) : ℚ := p j + if j ∈ cut vals t.forest p then e else 0

/-- A run without the data structures: from the prices `p` with the price-sum `s` to the remaining agents `fv`, the prices `fp` and the price-sum `s'`. -/
inductive Chain (vals : ℕ → List ℚ) (t : RecipeTree) : (ℕ → ℚ) → ℚ → (ℕ → List ℚ) → (ℕ → ℚ) → ℚ → Prop
  | empty {p : ℕ → ℚ} {s : ℚ} : s < 0 → cnt vals p t.index = 0 → Chain vals t p s (fun i => (vals i).filter (p i < ·)) p s
  | zero {p : ℕ → ℚ} {s d : ℚ} : s < 0 → cnt vals p t.index ≠ 0 → -s ≤ d → NoCross vals t.forest p d →
      Chain vals t p s (fun i => (vals i).filter (p i < ·)) (bump vals t p (-s)) 0
  | step {p : ℕ → ℚ} {s d : ℚ} {fv : ℕ → List ℚ} {fp : ℕ → ℚ} {s' : ℚ} : s < 0 → cnt vals p t.index ≠ 0 → 0 ≤ d → NoCross vals t.forest p d →
      Chain vals t (bump vals t p d) (s + d) fv fp s' → Chain vals t p s fv fp s'

variable {vals : ℕ → List ℚ} {t : RecipeTree} {V : ℚ}

theorem bump_raised (p : ℕ → ℚ) (e : ℚ) : Raised vals t.forest p (bump vals t p e) e := fun _ _ => rfl

theorem bump_out {p : ℕ → ℚ} {e : ℚ} {j : ℕ} (hj : j ∉ nodes t.forest) : bump vals t p e j = p j := by
  rw [bump, if_neg (fun h => hj (cut_sub j h)), add_zero]

/-- Nothing changes outside the tree. -/
theorem chain_out {p : ℕ → ℚ} {s : ℚ} {fv : ℕ → List ℚ} {fp : ℕ → ℚ} {s' : ℚ} (h : Chain vals t p s fv fp s') {i : ℕ} (hi : i ∉ nodes t.forest) :
    fp i = p i ∧ fv i = (vals i).filter (p i < ·) := by
  induction h with
  | empty _ _ => exact ⟨rfl, rfl⟩
  | zero _ _ _ _ => exact ⟨bump_out hi, rfl⟩
  | step _ _ _ _ _ ih => rw [bump_out hi] at ih; exact ih

/-- The setting of a run. -/
structure Setting (vals : ℕ → List ℚ) (t : RecipeTree) (M V : ℚ) : Prop where
  nodup : (nodes t.forest).Nodup
  small : Small vals V t.forest
  size : V * (2 * height t.forest - 1) < M

variable {M : ℚ}

theorem Setting.lt (h : Setting vals t M V) : V < M ∧ V * height t.forest < M ∧ 0 ≤ V * (height t.forest - 1) := by
  have h1 := height_pos (f := t.forest) (by simp [RecipeTree.forest])
  have h2 := h.size
  have h3 := h.small.nonneg
  refine ⟨by nlinarith, by nlinarith, mul_nonneg h3 (by linarith)⟩

/-- What is known of the prices `p` at a moment with the price-sum `r`, also between the iterations. -/
structure Moment (vals : ℕ → List ℚ) (t : RecipeTree) (M V : ℚ) (r : ℚ) (p : ℕ → ℚ) : Prop where
  inv : Inv vals M V t.forest p
  bal : Bal t.forest p r
  root : cnt vals p t.index ≠ 0

section
variable {p : ℕ → ℚ} {s d e : ℚ} (hset : Setting vals t M V) (h : Inv vals M V t.forest p) (hb : Bal t.forest p s)
  (hroot : cnt vals p t.index ≠ 0) (hd : NoCross vals t.forest p d) (he : 0 ≤ e)
include hd he

include hset h hb in
theorem bump_inv (hed : e ≤ d) : Inv vals M V t.forest (bump vals t p e) := by
  refine inv_raise hset.nodup hset.small hset.size h hb he (bump_raised p e) ?_
  intro j hj x hx hp
  have := hd j hj x hx hp
  linarith

theorem bump_filter (hed : e < d) (i : ℕ) : (vals i).filter (p i < ·) = (vals i).filter (bump vals t p e i < ·) := by
  apply List.filter_congr
  intro x hx
  rw [decide_eq_decide, bump]
  split
  · rename_i hi
    constructor
    · intro hp
      have := hd i hi x hx hp
      linarith
    · intro hp; linarith
  · rw [add_zero]

theorem bump_cnt (hed : e < d) : cnt vals (bump vals t p e) = cnt vals p := by
  funext i
  rw [cnt, ← bump_filter hd he hed i, cnt]

include hset h hb hroot in
theorem bump_moment (hed : e < d) : Moment vals t M V (s + e) (bump vals t p e) :=
  ⟨bump_inv hset h hb hd he hed.le, bal_raise hset.nodup (bump_raised p e) hb, by rw [bump_cnt hd he hed]; exact hroot⟩

theorem bump_cut (hed : e < d) : cut vals t.forest (bump vals t p e) = cut vals t.forest p := by
  rw [cut, cut, bump_cnt hd he hed]

end

/-- How a run ends, and the moments it goes through. -/
structure Run (vals : ℕ → List ℚ) (t : RecipeTree) (M V : ℚ) (s : ℚ) (fv : ℕ → List ℚ) (fp : ℕ → ℚ) (s' : ℚ) : Prop where
  through : ∀ r, s ≤ r → r < s' → ∃ p, Moment vals t M V r p
  ends : (s' = 0 ∧ ∃ s0 < 0, ∀ r, s0 ≤ r → r < 0 → ∃ p, Moment vals t M V r p ∧ (∀ i, fv i = (vals i).filter (p i < ·)) ∧
      ∀ j, fp j = p j + if j ∈ cut vals t.forest p then -r else 0) ∨
    (s' < 0 ∧ Inv vals M V t.forest fp ∧ Bal t.forest fp s' ∧ (∀ i, fv i = (vals i).filter (fp i < ·)) ∧ cnt vals fp t.index = 0)

theorem run_spec (hset : Setting vals t M V) {p : ℕ → ℚ} {s : ℚ} {fv : ℕ → List ℚ} {fp : ℕ → ℚ} {s' : ℚ} (hc : Chain vals t p s fv fp s')
    (h : Inv vals M V t.forest p) (hb : Bal t.forest p s) : Run vals t M V s fv fp s' := by
  induction hc with
  | empty h1 h2 => exact ⟨fun r a b => absurd a (not_le.2 b), Or.inr ⟨h1, h, hb, fun _ => rfl, h2⟩⟩
  | @zero p s d h1 h2 h3 h4 =>
    have key : ∀ r, s ≤ r → r < 0 → Moment vals t M V r (bump vals t p (r - s)) := by
      intro r a b
      have := bump_moment hset h hb h2 h4 (e := r - s) (by linarith) (by linarith)
      rwa [show s + (r - s) = r by ring] at this
    refine ⟨fun r a b => ⟨_, key r a b⟩, Or.inl ⟨rfl, s, h1, fun r a b => ⟨_, key r a b, ?_, ?_⟩⟩⟩
    · exact bump_filter h4 (by linarith) (by linarith)
    · intro j
      rw [bump_cut h4 (by linarith) (by linarith), bump, bump]
      split <;> ring
  | @step p s d fv fp s' h1 h2 h3 h4 _ ih =>
    have hrun := ih (bump_inv hset h hb h4 h3 le_rfl) (bal_raise hset.nodup (bump_raised p d) hb)
    refine ⟨fun r a b => ?_, hrun.ends⟩
    by_cases hrd : r < s + d
    · have := bump_moment hset h hb h2 h4 (e := r - s) (by linarith) (by linarith)
      rw [show s + (r - s) = r by ring] at this
      exact ⟨_, this⟩
    · exact hrun.through r (by linarith) b

/-- Moments with the same price-sum are the same. -/
theorem moment_unique (hset : Setting vals t M V) {p q : ℕ → ℚ} {r : ℚ} (hr : limit M V t.forest < r)
    (hp : Inv vals M V t.forest p) (hpb : Bal t.forest p r) (hq : Inv vals M V t.forest q) (hqb : Bal t.forest q r) :
    ∀ j ∈ nodes t.forest, p j = q j :=
  good_unique (inv_good hset.small hset.size hp hpb hr) (inv_good hset.small hset.size hq hqb hr) hpb hqb

/-- When the root has no agents left, the sum is above the limit. -/
theorem end_above (hset : Setting vals t M V) {p : ℕ → ℚ} {s : ℚ} (h : Inv vals M V t.forest p) (hb : Bal t.forest p s) (h0 : cnt vals p t.index = 0) :
    limit M V t.forest < s := by
  have hr : t.forest.rootSizes (cnt vals p) = 0 := by
    rw [RecipeTree.forest, Forest.rootSizes, Forest.rootSizes, h0]
  have hempty := empty_sum hset.small (by simp [RecipeTree.forest]) hb (roots_empty h hr)
  have := hset.size
  unfold limit
  linarith

/-- A run that ends because the root has no agents left ends no later than another run. -/
theorem empty_first {fv2 : ℕ → List ℚ} {p fp2 : ℕ → ℚ} {s2 r1 r2 : ℚ} (hset : Setting vals t M V) (hs2 : s2 ≤ -M) (h2 : Run vals t M V s2 fv2 fp2 r2)
    (hi : Inv vals M V t.forest p) (hb : Bal t.forest p r1) (h0 : cnt vals p t.index = 0) : r2 ≤ r1 := by
  by_contra hlt
  rw [not_le] at hlt
  have hab := end_above hset hi hb h0
  have hpos := hset.lt.2.2
  obtain ⟨q, hq⟩ := h2.through r1 (by unfold limit at hab; linarith) hlt
  have heq := moment_unique hset hab hq.inv hq.bal hi hb
  apply hq.root
  rw [cnt_congr (heq t.index (by simp [RecipeTree.forest, nodes])), h0]

/-- Two runs end with the same agents and the same prices. -/
theorem run_unique {fv1 fv2 : ℕ → List ℚ} {fp1 fp2 : ℕ → ℚ} {s1 s2 r1 r2 : ℚ} (hset : Setting vals t M V)
    (hs1 : s1 ≤ -M) (hs2 : s2 ≤ -M) (h1 : Run vals t M V s1 fv1 fp1 r1) (h2 : Run vals t M V s2 fv2 fp2 r2) :
    ∀ i ∈ nodes t.forest, fv1 i = fv2 i ∧ fp1 i = fp2 i := by
  rcases h1.ends with ⟨rfl, a, ha, ea⟩ | ⟨n1, i1, b1, e1, z1⟩
  · rcases h2.ends with ⟨rfl, b, hb, eb⟩ | ⟨n2, i2, b2, e2, z2⟩
    · have hlim : limit M V t.forest < 0 := by
        have h3 := hset.lt.2.1
        have h4 := hset.small.nonneg
        unfold limit; linarith
      obtain ⟨r, hr1, hr2⟩ := exists_between (max_lt (max_lt ha hb) hlim)
      rw [max_lt_iff, max_lt_iff] at hr1
      obtain ⟨p, hp, pv, pp⟩ := ea r hr1.1.1.le hr2
      obtain ⟨q, hq, qv, qp⟩ := eb r hr1.1.2.le hr2
      have heq := moment_unique hset hr1.2 hp.inv hp.bal hq.inv hq.bal
      refine fun i hi => ⟨?_, ?_⟩
      · rw [pv i, qv i, heq i hi]
      · rw [pp i, qp i, heq i hi]
        congr 2
        rw [cut, cut, largest_agree fun j hj => cnt_congr (heq j hj)]
    · have := empty_first hset hs1 h1 i2 b2 z2
      linarith
  · rcases h2.ends with ⟨rfl, b, hb, eb⟩ | ⟨n2, i2, b2, e2, z2⟩
    · have := empty_first hset hs2 h2 i1 b1 z1
      linarith
    · have l1 := empty_first hset hs2 h2 i1 b1 z1
      have l2 := empty_first hset hs1 h1 i2 b2 z2
      obtain rfl : r1 = r2 := le_antisymm l2 l1
      have heq := moment_unique hset (end_above hset i1 b1 z1) i1 b1 i2 b2
      exact fun i hi => ⟨by rw [e1 i, e2 i, heq i hi], heq i hi⟩

theorem low_sum {f : Forest} {p : ℕ → ℚ} {x : ℚ} (hM : 0 ≤ M) (hf : f ≠ .nil) (hp : ∀ j ∈ nodes f, p j ≤ -M) (hx : Bal f p x) : x ≤ -M := by
  obtain ⟨l, hl⟩ := exists_path hf
  rw [← hx l hl]
  exact sum_le_neg (by linarith) (isPath_ne_nil hl) fun i hi => hp i (isPath_subset hl i hi)

/-- Two chains that start low enough end with the same agents and the same prices. -/
theorem chain_unique {fv1 fv2 : ℕ → List ℚ} {p1 p2 fp1 fp2 : ℕ → ℚ} {s1 s2 r1 r2 : ℚ} (hset : Setting vals t M V)
    (h1 : Chain vals t p1 s1 fv1 fp1 r1) (h2 : Chain vals t p2 s2 fv2 fp2 r2) (b1 : Bal t.forest p1 s1) (b2 : Bal t.forest p2 s2)
    (l1 : ∀ j ∈ nodes t.forest, p1 j ≤ -M) (l2 : ∀ j ∈ nodes t.forest, p2 j ≤ -M) :
    ∀ i ∈ nodes t.forest, fv1 i = fv2 i ∧ fp1 i = fp2 i := by
  have hM : 0 ≤ M := by have := hset.lt.1; have := hset.small.nonneg; linarith
  have hne : t.forest ≠ .nil := by simp [RecipeTree.forest]
  exact run_unique hset (low_sum hM hne l1 b1) (low_sum hM hne l2 b2) (run_spec hset h1 (inv_start hset.small hset.lt.1 l1) b1)
    (run_spec hset h2 (inv_start hset.small hset.lt.1 l2) b2)

/-! ## Runs of the auction are chains -/

variable {n : ℕ} {cats0 cats cats' : List AgentCategory} {v v' : SimultaneousAscendingPriceVectors} {s d : ℚ}

/-- What holds between two iterations. -/
structure State (t : RecipeTree) (n : ℕ) (cats0 : List AgentCategory) (cats : List AgentCategory) (v : SimultaneousAscendingPriceVectors) (s : ℚ) : Prop where
  inv : TInv t n cats0 cats v s
  exact_ : ∀ i, valuesAt cats i = (valuesAt cats0 i).filter (priceAt v i < ·)
  max_ : ∀ i, priceAt v i ≤ MAX_VALUE
  neg : s < 0

theorem State.sizes (h : State t n cats0 cats v s) : sizeAt cats = cnt (valuesAt cats0) (priceAt v) := by
  funext i
  rw [sizeAt_eq, h.exact_ i, cnt]

theorem State.cut_eq (h : State t n cats0 cats v s) : cutOf t cats = cut (valuesAt cats0) t.forest (priceAt v) := by
  rw [cutOf, cut, h.sizes]; rfl

theorem fits_bal (h : Fits t n v s) : Bal t.forest (priceAt v) s := fun l hl => h.balanced l hl

theorem State.noCross (h : State t n cats0 cats v s) (hd : ∀ i ∈ cutOf t cats, priceAt v i + d ≤ target cats i) :
    NoCross (valuesAt cats0) t.forest (priceAt v) d := by
  intro j hj x hx hp
  rw [← h.cut_eq] at hj
  refine (hd j hj).trans (target_le (h.inv.sorted j) x ?_)
  rw [h.exact_ j]
  simp [hx, hp]

theorem State.rational (h : State t n cats0 cats v s) : Rational cats v := by
  intro i x hx
  rw [h.exact_ i] at hx
  simp only [List.mem_filter, decide_eq_true_eq] at hx
  exact hx.2.le

theorem removal_filter {l : List ℚ} {p : ℚ} (hs : SortedDesc l) (hge : ∀ x ∈ l, p ≤ x) (hn : l.Nodup ∨ ∀ x ∈ l, p < x) :
    afterRemoval l p = l.filter (p < ·) := by
  rcases List.eq_nil_or_concat l with rfl | ⟨l', y, rfl⟩
  · simp [afterRemoval]
  · rw [afterRemoval]
    simp only [List.concat_eq_append, List.getLast?_append, List.getLast?_singleton, Option.some_or, Option.mem_some_iff, exists_eq_left', Option.getD_some] at *
    split
    · rename_i hy
      rcases hn with hn | hn
      · have hyp : y = p := le_antisymm hy (hge y (by simp))
        rw [List.dropLast_concat, List.filter_append]
        rw [show [y].filter (fun x => decide (p < x)) = [] by simp [hyp], List.append_nil, eq_comm, List.filter_eq_self]
        intro x hx
        have h1 := hge x (by simp [hx])
        have h2 : x ≠ y := by
          rintro rfl
          rw [List.nodup_append] at hn
          exact hn.2.2 x hx x (by simp) rfl
        rw [decide_eq_true_eq]
        exact lt_of_le_of_ne h1 (by rw [← hyp]; exact fun e => h2 e.symm)
      · have := hn y (by simp); linarith
    · rename_i hy
      rw [not_le] at hy
      rw [eq_comm, List.filter_eq_self]
      intro x hx
      rw [decide_eq_true_eq]
      rw [List.mem_append, List.mem_singleton] at hx
      rcases hx with hx | rfl
      · have h1 : y ≤ x := by
          unfold SortedDesc at hs
          rw [List.pairwise_append] at hs
          exact hs.2.2 x hx y (by simp)
        linarith
      · exact hy

/-- The next state. -/
theorem state_next (hnd : ∀ i ∈ nodes t.forest, (valuesAt cats0 i).Nodup) (hmax : ∀ i, ∀ x ∈ valuesAt cats0 i, x ≤ MAX_VALUE) (h : State t n cats0 cats v s)
    (hsd : s + d < 0) (hi : TInv t n cats0 cats' v' (s + d)) (hn : NextState t cats v cats' v' d) :
    0 ≤ d ∧ State t n cats0 cats' v' (s + d) ∧ priceAt v' = bump (valuesAt cats0) t (priceAt v) d := by
  have hd0 := nextState_nonneg h.rational h.max_ hn
  have hp : priceAt v' = bump (valuesAt cats0) t (priceAt v) d := by funext j; rw [bump, hn.price, h.cut_eq]
  refine ⟨hd0, ⟨hi, ?_, ?_, hsd⟩, hp⟩
  · intro i
    rw [hn.values]
    have hle : priceAt v i ≤ priceAt v' i := by rw [hp, bump]; split <;> linarith
    have hge : ∀ x ∈ valuesAt cats i, priceAt v' i ≤ x := by
      intro x hx
      rw [hp, bump]
      split
      · rename_i hi'
        rw [← h.cut_eq] at hi'
        exact (hn.le i hi').trans (target_le (h.inv.sorted i) x hx)
      · rw [add_zero]; exact h.rational i x hx
    rw [removal_filter (h.inv.sorted i) hge, h.exact_ i, List.filter_filter]
    · apply List.filter_congr
      intro x _
      rw [Bool.eq_iff_iff]
      simp only [Bool.and_eq_true, decide_eq_true_eq]
      constructor
      · exact fun h => h.1
      · exact fun h => ⟨h, lt_of_le_of_lt hle h⟩
    · by_cases hm : i ∈ nodes t.forest
      · left
        rw [h.exact_ i]
        exact (hnd i hm).filter _
      · right
        intro x hx
        rw [hp, bump_out hm]
        rw [h.exact_ i] at hx
        simp only [List.mem_filter, decide_eq_true_eq] at hx
        exact hx.2
  · intro i
    rw [hp, bump]
    split
    · rename_i hi'
      rw [← h.cut_eq] at hi'
      exact (hn.le i hi').trans (target_le_max fun x hx => hmax i x (mem_valuesAt_of_pre (h.inv.pre i) hx))
    · rw [add_zero]; exact h.max_ i

/-- A run of the loop is a chain. -/
theorem loop_chain (hto : TreeOn t n) (hnd : ∀ i ∈ nodes t.forest, (valuesAt cats0 i).Nodup) (hmax : ∀ i, ∀ x ∈ valuesAt cats0 i, x ≤ MAX_VALUE) (fuel : ℕ)
    (h : State t n cats0 cats v s) (hr : loop t fuel cats v = .ok (some (cats', v'))) :
    ∃ s', TInv t n cats0 cats' v' s' ∧ Chain (valuesAt cats0) t (priceAt v) s (valuesAt cats') (priceAt v') s' := by
  induction fuel generalizing cats v s with
  | zero => simp [loop] at hr
  | succ fuel ih =>
    have hroot : ∀ k, sizeAt cats t.index = k → cnt (valuesAt cats0) (priceAt v) t.index = k := by intro k hk; rw [← h.sizes, hk]
    have hvals : valuesAt cats = fun i => (valuesAt cats0 i).filter (priceAt v i < ·) := funext h.exact_
    rcases tree_loop_step hto h.inv fuel with ⟨h1, h2⟩ | ⟨h1, w, d, h2, h3, h4, h5, h6, h7⟩ | ⟨h1, cs, w, d, h2, h3, h4, h5⟩
    · rw [h2] at hr
      simp only [Except.ok.injEq, Option.some.injEq, Prod.mk.injEq] at hr
      obtain ⟨rfl, rfl⟩ := hr
      refine ⟨s, h.inv, ?_⟩
      rw [hvals]
      exact .empty h.neg (hroot 0 h1)
    · rw [h2] at hr
      simp only [Except.ok.injEq, Option.some.injEq, Prod.mk.injEq] at hr
      obtain ⟨rfl, rfl⟩ := hr
      refine ⟨0, h3, ?_⟩
      have hp : priceAt w = bump (valuesAt cats0) t (priceAt v) (-s) := by funext j; rw [bump, h7, h.cut_eq]
      rw [hvals, hp]
      exact .zero h.neg (by rw [hroot _ rfl]; exact h1) h6 (h.noCross fun i hi => by have := h4 i hi; linarith)
    · rw [h2] at hr
      obtain ⟨hd0, hst, hp⟩ := state_next hnd hmax h h3 h4 h5
      obtain ⟨s', hi, hc⟩ := ih hst hr
      rw [hp] at hc
      exact ⟨s', hi, .step h.neg (by rw [hroot _ rfl]; exact h1) hd0 (h.noCross h5.le) hc⟩

theorem cats_ext {cats1 cats2 : List AgentCategory} (hn : cats1.map AgentCategory.name = cats2.map AgentCategory.name)
    (hv : ∀ i, valuesAt cats1 i = valuesAt cats2 i) : cats1 = cats2 := by
  have hlen : cats1.length = cats2.length := by simpa using congrArg List.length hn
  apply List.ext_getElem hlen
  intro k h1 h2
  have e1 : cats1[k].name = cats2[k].name := by
    have := congrArg (fun l => l[k]?) hn
    simpa [h1, h2] using this
  have e2 := hv k
  rw [valuesAt_get h1, valuesAt_get h2] at e2
  cases hc1 : cats1[k]; cases hc2 : cats2[k]
  rw [hc1, hc2] at e1 e2
  simp_all

/-- A run of the auction is a chain, and it starts at the initial prices. -/
theorem auction_chain' {f : List (List ℕ) → ℚ → Py (List ℚ)} {m : Market} {struct : List PyObj} {fuel : ℕ} {trade : TradeWithMultipleRecipes}
    (hf : PriceContract f) (ht : RecipeTree.init m.numCategories struct = .ok t) (hn : (treeNodes t).Nodup)
    (hnd : ∀ i ∈ treeNodes t, (valuesAt m.sorted i).Nodup) (hb : ∀ i, ∀ x ∈ valuesAt m.sorted i, -MAX_VALUE < x ∧ x ≤ MAX_VALUE)
    (h : auction f m struct fuel = .ok (some trade)) :
    ∃ (p : ℕ → ℚ) (s s' : ℚ) (p0 : List ℚ), Chain (valuesAt m.sorted) t p s (valuesAt trade.categories) (fun i => trade.prices.getD i 0) s' ∧ Bal t.forest p s ∧
      (∀ i < m.numCategories, p i ≤ -MAX_VALUE) ∧ trade.categories.map AgentCategory.name = m.sorted.map AgentCategory.name ∧
      trade.prices.length = m.numCategories ∧ trade = TradeWithMultipleRecipes.init trade.categories t trade.prices ∧
      f (t.pathsToLeaf.map (indicator m.numCategories)) (-MAX_VALUE) = .ok p0 ∧ p0.length = m.numCategories ∧ p = fun i => p0.getD i 0 := by
  have hto := treeOn_of_init ht hn
  obtain ⟨p0, cats, v, hp0, hl, rfl⟩ := auction_inv ht hn h
  obtain ⟨s, hi, hs, hle⟩ := start_inv hto (hf _ _ _ hp0)
  have hmax := max_value_pos
  have hst : State t m.numCategories m.sorted m.sorted (startVector t m.numCategories p0) s := by
    refine ⟨hi, fun i => ?_, fun i => ?_, by linarith⟩
    · by_cases hin : i < m.numCategories
      · rw [eq_comm, List.filter_eq_self]
        intro x hx
        rw [decide_eq_true_eq]
        have h1 := hle i hin
        have h2 := (hb i x hx).1
        linarith
      · rw [valuesAt_ge (by rw [m.sorted_length]; omega)]; rfl
    · by_cases hin : i < m.numCategories
      · have := hle i hin; linarith
      · unfold priceAt
        rw [List.getD_eq_getElem?_getD, List.getElem?_eq_none (by rw [hi.fits.length]; omega)]
        exact hmax.le
  obtain ⟨s', hi', hc⟩ := loop_chain hto (fun i hi => hnd i (forest_nodes.1 hi)) (fun i x hx => (hb i x hx).2) fuel hst hl
  exact ⟨_, s, s', p0, hc, fits_bal hi.fits, hle, hi'.names, hi'.fits.length, rfl, hp0, hi.fits.length, rfl⟩

/-- A run of the auction is a chain. -/
theorem auction_chain {f : List (List ℕ) → ℚ → Py (List ℚ)} {m : Market} {struct : List PyObj} {fuel : ℕ} {trade : TradeWithMultipleRecipes}
    (hf : PriceContract f) (ht : RecipeTree.init m.numCategories struct = .ok t) (hn : (treeNodes t).Nodup)
    (hnd : ∀ i ∈ treeNodes t, (valuesAt m.sorted i).Nodup) (hb : ∀ i, ∀ x ∈ valuesAt m.sorted i, -MAX_VALUE < x ∧ x ≤ MAX_VALUE)
    (h : auction f m struct fuel = .ok (some trade)) :
    ∃ (p : ℕ → ℚ) (s s' : ℚ), Chain (valuesAt m.sorted) t p s (valuesAt trade.categories) (fun i => trade.prices.getD i 0) s' ∧ Bal t.forest p s ∧
      (∀ i < m.numCategories, p i ≤ -MAX_VALUE) ∧ trade.categories.map AgentCategory.name = m.sorted.map AgentCategory.name ∧
      trade.prices.length = m.numCategories ∧ trade = TradeWithMultipleRecipes.init trade.categories t trade.prices := by
  obtain ⟨p, s, s', p0, h1, h2, h3, h4, h5, h6, -⟩ := auction_chain' hf ht hn hnd hb h
  exact ⟨p, s, s', h1, h2, h3, h4, h5, h6⟩

end Auctions.StartPrices
