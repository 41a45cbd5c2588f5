import Verif.Proofs.TreeCountsDown
import Verif.Props.TreeTermination

set_option autoImplicit false

/-! # Helper lemmas: the invariant `Clocked` through a run of the tree auction -/

namespace Auctions

open Spec TreeAuction

/-- The invariant at clock `q`. -/
structure CInv (t : RecipeTree) (V : ℕ → List ℚ) (B : ℚ) (R : ℕ → ℕ) (p : ℕ → ℚ) (q : ℚ) : Prop where
  set : Setting V R p B t.forest
  level : Level p t.forest q
  clocked : Clocked V R p MAX_VALUE B t.forest (-MAX_VALUE + 2 * height t.forest * B) q
  capped : Capped B p (height t.forest) t.forest

/-- A raise followed by the removals. -/
theorem cinv_raise {t : RecipeTree} {n : ℕ} (ht : TreeOn t n) {B : ℚ} (hB : 0 ≤ B)
    (hM : 3 * height t.forest * B < MAX_VALUE) {cats0 cats : List AgentCategory}
    (hd : Distinct (valuesAt cats0) t.forest) {v v' : SimultaneousAscendingPriceVectors} {s s' e : ℚ} (h : TInv t n cats0 cats v s)
    (hc : CInv t (valuesAt cats0) B (sizeAt cats) (priceAt v) s) (he : 0 ≤ e) (hle : ∀ i ∈ cutOf t cats, priceAt v i + e ≤ target cats i)
    (hp : ∀ j, priceAt v' j = priceAt v j + if j ∈ cutOf t cats then e else 0) (hf' : Fits t n v' s')
    {R' : ℕ → ℕ} (hR : ∀ i, R' i = (afterRemoval (valuesAt cats i) (priceAt v' i)).length) :
    CInv t (valuesAt cats0) B R' (priceAt v') s' := by
  have hnd := forest_nodup ht
  have hmono : ∀ i, priceAt v i ≤ priceAt v' i := by
    intro i; rw [hp]; split <;> linarith
  have hnodup : ∀ i ∈ nodes t.forest, (valuesAt cats0 i).Nodup := by
    have key : ∀ (f : Forest), Distinct (valuesAt cats0) f → ∀ i ∈ nodes f, (valuesAt cats0 i).Nodup := by
      intro f
      induction f with
      | nil => simp [nodes]
      | cons i ch s ih1 ih2 =>
        intro hd j hj
        rw [nodes, List.mem_cons, List.mem_append] at hj
        rcases hj with rfl | hj | hj
        · exact hd.1
        · exact ih1 hd.2.1 j hj
        · exact ih2 hd.2.2.1 j hj
    exact key _ hd
  have hlen : ∀ i, sizeAt cats i ≤ (valuesAt cats0 i).length := by
    intro i
    obtain ⟨k, hk⟩ := h.pre i
    rw [sizeAt_eq, hk, List.length_take]; omega
  have hget : ∀ i k (hk : k < (valuesAt cats i).length), (valuesAt cats i)[k] = (valuesAt cats0 i)[k]'(by
      have := hlen i; rw [sizeAt_eq] at this; omega) := by
    intro i k hk
    have h2 : (valuesAt cats i)[k]? = (valuesAt cats0 i)[k]? := by
      obtain ⟨k', hk'⟩ := h.pre i
      have hkk : k < k' := by rw [hk', List.length_take] at hk; omega
      rw [hk', List.getElem?_take_of_lt hkk]
    rw [List.getElem?_eq_getElem hk, List.getElem?_eq_getElem (by have := hlen i; rw [sizeAt_eq] at this; omega)] at h2
    exact Option.some.inj h2
  -- the values that are left are not below the new prices
  have hlow : ∀ i ∈ nodes t.forest, ∀ k (hk : k < (valuesAt cats0 i).length), k < sizeAt cats i → priceAt v' i ≤ (valuesAt cats0 i)[k] := by
    intro i hi k hk hks
    rw [sizeAt_eq] at hks
    rw [hp]
    by_cases hic : i ∈ cutOf t cats
    · rw [if_pos hic, ← hget i k hks]
      exact (hle i hic).trans (target_le (h.sorted i) _ (List.getElem_mem hks))
    · rw [if_neg hic, add_zero]
      exact ((hc.set.split i hi).above k hk (by rw [sizeAt_eq]; exact hks)).le
  -- what happens to a category
  have hR' : ∀ i ∈ nodes t.forest, (R' i = sizeAt cats i ∧ ∀ k (hk : k < (valuesAt cats0 i).length), k < sizeAt cats i →
        priceAt v' i < (valuesAt cats0 i)[k]) ∨
      (sizeAt cats i = R' i + 1 ∧ (valuesAt cats0 i)[R' i]? = some (priceAt v' i) ∧ i ∈ cutOf t cats) := by
    intro i hi
    rw [hR]
    unfold afterRemoval
    split
    · right
      rename_i hl
      obtain ⟨y, hy, hyp⟩ := hl
      have hne : valuesAt cats i ≠ [] := by rintro e; rw [e] at hy; simp at hy
      have hpos := List.length_pos_iff.2 hne
      rw [Option.mem_def, List.getLast?_eq_getElem?] at hy
      obtain ⟨hk, hky⟩ := List.getElem?_eq_some_iff.1 hy
      have hk0 : (valuesAt cats i).length - 1 < (valuesAt cats0 i).length := by
        have := hlen i; rw [sizeAt_eq] at this; omega
      have h0 : (valuesAt cats0 i)[(valuesAt cats i).length - 1] = y := by rw [← hky]; exact (hget i _ hk).symm
      have hpe : priceAt v' i = y := by
        apply le_antisymm _ hyp
        rw [← h0]; exact hlow i hi _ hk0 (by rw [sizeAt_eq]; omega)
      refine ⟨by rw [sizeAt_eq, List.length_dropLast]; omega, ?_, ?_⟩
      · rw [List.length_dropLast, List.getElem?_eq_getElem hk0, h0, hpe]
      · by_contra hic
        have h1 : priceAt v' i = priceAt v i := by rw [hp, if_neg hic, add_zero]
        have h2 := (hc.set.split i hi).above _ hk0 (by rw [sizeAt_eq]; omega)
        rw [h0, ← hpe, h1] at h2
        exact lt_irrefl _ h2
    · left
      rename_i hl
      push Not at hl
      refine ⟨by rw [sizeAt_eq], ?_⟩
      intro k hk hks
      rw [sizeAt_eq] at hks
      have hne : valuesAt cats i ≠ [] := by rintro e; rw [e] at hks; simp at hks
      have h1 := hl _ (List.getLast?_eq_some_getLast hne)
      have h2 := (h.sorted i).getLast_le (List.getLast?_eq_some_getLast hne) _ (List.getElem_mem hks)
      rw [hget i k hks] at h2
      exact h1.trans_le h2
  have hset : Setting (valuesAt cats0) R' (priceAt v') B t.forest := by
    refine ⟨hc.set.sorted, hc.set.bound, ?_⟩
    intro i hi
    have hs := hc.set.split i hi
    rcases hR' i hi with ⟨e1, e2⟩ | ⟨e1, e2, -⟩
    · rw [e1]
      exact ⟨hs.le, e2, fun k hk hkc => (hs.rest k hk hkc).trans (hmono i)⟩
    · obtain ⟨g1, g2⟩ := List.getElem?_eq_some_iff.1 e2
      refine ⟨by omega, ?_, ?_⟩
      · intro k hk hkc
        rw [← g2]
        exact List.pairwise_iff_getElem.1 (strict_of_nodup (hc.set.sorted i hi) (hnodup i hi)) k (R' i) hk g1 hkc
      · intro k hk hkc
        rcases Nat.lt_or_ge (R' i) k with hlt | hge
        · exact (hs.rest k hk (by omega)).trans (hmono i)
        · have : k = R' i := by omega
          subst this
          exact g2.le
  have hraise : Raise (valuesAt cats0) (sizeAt cats) (priceAt v) R' (priceAt v') t.forest := by
    refine ⟨?_, ?_⟩
    · intro j hj hjc
      have hjc' : j ∉ cutOf t cats := hjc
      refine ⟨by rw [hp, if_neg hjc', add_zero], ?_⟩
      rcases hR' j hj with ⟨e1, -⟩ | ⟨-, -, e3⟩
      · exact e1
      · exact absurd e3 hjc'
    · intro j hj
      rcases hR' j (largest_subset _ _ j hj) with ⟨e1, -⟩ | ⟨e1, e2, -⟩
      · exact Or.inl e1
      · exact Or.inr ⟨e1, e2⟩
  have hlevel : Level (priceAt v') t.forest s' := fun r hr => hf'.balanced r hr
  have hL0 : (0 : ℚ) ≤ height t.forest := by positivity
  have hLB : 0 ≤ (height t.forest : ℚ) * B := mul_nonneg hL0 hB
  refine ⟨hset, hlevel, ?_, ?_⟩
  · exact clocked_step hB hnd hd hc.set hc.level hlevel hc.clocked hc.capped (a := -MAX_VALUE + 2 * height t.forest * B) (le_refl _)
      (by linarith) (by linarith) hraise
  · refine (capped_step hB (size := sizeAt cats) hnd (le_refl _) hc.capped (fits_even hf') ?_ ?_).1
    · intro j _ hj
      have hj' : j ∉ cutOf t cats := hj
      rw [hp, if_neg hj', add_zero]
    · intro j hj hsz
      have hlt : 0 < (valuesAt cats0 j).length := by have := hlen j; omega
      exact (hlow j hj 0 hlt (by omega)).trans (hc.set.bound j hj _ (List.getElem_mem hlt)).2

theorem clocked_start {V : ℕ → List ℚ} {R : ℕ → ℕ} {p : ℕ → ℚ} {M B : ℚ} (hM : 0 ≤ M) (hB : 0 ≤ B) {f : Forest} {t q : ℚ}
    (hp : ∀ i ∈ nodes f, p i ≤ -M) (hR : ∀ i ∈ nodes f, R i = (V i).length) (hl : Level p f q) (ht : -M + height f * B ≤ t) :
    Clocked V R p M B f t q := by
  induction f generalizing t q with
  | nil => trivial
  | cons i ch s ih1 ih2 =>
    have hh1 : (height ch : ℚ) + 1 ≤ height (.cons i ch s) := by rw [height]; exact_mod_cast le_max_left _ _
    have hh2 : (height s : ℚ) ≤ height (.cons i ch s) := by rw [height]; exact_mod_cast le_max_right _ _
    have h1 : (height ch : ℚ) * B + B ≤ height (.cons i ch s) * B := by nlinarith
    have h2 : (height s : ℚ) * B ≤ height (.cons i ch s) * B := mul_le_mul_of_nonneg_right hh2 hB
    have h3 : (0 : ℚ) ≤ height ch * B := by positivity
    refine ⟨?_, ih1 (fun j hj => hp j (by simp [nodes, hj])) (fun j hj => hR j (by simp [nodes, hj])) hl.children (by linarith),
      ih2 (fun j hj => hp j (by simp [nodes, hj])) (fun j hj => hR j (by simp [nodes, hj])) hl.siblings (by linarith)⟩
    intro hc
    refine ⟨?_, ?_, ?_⟩
    · intro htc
      exfalso
      obtain ⟨r, hr⟩ := exists_path hc
      have h4 := hl.children r hr
      have h5 : psum p r ≤ -M := sum_le_neg (by linarith) (isPath_ne_nil hr) (fun j hj => hp j (by simp [nodes, isPath_subset hr j hj]))
      linarith
    · intro _
      exact Or.inl ⟨hp i (by simp [nodes]), hR i (by simp [nodes])⟩
    · intro h
      have := hR i (by simp [nodes])
      omega

theorem cinv_start {t : RecipeTree} {n : ℕ} (ht : TreeOn t n) {B : ℚ} (hB : 0 ≤ B) (hM : 3 * height t.forest * B < MAX_VALUE)
    {cats0 : List AgentCategory} (hb : ∀ i ∈ nodes t.forest, ∀ x ∈ valuesAt cats0 i, -B ≤ x ∧ x ≤ B)
    {v : SimultaneousAscendingPriceVectors} {s : ℚ} (h : TInv t n cats0 cats0 v s) (hp : ∀ i < n, priceAt v i ≤ -MAX_VALUE) :
    CInv t (valuesAt cats0) B (sizeAt cats0) (priceAt v) s := by
  have hpos := max_value_pos
  have hL1 : (1 : ℚ) ≤ height t.forest := by
    have : 1 ≤ height t.forest := by rw [RecipeTree.forest, height]; omega
    exact_mod_cast this
  have hBM : B < MAX_VALUE := by nlinarith
  have hpn : ∀ i ∈ nodes t.forest, priceAt v i ≤ -MAX_VALUE := by
    intro i hi
    refine hp i (ht.lt i ?_)
    simpa [RecipeTree.forest, nodes, treeNodes] using hi
  have hlevel : Level (priceAt v) t.forest s := fun r hr => h.fits.balanced r hr
  refine ⟨⟨fun i _ => h.sorted i, hb, ?_⟩, hlevel, ?_, ?_⟩
  · intro i hi
    refine ⟨by rw [sizeAt_eq], ?_, ?_⟩
    · intro k hk _
      have := (hb i hi _ (List.getElem_mem hk)).1
      have := hpn i hi
      linarith
    · intro k hk hkc
      rw [sizeAt_eq] at hkc; omega
  · refine clocked_start hpos.le hB hpn (fun i _ => sizeAt_eq _ _) hlevel ?_
    have : 0 ≤ (height t.forest : ℚ) * B := mul_nonneg (by linarith) hB
    linarith
  · exact Props.capped_start hB (fun j hj => by have := hpn j hj; linarith) (le_refl _)

/-- What the loop preserves. -/
structure CRun (t : RecipeTree) (cats0 : List AgentCategory) (B : ℚ) (cats : List AgentCategory) (v : SimultaneousAscendingPriceVectors)
    (s : ℚ) : Prop where
  nonpos : s ≤ 0
  running : s < 0 → CInv t (valuesAt cats0) B (sizeAt cats) (priceAt v) s ∧ Rational cats v ∧ ∀ i, priceAt v i ≤ MAX_VALUE
  stopped : s = 0 → ∃ R p, (∀ i, R i ≤ sizeAt cats i) ∧ CInv t (valuesAt cats0) B R p 0

theorem crun_next {t : RecipeTree} {n : ℕ} (ht : TreeOn t n) {B : ℚ} (hB : 0 ≤ B)
    (hM : 3 * height t.forest * B < MAX_VALUE) {cats0 cats cats' : List AgentCategory}
    (hd : Distinct (valuesAt cats0) t.forest) (hmax : ∀ i, ∀ x ∈ valuesAt cats0 i, x ≤ MAX_VALUE)
    {v v' : SimultaneousAscendingPriceVectors} {s d : ℚ} (h : TInv t n cats0 cats v s)
    (hs : s < 0) (hc : CRun t cats0 B cats v s) (hsd : s + d < 0) (h' : TInv t n cats0 cats' v' (s + d))
    (hn : NextState t cats v cats' v' d) : CRun t cats0 B cats' v' (s + d) := by
  obtain ⟨h1, h2, h3⟩ := hc.running hs
  have hd0 := nextState_nonneg h2 h3 hn
  refine ⟨hsd.le, fun _ => ⟨?_, rational_next h h2 hn, ?_⟩, fun e => by linarith⟩
  · refine cinv_raise ht hB hM hd h h1 hd0 hn.le hn.price h'.fits ?_
    intro i; rw [sizeAt_eq, hn.values]
  · intro i
    rw [hn.price]
    by_cases hi : i ∈ cutOf t cats
    · rw [if_pos hi]
      exact (hn.le i hi).trans (target_le_max (fun x hx => hmax i x (mem_valuesAt_of_pre (h.pre i) hx)))
    · rw [if_neg hi, add_zero]; exact h3 i

theorem crun_stop {t : RecipeTree} {n : ℕ} (ht : TreeOn t n) {B : ℚ} (hB : 0 ≤ B)
    (hM : 3 * height t.forest * B < MAX_VALUE) {cats0 cats : List AgentCategory}
    (hd : Distinct (valuesAt cats0) t.forest)
    {v v' : SimultaneousAscendingPriceVectors} {s d : ℚ} (h : TInv t n cats0 cats v s)
    (hs : s < 0) (hc : CRun t cats0 B cats v s) (h' : TInv t n cats0 cats v' 0)
    (hdt : ∀ i ∈ cutOf t cats, d ≤ target cats i - priceAt v i) (hsd : -s ≤ d)
    (hp : ∀ j, priceAt v' j = priceAt v j + if j ∈ cutOf t cats then -s else 0) : CRun t cats0 B cats v' 0 := by
  obtain ⟨h1, h2, h3⟩ := hc.running hs
  refine ⟨le_refl _, fun e => absurd e (lt_irrefl _), fun _ => ?_⟩
  refine ⟨fun i => (afterRemoval (valuesAt cats i) (priceAt v' i)).length, priceAt v', ?_, ?_⟩
  · intro i
    obtain ⟨k, hk⟩ := afterRemoval_take (valuesAt cats i) (priceAt v' i)
    simp only [sizeAt_eq, hk, List.length_take]; omega
  · exact cinv_raise ht hB hM hd h h1 (by linarith) (fun i hi => by have := hdt i hi; linarith) hp h'.fits (fun i => rfl)

/-- At the end every category has at most one agent less than the optimal trade uses. -/
theorem crun_end {t : RecipeTree} {n : ℕ} (ht : TreeOn t n) {B : ℚ} (hB : 0 ≤ B)
    (hM : 3 * height t.forest * B < MAX_VALUE) {cats0 cats : List AgentCategory}
    (hd : Distinct (valuesAt cats0) t.forest) {v : SimultaneousAscendingPriceVectors} {s : ℚ} (hc : CRun t cats0 B cats v s)
    (he : s = 0 ∨ sizeAt cats t.index = 0) :
    ∀ x ∈ nodes t.forest, (agentsOf x ((treeDeals (valuesAt cats0) t.forest).filter (fun d => treeGain d ≥ 0)).flatten).length
      ≤ sizeAt cats x + 1 := by
  have hnd := forest_nodup ht
  have hL0 : (0 : ℚ) ≤ height t.forest := by positivity
  have hLB : 0 ≤ (height t.forest : ℚ) * B := mul_nonneg hL0 hB
  rcases eq_or_lt_of_le hc.nonpos with h0 | hneg
  · obtain ⟨R, p, h1, h2⟩ := hc.stopped h0
    intro x hx
    have := through_le hB hnd hd h2.set h2.level h2.clocked h2.capped (a := -MAX_VALUE + 2 * height t.forest * B) (le_refl _)
      (by linarith) (by linarith) (by linarith) x hx
    have h3 := h1 x
    simp only [ge_iff_le]
    omega
  · have hroot : sizeAt cats t.index = 0 := he.resolve_left (by intro h; linarith)
    obtain ⟨h1, -, -⟩ := hc.running hneg
    have hr0 : t.forest.rootSizes (sizeAt cats) = 0 := by
      rw [RecipeTree.forest, Forest.rootSizes, hroot]; rfl
    have hnone : ∀ y ∈ t.forest.combinedValues (valuesAt cats0), y < 0 := by
      by_cases hq : s ≤ -MAX_VALUE + 2 * height t.forest * B
      · rw [no_deals hB h1.set h1.level h1.clocked (a := -MAX_VALUE + 2 * height t.forest * B) (by linarith) hr0 hq]
        simp
      · push Not at hq
        have hcount := count_above hB h1.set h1.level h1.clocked h1.capped (a := -MAX_VALUE + 2 * height t.forest * B) (le_refl _)
          (by linarith) (by linarith) hq
        rw [hr0, List.countP_eq_zero] at hcount
        intro y hy
        have := hcount y hy
        simp only [decide_eq_true_eq, not_lt] at this
        linarith
    have hempty : (treeDeals (valuesAt cats0) t.forest).filter (fun d => treeGain d ≥ 0) = [] := by
      rw [List.filter_eq_nil_iff]
      intro d hd
      have := hnone (treeGain d) (by rw [combinedValues_eq]; exact List.mem_map_of_mem hd)
      simp only [ge_iff_le, decide_eq_true_eq, not_le]; exact this
    intro x _
    rw [hempty]; simp [agentsOf]

end Auctions
