import Verif.Spec.Units
import Verif.Proofs.AscendingOutcome
import Verif.Proofs.McAfee
import Mathlib.Algebra.Order.BigOperators.Group.Finset

set_option autoImplicit false

/-! # Helper lemmas: another currency, and fees that cancel out -/

namespace Auctions

open Spec

variable {c : ℚ} {b : ℕ → ℚ}

theorem changed_length (cats : List AgentCategory) : (changed c b cats).length = cats.length := by simp [changed]

theorem changed_get {cats : List AgentCategory} {i : ℕ} (h : i < cats.length) :
    (changed c b cats)[i]'(by rw [changed_length]; exact h) = ⟨cats[i].name, cats[i].values.map (fun x => c * x + b i)⟩ := by
  simp [changed]

theorem vAt_changed (cats : List AgentCategory) (i : ℕ) : vAt (changed c b cats) i = (vAt cats i).map (fun x => c * x + b i) := by
  by_cases h : i < cats.length
  · rw [vAt_eq_getElem (by rw [changed_length]; exact h), vAt_eq_getElem h, changed_get h]
  · rw [vAt_of_ge (by rw [changed_length]; omega), vAt_of_ge (by omega)]; rfl

theorem sortDesc_map {f : ℚ → ℚ} (hf : Monotone f) (l : List ℚ) : sortDesc (l.map f) = (sortDesc l).map f := by
  refine eq_of_perm_of_sorted ?_ (sortDesc_sorted _) ?_
  · exact (sortDesc_perm _).trans ((sortDesc_perm l).symm.map f)
  · have := sortDesc_sorted l
    unfold SortedDesc at this ⊢
    rw [List.pairwise_map]
    exact this.imp (fun h => hf h)

theorem changed_mono (hc : 0 < c) (i : ℕ) : Monotone (fun x : ℚ => c * x + b i) := by
  intro x y h
  have : c * x ≤ c * y := mul_le_mul_of_nonneg_left h hc.le
  simp only; linarith

theorem sorted_changed (hc : 0 < c) (m : Market) : Market.sorted ⟨changed c b m.categories⟩ = changed c b m.sorted := by
  apply List.ext_getElem
  · simp [Market.sorted, changed]
  · intro i h1 h2
    simp only [Market.sorted, List.getElem_map]
    have hi : i < m.categories.length := by simpa [Market.sorted, changed] using h1
    rw [changed_get hi, changed_get (by simpa using hi)]
    simp only [AgentCategory.clone, AgentCategory.init, List.getElem_map]
    rw [sortDesc_map (changed_mono hc i)]

theorem changed_mk (cs : List AgentCategory) (s : ℕ → ℕ) : (Ascending.mkMarket (changed c b cs) s).categories = changed c b (Ascending.mkMarket cs s).categories := by
  apply List.ext_getElem
  · simp [Ascending.mkMarket, changed]
  · intro i h1 h2; simp [Ascending.mkMarket, changed]

theorem avail_changed {cs : List AgentCategory} {r : List ℕ} {j : ℕ} : Avail (changed c b cs) r j ↔ Avail cs r j := by
  unfold Avail
  simp only [changed_length, vAt_changed, List.length_map]

theorem seg_changed (V : List ℚ) (r j i : ℕ) : seg (V.map (fun x => c * x + b i)) r j = (seg V r j).map (fun x => c * x + b i) := by
  simp [seg]

theorem sum_changed (l : List ℚ) (e : ℚ) : (l.map (fun x => c * x + e)).sum = c * l.sum + l.length * e := by
  induction l with
  | nil => simp
  | cons x l ih => simp only [List.map_cons, List.sum_cons, ih, List.length_cons]; push_cast; ring

/-- The gain of a procurement-set is multiplied by `c`. -/
theorem blk_changed {cs : List AgentCategory} {r : List ℕ} (h : r.length = cs.length) (hb : CancelOut r b) {j : ℕ} (hav : Avail cs r j) :
    (blk (changed c b cs) r j).sum = c * (blk cs r j).sum := by
  rw [blk_sum (by rw [changed_length]; exact h), blk_sum h, changed_length, Finset.mul_sum]
  have : ∀ i ∈ Finset.range cs.length, (seg (vAt (changed c b cs) i) (rAt r i) j).sum = c * (seg (vAt cs i) (rAt r i) j).sum + (r.getD i 0 : ℚ) * b i := by
    intro i hi
    rw [vAt_changed, seg_changed, sum_changed, seg_length (hav i (Finset.mem_range.1 hi))]; rfl
  rw [Finset.sum_congr rfl this, Finset.sum_add_distrib]
  unfold CancelOut at hb
  rw [h] at hb
  rw [hb, add_zero]

theorem good_mul (hc : 0 < c) (z : Bool) (g : ℚ) : Good z (c * g) ↔ Good z g := by
  unfold Good
  have h1 : c * g < 0 ↔ g < 0 := by constructor <;> intro h <;> nlinarith
  have h2 : c * g = 0 ↔ g = 0 := by simp [hc.ne']
  rw [h1, h2]

theorem greedy_changed (hc : 0 < c) {m : Market} {r : List ℕ} (h : r.length = m.numCategories) (hb : CancelOut r b) {N : ℕ} {z : Bool} {k : ℕ} (hk : GreedyStop m r N z k) :
    GreedyStop ⟨changed c b m.categories⟩ r N z k := by
  have h' : r.length = m.sorted.length := by rw [m.sorted_length]; exact h
  refine ⟨hk.le_max, ?_, ?_⟩
  · intro t ht
    obtain ⟨h1, h2⟩ := hk.taken t ht
    rw [sorted_changed hc, avail_changed, blk_changed h' hb h1, good_mul hc]
    exact ⟨h1, h2⟩
  · intro hlt
    rw [sorted_changed hc, avail_changed]
    by_cases h1 : Avail m.sorted r k
    · rw [blk_changed h' hb h1, good_mul hc]
      exact hk.stop hlt
    · exact Or.inl h1

theorem dropBlocks_changed {cs : List AgentCategory} {r : List ℕ} (h : r.length = cs.length) (k : ℕ) : dropBlocks (changed c b cs) r k = changed c b (dropBlocks cs r k) := by
  suffices H : ∀ (d : ℕ), dropBlocks (changed c (fun i => b (i + d)) cs) r k = changed c (fun i => b (i + d)) (dropBlocks cs r k) from H 0
  induction cs generalizing r with
  | nil => intro d; cases r <;> simp [dropBlocks, changed]
  | cons c' cs ih =>
    intro d
    cases r with
    | nil => simp at h
    | cons a r =>
      have hch : ∀ (x : AgentCategory) (xs : List AgentCategory), changed c (fun i => b (i + d)) (x :: xs) = ⟨x.name, x.values.map (fun y => c * y + b (0 + d))⟩ :: changed c (fun i => b (i + (d + 1))) xs := by
        intro x xs
        unfold changed
        rw [List.mapIdx_cons]
        congr 1
        refine congrFun (congrArg _ ?_) _
        funext i y
        show (⟨y.name, y.values.map (fun x => c * x + b (i + 1 + d))⟩ : AgentCategory) = ⟨y.name, y.values.map (fun x => c * x + b (i + (d + 1)))⟩
        rw [show i + 1 + d = i + (d + 1) by omega]
      rw [hch]
      simp only [dropBlocks]
      rw [hch, ih (by simpa using h)]
      simp

/-! ## The ascending auction -/

namespace Ascending

theorem clock_changed {V : List ℚ} {s : ℕ} (e : ℚ) (h : s < V.length) : clock (V.map (fun x => c * x + e)) s = c * clock V s + e := by
  unfold clock
  simp [List.getD_eq_getElem?_getD, h]

theorem clock_out {V : List ℚ} {s : ℕ} (h : V.length ≤ s) : clock V s = -MAX_VALUE := by
  unfold clock
  simp [List.getD_eq_getElem?_getD, List.getElem?_eq_none h]

/-- A weighted sum in which a used entry is `-MAX_VALUE` and the others are at most `bound` is negative. -/
theorem dummy_sum_neg {n : ℕ} {r : List ℕ} (hr : r.length = n) {bound : ℚ} (h0 : 0 ≤ bound) (h1 : bound * r.sum < MAX_VALUE) {w : ℕ → ℚ} (hw : ∀ i < n, w i ≤ bound)
    {j : ℕ} (hj : j < n) (hrj : 0 < rAt r j) (hwj : w j ≤ -MAX_VALUE) : ∑ i ∈ Finset.range n, (rAt r i : ℚ) * w i < 0 := by
  have hM : (0 : ℚ) < MAX_VALUE := by norm_num [MAX_VALUE]
  have hsum : (∑ i ∈ Finset.range n, (rAt r i : ℚ)) = r.sum := by
    have : (∑ i ∈ Finset.range n, rAt r i) = r.sum := by
      subst hr
      clear h1 hw hj hrj hwj
      induction r with
      | nil => simp
      | cons a r ih =>
        rw [List.length_cons, Finset.sum_range_succ']
        simp only [rAt_cons_succ, rAt_cons_zero, ih, List.sum_cons]; omega
    exact_mod_cast this
  have hrj1 : (1 : ℚ) ≤ rAt r j := by exact_mod_cast hrj
  have h2 : ∑ i ∈ Finset.range n, (rAt r i : ℚ) * w i ≤ ∑ i ∈ Finset.range n, ((rAt r i : ℚ) * bound + if i = j then -MAX_VALUE else 0) := by
    refine Finset.sum_le_sum fun i hi => ?_
    by_cases hij : i = j
    · subst hij
      rw [if_pos rfl]
      have e1 : (rAt r i : ℚ) * w i ≤ (rAt r i : ℚ) * -MAX_VALUE := mul_le_mul_of_nonneg_left hwj (by positivity)
      have e2 : (0 : ℚ) ≤ (rAt r i : ℚ) * bound := by positivity
      nlinarith
    · rw [if_neg hij, add_zero]
      exact mul_le_mul_of_nonneg_left (hw i (Finset.mem_range.1 hi)) (by positivity)
  rw [Finset.sum_add_distrib, ← Finset.sum_mul, hsum, Finset.sum_ite_eq', if_pos (Finset.mem_range.2 hj)] at h2
  nlinarith

/-- All values are moderate. -/
def Mod (cs : List AgentCategory) (r : List ℕ) (bound : ℚ) : Prop := 0 ≤ bound ∧ bound * r.sum < MAX_VALUE ∧ ∀ i, ∀ x ∈ vAt cs i, -MAX_VALUE ≤ x ∧ x ≤ bound

theorem mod_of_moderate {m : Market} {r : List ℕ} {bound : ℚ} (h : Moderate m r bound) : Mod m.sorted r bound := by
  refine ⟨h.nonneg, h.small, fun i x hx => ?_⟩
  rw [vAt_sorted, mem_sortDesc] at hx
  by_cases hi : i < m.categories.length
  · rw [vAt_eq_getElem hi] at hx
    exact h.values _ (List.mem_map.2 ⟨_, List.getElem_mem hi, rfl⟩) x hx
  · rw [vAt_of_ge (by omega)] at hx; simp at hx

theorem Mod.clock_le {cs : List AgentCategory} {r : List ℕ} {bound : ℚ} (h : Mod cs r bound) (i s : ℕ) : clock (vAt cs i) s ≤ bound := by
  by_cases hs : s < (vAt cs i).length
  · refine (h.2.2 i _ ?_).2
    unfold clock
    simp only [List.getD_eq_getElem?_getD, List.getElem?_eq_getElem hs, Option.getD_some]
    exact List.getElem_mem hs
  · rw [clock_out (by omega)]
    have : (0 : ℚ) < MAX_VALUE := by norm_num [MAX_VALUE]
    have := h.1
    linarith

/-- Either the clocks of all used categories run, or the sum is negative. -/
theorem clockSum_dummy {cs : List AgentCategory} {r : List ℕ} (h : r.length = cs.length) {bound : ℚ} (hm : Mod cs r bound) {s : ℕ → ℕ} {j : ℕ} (hj : j < cs.length)
    (hrj : 0 < rAt r j) (hs : (vAt cs j).length ≤ s j) : clockSum cs r s < 0 := by
  rw [clockSum_eq h]
  exact dummy_sum_neg h hm.1 hm.2.1 (fun i _ => hm.clock_le i _) hj hrj (le_of_eq (clock_out hs))

theorem clockSum_changed {cs : List AgentCategory} {r : List ℕ} (h : r.length = cs.length) (hb : CancelOut r b) {s : ℕ → ℕ}
    (hs : ∀ i < cs.length, 0 < rAt r i → s i < (vAt cs i).length) : clockSum (changed c b cs) r s = c * clockSum cs r s := by
  rw [clockSum_eq (by rw [changed_length]; exact h), clockSum_eq h, changed_length, Finset.mul_sum]
  have : ∀ i ∈ Finset.range cs.length, (rAt r i : ℚ) * clock (vAt (changed c b cs) i) (s i) = c * ((rAt r i : ℚ) * clock (vAt cs i) (s i)) + (r.getD i 0 : ℚ) * b i := by
    intro i hi
    rcases Nat.eq_zero_or_pos (rAt r i) with h0 | h0
    · have : r.getD i 0 = 0 := h0
      rw [h0, this]; simp
    · rw [vAt_changed, clock_changed _ (hs i (Finset.mem_range.1 hi) h0)]
      have : (r.getD i 0 : ℚ) = rAt r i := rfl
      rw [this]; ring
  rw [Finset.sum_congr rfl this, Finset.sum_add_distrib]
  unfold CancelOut at hb
  rw [h] at hb
  rw [hb, add_zero]

/-- The sums have the same sign. -/
theorem clockSum_sign (hc : 0 < c) {cs : List AgentCategory} {r : List ℕ} (h : r.length = cs.length) (hb : CancelOut r b) {bound bound' : ℚ} (hm : Mod cs r bound)
    (hm' : Mod (changed c b cs) r bound') (s : ℕ → ℕ) : clockSum (changed c b cs) r s < 0 ↔ clockSum cs r s < 0 := by
  by_cases hs : ∀ i < cs.length, 0 < rAt r i → s i < (vAt cs i).length
  · rw [clockSum_changed h hb hs]
    constructor <;> intro hh <;> nlinarith
  · push Not at hs
    obtain ⟨j, hj, hrj, hsj⟩ := hs
    refine iff_of_true (clockSum_dummy (by rw [changed_length]; exact h) hm' (by rw [changed_length]; exact hj) hrj ?_) (clockSum_dummy h hm hj hrj hsj)
    rw [vAt_changed, List.length_map]; exact hsj

theorem rel_changed (cs : List AgentCategory) (r : List ℕ) : rel (changed c b cs) r = rel cs r := by
  unfold rel relevantCategoryIndices
  simp [Market.numCategories, changed_length]

theorem path_changed (hc : 0 < c) {cs : List AgentCategory} {r : List ℕ} (h : r.length = cs.length) (hb : CancelOut r b) {bound bound' : ℚ} (hm : Mod cs r bound)
    (hm' : Mod (changed c b cs) r bound') {n : ℕ} {s : ℕ → ℕ} (hp : Path cs r n s) : Path (changed c b cs) r n s := by
  induction hp with
  | start =>
    have : (fun i => (vAt cs i).length) = fun i => (vAt (changed c b cs) i).length := by
      funext i; rw [vAt_changed, List.length_map]
    rw [this]; exact Path.start
  | step hp h1 h2 h3 ih =>
    refine Path.step ih ?_ h2 ((clockSum_sign hc h hb hm hm' _).2 h3)
    rw [rel_changed]; exact h1

theorem ending_changed (hc : 0 < c) {cs : List AgentCategory} {r : List ℕ} (h : r.length = cs.length) (hb : CancelOut r b) {bound bound' : ℚ} (hm : Mod cs r bound)
    (hm' : Mod (changed c b cs) r bound') {s : ℕ → ℕ} {p : List ℚ} (hne : rel cs r ≠ []) (he : Ending cs r s p) :
    ∃ p', Ending (changed c b cs) r s p' ∧ ∀ i < cs.length, 0 < rAt r i → vAt cs i ≠ [] → p'.getD i 0 = c * p.getD i 0 + b i := by
  obtain ⟨i0, h1, h2⟩ := he
  have h1' : mainOf r (rel (changed c b cs) r) s = .ok i0 := by rw [rel_changed]; exact h1
  obtain ⟨i1, g1, g2, g3⟩ := mainOf_spec hne s
  rw [h1] at g1
  cases g1
  have hi0 := relevant_mem.1 g2
  rcases h2 with ⟨h2, rfl⟩ | ⟨h2, h3, rfl⟩
  · refine ⟨_, ⟨i0, h1', Or.inl ⟨h2, rfl⟩⟩, fun i hi hri hne' => ?_⟩
    have hsi : s i = 0 := by
      have := g3 i (relevant_mem.2 ⟨hi, hri⟩)
      rw [h2, Nat.zero_mul, Nat.le_zero, Nat.mul_eq_zero] at this
      omega
    rw [mkPrices_getD (by rw [changed_length]; exact hi), mkPrices_getD hi, vAt_changed, hsi]
    exact clock_changed _ (List.length_pos_iff.2 hne')
  · have h3' : 0 ≤ clockSum (changed c b cs) r (Function.update s i0 (s i0 - 1)) := by
      by_contra hlt
      exact absurd ((clockSum_sign hc h hb hm hm' _).1 (not_le.1 hlt)) (not_lt.2 h3)
    have hrun : ∀ i < cs.length, 0 < rAt r i → i ≠ i0 → s i < (vAt cs i).length := by
      intro i hi hri hne'
      by_contra hge
      have := clockSum_dummy h hm (s := Function.update s i0 (s i0 - 1)) hi hri (by rw [Function.update_of_ne hne']; omega)
      linarith
    have hr0 : (rAt r i0 : ℚ) ≠ 0 := by exact_mod_cast hi0.2.ne'
    refine ⟨_, ⟨i0, h1', Or.inr ⟨h2, h3', rfl⟩⟩, fun i hi hri hne' => ?_⟩
    by_cases hii : i = i0
    · subst hii
      have hl : i < (mkPrices cs s).length := by rw [mkPrices_length]; exact hi
      have hl' : i < (mkPrices (changed c b cs) s).length := by rw [mkPrices_length, changed_length]; exact hi
      simp only [List.getD_eq_getElem?_getD, List.getElem?_set_self hl, List.getElem?_set_self hl', Option.getD_some]
      unfold balPrice
      have hother : ∀ (cs : List AgentCategory), r.length = cs.length → i < cs.length →
          clockSum cs r s - rAt r i * clock (vAt cs i) (s i) = ∑ l ∈ (Finset.range cs.length).erase i, (rAt r l : ℚ) * clock (vAt cs l) (s l) := by
        intro cs h hi
        rw [clockSum_eq h, ← Finset.add_sum_erase _ _ (Finset.mem_range.2 hi)]; ring
      rw [hother cs h hi, hother _ (by rw [changed_length]; exact h) (by rw [changed_length]; exact hi), changed_length]
      have e1 : ∀ l ∈ (Finset.range cs.length).erase i, (rAt r l : ℚ) * clock (vAt (changed c b cs) l) (s l)
          = c * ((rAt r l : ℚ) * clock (vAt cs l) (s l)) + (rAt r l : ℚ) * b l := by
        intro l hl
        obtain ⟨hl1, hl2⟩ := Finset.mem_erase.1 hl
        rcases Nat.eq_zero_or_pos (rAt r l) with h0 | h0
        · rw [h0]; simp
        · rw [vAt_changed, clock_changed _ (hrun l (Finset.mem_range.1 hl2) h0 hl1)]; ring
      rw [Finset.sum_congr rfl e1, Finset.sum_add_distrib, ← Finset.mul_sum]
      have e2 : ∑ l ∈ (Finset.range cs.length).erase i, (rAt r l : ℚ) * b l = -(rAt r i * b i) := by
        unfold CancelOut at hb
        rw [h] at hb
        have := Finset.add_sum_erase (Finset.range cs.length) (fun l => (rAt r l : ℚ) * b l) (Finset.mem_range.2 hi)
        have e3 : ∑ l ∈ Finset.range cs.length, (rAt r l : ℚ) * b l = 0 := hb
        rw [e3] at this
        linarith
      rw [e2]
      field_simp
      ring
    · simp only [List.getD_eq_getElem?_getD, List.getElem?_set_ne (Ne.symm hii)]
      have e1 := mkPrices_getD (cs := cs) (s := s) hi
      have e2 := mkPrices_getD (cs := changed c b cs) (s := s) (i := i) (by rw [changed_length]; exact hi)
      rw [List.getD_eq_getElem?_getD] at e1 e2
      rw [e1, e2, vAt_changed]
      exact clock_changed _ (hrun i hi hri hii)

end Ascending

end Auctions
