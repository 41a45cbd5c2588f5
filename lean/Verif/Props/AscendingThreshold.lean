import Verif.Props.Coalition
import Verif.Spec.Threshold

set_option autoImplicit false

/-!
# C84 — the outcome of the single-recipe ascending auction does not depend on what the remaining agents report
-/

namespace Auctions.Props

open Auctions Spec Ascending

/-- Sorted lists with the same highest number begin with it. -/
theorem head_eq {L D : List ℚ} (hL : SortedDesc L) (hD : SortedDesc D) (h : SameHighest L D) (d : ℚ) : L.getD 0 d = D.getD 0 d := by
  cases L with
  | nil =>
    cases D with
    | nil => rfl
    | cons y D => obtain ⟨x, hx, -⟩ := h.2 y (by simp); simp at hx
  | cons x L =>
    cases D with
    | nil => obtain ⟨y, hy, -⟩ := h.1 x (by simp); simp at hy
    | cons y D =>
      simp only [List.getD_cons_zero]
      have hx : ∀ z ∈ x :: L, z ≤ x := by
        intro z hz
        rcases List.mem_cons.1 hz with rfl | hz
        · exact le_refl _
        · exact (List.pairwise_cons.1 hL).1 z hz
      have hy : ∀ z ∈ y :: D, z ≤ y := by
        intro z hz
        rcases List.mem_cons.1 hz with rfl | hz
        · exact le_refl _
        · exact (List.pairwise_cons.1 hD).1 z hz
      obtain ⟨z, hz, h1⟩ := h.1 x (by simp)
      obtain ⟨w, hw, h2⟩ := h.2 y (by simp)
      exact le_antisymm (le_trans h1 (hy z hz)) (le_trans h2 (hx w hw))

theorem clock_eq_head (V : List ℚ) (s : ℕ) : clock V s = (V.drop s).getD 0 (-MAX_VALUE) := by
  simp [clock, List.getD_eq_getElem?_getD]

theorem clock_pred {V : List ℚ} (hV : SortedDesc V) (hb : ∀ v ∈ V, -MAX_VALUE ≤ v) (s : ℕ) : clock V s ≤ clock V (s - 1) := by
  by_cases h1 : s - 1 < V.length
  · rw [clock_of_lt h1]
    by_cases h2 : s < V.length
    · rw [clock_of_lt h2]
      exact hV.getElem_ge (by omega) (by omega)
    · rw [clock_of_ge (by omega)]
      exact hb _ (List.getElem_mem _)
  · rw [clock_of_ge (by omega), clock_of_ge (by omega)]

/-- The states on the way to a state are determined by the sizes, if the prices at the end are below balance. -/
theorem path_of_sizes {cs ct : List AgentCategory} {r : List ℕ} (h : r.length = cs.length) (hl : ct.length = cs.length)
    (hsz : ∀ j, (vAt ct j).length = (vAt cs j).length) (hs : ∀ j, SortedDesc (vAt ct j)) (hb : ∀ j, ∀ v ∈ vAt ct j, -MAX_VALUE ≤ v) (hne : rel cs r ≠ [])
    {n : ℕ} {s : ℕ → ℕ} (hp : Path cs r n s) : clockSum ct r s < 0 → Path ct r n s := by
  induction hp with
  | start =>
    intro _
    have : (fun i => (vAt cs i).length) = fun i => (vAt ct i).length := by funext i; rw [hsz]
    rw [this]
    exact Path.start
  | @step n s c hp hc h0 hneg ih =>
    intro hneg'
    refine (ih ?_).step (by rw [rel_congr hl]; exact hc) h0 hneg'
    obtain ⟨hcm, -⟩ := mainOf_ok hne hc
    obtain ⟨hcl, hcp⟩ := relevant_mem.1 hcm
    have hcl' : c < cs.length := hcl
    rw [clockSum_update (by omega) (by omega)] at hneg'
    have h1 := clock_pred (hs c) (hb c) (s c)
    have hrc : (0 : ℚ) < rAt r c := by exact_mod_cast hcp
    have := mul_le_mul_of_nonneg_left h1 hrc.le
    linarith

/-- The end of the auction is determined by the sizes and the prices, if the remaining agents are above the prices. -/
theorem ending_of_clocks {mT mB : Market} {r : List ℕ} (hlT : r.length = mT.numCategories) (hlB : r.length = mB.numCategories) (hpos : ∃ x ∈ r, 0 < x)
    {n : ℕ} {s : ℕ → ℕ} {p : List ℚ} (hp : Path mB.sorted r n s) (he : Ending mB.sorted r s p)
    (hsz : ∀ j, (vAt mT.sorted j).length = (vAt mB.sorted j).length) (hclk : ∀ j, clock (vAt mT.sorted j) (s j) = clock (vAt mB.sorted j) (s j))
    (hb : ∀ j, ∀ v ∈ vAt mT.sorted j, -MAX_VALUE ≤ v)
    (htop : ∀ j < mB.sorted.length, ∀ y ∈ (vAt mT.sorted j).take (s j), p.getD j 0 ≤ y) :
    Path mT.sorted r n s ∧ Ending mT.sorted r s p := by
  have hlT' : r.length = mT.sorted.length := by rw [mT.sorted_length]; exact hlT
  have hlB' : r.length = mB.sorted.length := by rw [mB.sorted_length]; exact hlB
  have hneB := rel_ne_nil hlB hpos
  have hcl : mT.sorted.length = mB.sorted.length := by omega
  have hinv := (hp.inv hlB' hneB).1
  have hprices : mkPrices mT.sorted s = mkPrices mB.sorted s := by
    unfold mkPrices; rw [hcl]; simp only [hclk]
  have hsum : clockSum mT.sorted r s = clockSum mB.sorted r s := by unfold clockSum; rw [hprices]
  have hbalp : ∀ c, balPrice mT.sorted r s c = balPrice mB.sorted r s c := by
    intro c; unfold balPrice; rw [hsum, hclk]
  refine ⟨path_of_sizes hlB' hcl hsz (sorted_vAt mT) hb hneB hp (by rw [hsum]; exact hinv.neg), ?_⟩
  obtain ⟨c, hc, hend⟩ := he
  refine ⟨c, by rw [rel_congr hcl]; exact hc, ?_⟩
  obtain ⟨hcm, harg⟩ := mainOf_ok hneB hc
  obtain ⟨hcl', hcp⟩ := relevant_mem.1 hcm
  rcases hend with ⟨h0, hpe⟩ | ⟨h0, hge, hpe⟩
  · exact Or.inl ⟨h0, by rw [hprices]; exact hpe⟩
  · refine Or.inr ⟨h0, ?_, by rw [hprices, hbalp]; exact hpe⟩
    have hpc : p.getD c 0 = balPrice mB.sorted r s c := by
      rw [hpe]; simp [mkPrices_length, hcl']
    have hrc : (0 : ℚ) < rAt r c := by exact_mod_cast hcp
    have hlt : s c - 1 < (vAt mT.sorted c).length := by rw [hsz]; have := hinv.le c; omega
    have htarget : p.getD c 0 ≤ clock (vAt mT.sorted c) (s c - 1) := by
      rw [clock_of_lt hlt]
      exact htop c hcl' _ (by rw [List.mem_take_iff_getElem]; exact ⟨s c - 1, by omega, rfl⟩)
    rw [clockSum_update hlT' (by omega), hsum, hclk]
    have hbal : clockSum mB.sorted r s - rAt r c * clock (vAt mB.sorted c) (s c) + rAt r c * p.getD c 0 = 0 := by
      rw [hpc]; unfold balPrice
      field_simp
      ring
    have := mul_le_mul_of_nonneg_left htarget hrc.le
    linarith

/-- **C84**. The prices, the number of deals and who remains depend only on the number of remaining agents and the highest report among those that left, in each category: not
on what the remaining agents report, as long as it is at least the price, and not on the other reports of those that left. -/
theorem ascending_thresholds {m m' : Market} {r : List ℕ} {f₁ N₁ f₂ N₂ : ℕ} {t t' : TradeWithSinglePrice} {W L : ℕ → List ℚ}
    (h : auction m r f₁ N₁ = .ok (some t)) (h' : auction m' r f₂ N₂ = .ok (some t')) (hs : SameThresholds m m' t W L)
    (hb : ∀ vs ∈ m'.valueLists, ∀ v ∈ vs, -MAX_VALUE ≤ v) :
    t'.prices = t.prices ∧ t'.numOfDeals = t.numOfDeals ∧ ∀ j < m.numCategories, (singleRemaining t' j).Perm (W j) := by
  obtain ⟨hlT, hcatT, hpos⟩ := auction_ok_inv h'
  obtain ⟨hlB, hcatB, -⟩ := auction_ok_inv h
  have hlT' : r.length = m'.sorted.length := by rw [m'.sorted_length]; exact hlT
  have hlB' : r.length = m.sorted.length := by rw [m.sorted_length]; exact hlB
  have hneB := rel_ne_nil hlB hpos
  have hcl : m'.sorted.length = m.sorted.length := by omega
  obtain ⟨n₁, hmono⟩ := auction_mono h'
  obtain ⟨n, s, p, d, hp, he, rfl, hdle, hdmax⟩ := outcome_of_ok h
  have hinv := (hp.inv hlB' hneB).1
  have hbT : ∀ j, ∀ v ∈ vAt m'.sorted j, -MAX_VALUE ≤ v := by
    intro j v hv
    rw [vAt_sorted, mem_sortDesc] at hv
    have hv' : v ∈ m'.valueLists.getD j [] := hv
    by_cases hj : j < m'.valueLists.length
    · refine hb (m'.valueLists.getD j []) ?_ v hv'
      simp [List.getD_eq_getElem?_getD, List.getElem?_eq_getElem hj]
    · simp [List.getD_eq_getElem?_getD, List.getElem?_eq_none (show m'.valueLists.length ≤ j by omega)] at hv'
  -- the sorted lists of the second market
  have key : ∀ j < m.numCategories, (vAt m'.sorted j).take (s j) = sortDesc (W j) ∧ (vAt m'.sorted j).drop (s j) = sortDesc (L j) ∧
      (vAt m'.sorted j).length = (vAt m.sorted j).length ∧ clock (vAt m'.sorted j) (s j) = clock (vAt m.sorted j) (s j) ∧
      ∀ y ∈ (vAt m'.sorted j).take (s j), p.getD j 0 ≤ y := by
    intro j hj
    obtain ⟨h1, h2, h3, D, h4, h5, h6⟩ := hs j hj
    rw [(single_outcome m.sorted s r p d j).1] at h2 h4
    rw [(single_outcome m.sorted s r p d j).2.1] at h3
    have hsj := hinv.le j
    have hD : D.Perm ((vAt m.sorted j).drop (s j)) := by
      have h7 : (m.valueLists.getD j []).Perm ((vAt m.sorted j).take (s j) ++ (vAt m.sorted j).drop (s j)) := by
        rw [List.take_append_drop, vAt_sorted]
        exact (sortDesc_perm _).symm
      exact (List.perm_append_left_iff _).1 (h4.symm.trans h7)
    have hsep := (separation hlB' hneB (sorted_vAt m) hp he (i := j) (by rw [m.sorted_length]; exact hj)).1
    have hL : ∀ x ∈ L j, x ≤ p.getD j 0 := by
      intro x hx
      obtain ⟨y, hy, hxy⟩ := h6.1 x hx
      exact le_trans hxy (hsep y (hD.mem_iff.1 hy))
    have hsplit : vAt m'.sorted j = sortDesc (W j) ++ sortDesc (L j) := by
      rw [vAt_sorted]
      refine eq_of_perm_of_sorted ?_ (sortDesc_sorted _) ?_
      · exact ((sortDesc_perm _).trans h1).trans ((sortDesc_perm _).symm.append (sortDesc_perm _).symm)
      · refine List.pairwise_append.2 ⟨sortDesc_sorted _, sortDesc_sorted _, fun a ha b hb' => ?_⟩
        exact le_trans (hL b (mem_sortDesc.1 hb')) (h3 a (mem_sortDesc.1 ha))
    have hWl : (sortDesc (W j)).length = s j := by
      rw [sortDesc_length, h2, List.length_take]; omega
    have hdrop : (vAt m'.sorted j).drop (s j) = sortDesc (L j) := by rw [hsplit, ← hWl, List.drop_left]
    have htake : (vAt m'.sorted j).take (s j) = sortDesc (W j) := by rw [hsplit, ← hWl, List.take_left]
    refine ⟨htake, hdrop, ?_, ?_, ?_⟩
    · rw [hsplit, List.length_append, hWl, sortDesc_length, h5, hD.length_eq, List.length_drop]; omega
    · rw [clock_eq_head, clock_eq_head, hdrop]
      refine head_eq (sortDesc_sorted _) (List.Pairwise.sublist (List.drop_sublist _ _) (sorted_vAt m j)) ⟨fun x hx => ?_, fun y hy => ?_⟩ _
      · obtain ⟨y, hy, hxy⟩ := h6.1 x (mem_sortDesc.1 hx)
        exact ⟨y, hD.mem_iff.1 hy, hxy⟩
      · obtain ⟨x, hx, hxy⟩ := h6.2 y (hD.mem_iff.2 hy)
        exact ⟨x, mem_sortDesc.2 hx, hxy⟩
    · intro y hy
      rw [htake] at hy
      exact h3 y (mem_sortDesc.1 hy)
  have hout : ∀ j, ¬ j < m.numCategories → vAt m'.sorted j = [] ∧ vAt m.sorted j = [] := fun j hj =>
    ⟨vAt_of_ge (by rw [hcl, m.sorted_length]; omega), vAt_of_ge (by rw [m.sorted_length]; omega)⟩
  obtain ⟨hpT, heT⟩ := ending_of_clocks hlT hlB hpos hp he
    (fun j => by
      by_cases hj : j < m.numCategories
      · exact (key j hj).2.2.1
      · rw [(hout j hj).1, (hout j hj).2])
    (fun j => by
      by_cases hj : j < m.numCategories
      · exact (key j hj).2.2.2.1
      · rw [(hout j hj).1, (hout j hj).2])
    hbT (fun j hj => (key j (by rw [m.sorted_length] at hj; exact hj)).2.2.2.2)
  obtain ⟨d', hd1, hd2, hd3⟩ := auction_of_ending hlT hcatT hpos hpT heT
  rw [hcl] at hd1 hd2
  obtain rfl : d = d' := le_antisymm (hd2 d hdle) (hdmax d' hd1)
  have hfin := hd3 (max n n₁ + 1) 0 (by omega)
  rw [hmono (max n n₁ + 1) 0 (by omega)] at hfin
  simp only [Except.ok.injEq, Option.some.injEq] at hfin
  subst hfin
  refine ⟨rfl, rfl, fun j hj => ?_⟩
  rw [(single_outcome m'.sorted s r p d j).1, (key j hj).1]
  exact sortDesc_perm _

/-- Non-vacuity of C84: three of five buyers and three of five sellers remain, at the price 5. In the second market all reports differ but the thresholds, 3 and -5. -/
example :
    let m : Market := ⟨[⟨"buyer", [9, 8, 7, 3, 2]⟩, ⟨"seller", [-1, -2, -4, -5, -6]⟩]⟩
    let m' : Market := ⟨[⟨"buyer", [0, 100, 50, 7, 3]⟩, ⟨"seller", [-1/2, -3, -3, -5, -60]⟩]⟩
    let t : TradeWithSinglePrice := ⟨[⟨"buyer", [9, 8, 7]⟩, ⟨"seller", [-1, -2, -4]⟩], [1, 1], some [5, -5], 3⟩
    auction m [1, 1] 30 = .ok (some t) ∧
    auction m' [1, 1] 30 = .ok (some ⟨[⟨"buyer", [100, 50, 7]⟩, ⟨"seller", [-1/2, -3, -3]⟩], [1, 1], some [5, -5], 3⟩) ∧
    SameThresholds m m' t (fun j => [[7, 50, 100], [-3, -3, -1/2]].getD j []) (fun j => [[3, 0], [-60, -5]].getD j []) := by
  refine ⟨by decide +kernel, by decide +kernel, fun j hj => ?_⟩
  match j, hj with
  | 0, _ => exact ⟨by decide +kernel, by decide +kernel, by decide +kernel, [3, 2], by decide +kernel, by decide +kernel, by decide +kernel, by decide +kernel⟩
  | 1, _ => exact ⟨by decide +kernel, by decide +kernel, by decide +kernel, [-5, -6], by decide +kernel, by decide +kernel, by decide +kernel, by decide +kernel⟩
  | j + 2, hj => simp [Market.numCategories] at hj

end Auctions.Props
