import Verif.Props.AscendingTruthful
import Verif.Proofs.Coalition

set_option autoImplicit false

/-!
# C80 — no coalition of agents can make all its members better off: the single-recipe ascending auction
-/

namespace Auctions.Props

open Auctions Spec Ascending

/-- If the same agents leave, and whoever remains in one market remains in the other or is above the price, then the auctions end in the same state. -/
theorem same_ending {mT mB : Market} {r : List ℕ} (hlT : r.length = mT.numCategories) (hlB : r.length = mB.numCategories) (hpos : ∃ x ∈ r, 0 < x)
    {n : ℕ} {s : ℕ → ℕ} {p : List ℚ} (hp : Path mB.sorted r n s) (he : Ending mB.sorted r s p)
    (hsz : ∀ j, (vAt mT.sorted j).length = (vAt mB.sorted j).length) (hdrop : ∀ j, (vAt mT.sorted j).drop (s j) = (vAt mB.sorted j).drop (s j))
    (htop : ∀ j < mB.sorted.length, ∀ y ∈ (vAt mT.sorted j).take (s j), y ∈ (vAt mB.sorted j).take (s j) ∨ p.getD j 0 ≤ y) :
    Path mT.sorted r n s ∧ Ending mT.sorted r s p := by
  have hlT' : r.length = mT.sorted.length := by rw [mT.sorted_length]; exact hlT
  have hlB' : r.length = mB.sorted.length := by rw [mB.sorted_length]; exact hlB
  have hneB := rel_ne_nil hlB hpos
  have hcl : mT.sorted.length = mB.sorted.length := by omega
  have hinv := (hp.inv hlB' hneB).1
  refine ⟨path_congr hlB' hcl hsz hp s (fun j => le_refl _) hdrop, ?_⟩
  have hclk : ∀ j, clock (vAt mT.sorted j) (s j) = clock (vAt mB.sorted j) (s j) :=
    fun j => clock_congr (hdrop j) (le_refl _)
  have hprices : mkPrices mT.sorted s = mkPrices mB.sorted s := by
    unfold mkPrices; rw [hcl]; simp only [hclk]
  have hsum : clockSum mT.sorted r s = clockSum mB.sorted r s := by unfold clockSum; rw [hprices]
  have hbalp : ∀ c, balPrice mT.sorted r s c = balPrice mB.sorted r s c := by
    intro c; unfold balPrice; rw [hsum, hclk]
  obtain ⟨c, hc, hend⟩ := he
  refine ⟨c, by rw [rel_congr hcl]; exact hc, ?_⟩
  obtain ⟨hcm, harg⟩ := mainOf_ok hneB hc
  obtain ⟨hcl', hcp⟩ := relevant_mem.1 hcm
  rcases hend with ⟨h0, hpe⟩ | ⟨h0, hge, hpe⟩
  · exact Or.inl ⟨h0, by rw [hprices]; exact hpe⟩
  · refine Or.inr ⟨h0, ?_, by rw [hprices, hbalp]; exact hpe⟩
    have hpc : p.getD c 0 = balPrice mB.sorted r s c := by
      rw [hpe]; simp [mkPrices_length, hcl']
    have hrc : (0 : ℚ) < rAt r c := by exact_mod_cast hcp
    have hlt : s c - 1 < (vAt mT.sorted c).length := by rw [hsz]; have := hinv.le c; omega
    have htarget : p.getD c 0 ≤ clock (vAt mT.sorted c) (s c - 1) := by
      rw [clock_of_lt hlt]
      have hmemT : (vAt mT.sorted c)[s c - 1] ∈ (vAt mT.sorted c).take (s c) := by
        rw [List.mem_take_iff_getElem]; exact ⟨s c - 1, by omega, rfl⟩
      rcases htop c hcl' _ hmemT with h1 | h1
      · obtain ⟨j, hj, hje⟩ := List.getElem_of_mem h1
        have hle2 : p.getD c 0 ≤ clock (vAt mB.sorted c) (s c - 1) := by
          rw [hpc]
          unfold balPrice
          rw [div_le_iff₀ hrc]
          rw [clockSum_update hlB' hcl'] at hge
          linarith
        refine le_trans hle2 ?_
        rw [clock_of_lt (by rw [← hsz]; exact hlt), ← hje]
        simp only [List.getElem_take]
        simp only [List.length_take] at hj
        apply (sorted_vAt mB c).getElem_ge; omega
      · exact h1
    rw [clockSum_update hlT' (by omega), hsum, hclk]
    have hbal : clockSum mB.sorted r s - rAt r c * clock (vAt mB.sorted c) (s c) + rAt r c * p.getD c 0 = 0 := by
      rw [hpc]; unfold balPrice
      field_simp
      ring
    have := mul_le_mul_of_nonneg_left htarget hrc.le
    linarith

theorem single_outcome (cs : List AgentCategory) (s : ℕ → ℕ) (r : List ℕ) (p : List ℚ) (d i : ℕ) :
    singleRemaining ⟨(mkMarket cs s).categories, r, some p, d⟩ i = (vAt cs i).take (s i) ∧
      singlePrice ⟨(mkMarket cs s).categories, r, some p, d⟩ i = p.getD i 0 ∧
      singleChance ⟨(mkMarket cs s).categories, r, some p, d⟩ i = ((rAt r i * d : ℕ) : ℚ) / ((vAt cs i).take (s i)).length := by
  unfold singleRemaining singlePrice singleChance
  simp only [getD_values, vAt_mkMarket]
  exact ⟨trivial, rfl, rfl⟩

/-- The markets with the true values and with the reports, when everybody stays at a price below the true value. -/
theorem coalition_sorted {m : Market} {C : List Member} {s : ℕ → ℕ} {p : ℕ → ℚ} (hle : ∀ j < m.numCategories, s j ≤ (vAt (withAgents m (reports C)).sorted j).length)
    (hst : ∀ j, ∃ others, others.Subperm (m.valueLists.getD j []) ∧ ((vAt (withAgents m (reports C)).sorted j).take (s j)).Perm (given (reports C) j ++ others))
    (hval : ∀ x ∈ C, p x.category < x.value) (hsep : ∀ j < m.numCategories, ∀ x ∈ (vAt (withAgents m (reports C)).sorted j).drop (s j), x ≤ p j) :
    (∀ j, (vAt (withAgents m (truth C)).sorted j).length = (vAt (withAgents m (reports C)).sorted j).length) ∧
    (∀ j, (vAt (withAgents m (truth C)).sorted j).drop (s j) = (vAt (withAgents m (reports C)).sorted j).drop (s j)) ∧
    (∀ j, ∀ y ∈ (vAt (withAgents m (truth C)).sorted j).take (s j), y ∈ (vAt (withAgents m (reports C)).sorted j).take (s j) ∨ p j ≤ y) ∧
    (∀ x ∈ C, x.category < m.numCategories ∧ (given (truth C) x.category ++ m.valueLists.getD x.category []).Perm
      ((vAt (withAgents m (truth C)).sorted x.category).take (s x.category) ++ (vAt (withAgents m (truth C)).sorted x.category).drop (s x.category))) := by
  have hn : ∀ A, (withAgents m A).sorted.length = m.numCategories := fun A => by rw [Market.sorted_length, withAgents_length]
  have hnil : ∀ A j, ¬ j < m.numCategories → vAt (withAgents m A).sorted j = [] := fun A j hj => vAt_of_ge (by rw [hn]; omega)
  have hlists : ∀ j < m.numCategories, ∃ O, (vAt (withAgents m (truth C)).sorted j).drop (s j) = (vAt (withAgents m (reports C)).sorted j).drop (s j) ∧
      (vAt (withAgents m (truth C)).sorted j).take (s j) = sortDesc (given (truth C) j ++ O) ∧ ∀ y ∈ O, y ∈ (vAt (withAgents m (reports C)).sorted j).take (s j) := by
    intro j hj
    obtain ⟨O, hO1, hO2⟩ := hst j
    have hVB : vAt (withAgents m (reports C)).sorted j = sortDesc (given (reports C) j ++ vAt m.categories j) := by rw [vAt_sorted, vAt_withAgents m _ hj]
    have hVT : vAt (withAgents m (truth C)).sorted j = sortDesc (given (truth C) j ++ vAt m.categories j) := by rw [vAt_sorted, vAt_withAgents m _ hj]
    have hsep := hsep j hj
    have hsj := hle j hj
    have hsub := hO2
    rw [hVB] at hO2 hsep hsj
    rw [sortDesc_length] at hsj
    obtain ⟨h1, h2⟩ := coalition_lists (vs := given (truth C) j) (length_given_truth C j) hsj hO2 (fun v hv' => by
      obtain ⟨x, hx, hxe⟩ := List.mem_map.1 (mem_given.1 hv')
      simp only [Prod.mk.injEq] at hxe
      have := hval x hx
      rw [hxe.1, hxe.2] at this
      exact this.le) hsep
    exact ⟨O, by rw [hVT, hVB, h1], by rw [hVT, h2], fun y hy => hsub.mem_iff.2 (List.mem_append_right _ hy)⟩
  refine ⟨fun j => ?_, fun j => ?_, fun j y hy => ?_, fun x hx => ?_⟩
  · by_cases hj : j < m.numCategories
    · rw [vAt_sorted, vAt_sorted, vAt_withAgents m _ hj, vAt_withAgents m _ hj]
      simp [length_given_truth]
    · rw [hnil _ _ hj, hnil _ _ hj]
  · by_cases hj : j < m.numCategories
    · obtain ⟨O, h1, -, -⟩ := hlists j hj; exact h1
    · rw [hnil _ _ hj, hnil _ _ hj]
  · by_cases hj : j < m.numCategories
    · obtain ⟨O, -, h2, h3⟩ := hlists j hj
      rw [h2, mem_sortDesc, List.mem_append] at hy
      rcases hy with hy | hy
      · obtain ⟨x, hx, hxe⟩ := List.mem_map.1 (mem_given.1 hy)
        simp only [Prod.mk.injEq] at hxe
        have := hval x hx
        rw [hxe.1, hxe.2] at this
        exact Or.inr this.le
      · exact Or.inl (h3 y hy)
    · rw [hnil _ _ hj] at hy; simp at hy
  · have hj : x.category < m.numCategories := by
      by_contra hj
      obtain ⟨O, -, hO⟩ := hst x.category
      rw [hnil _ _ hj] at hO
      have : x.report ∈ given (reports C) x.category := mem_given.2 (List.mem_map.2 ⟨x, hx, rfl⟩)
      have := hO.mem_iff.2 (List.mem_append_left O this)
      simp at this
    refine ⟨hj, ?_⟩
    rw [List.take_append_drop, vAt_sorted, vAt_withAgents m _ hj]
    exact (sortDesc_perm _).symm

/-- If in the ascending auction every member stays at a price below its true value, then with the true values the auction ends in the same state. -/
theorem ascending_same {m : Market} {r : List ℕ} {C : List Member} {f₁ N₁ f₂ N₂ : ℕ} {tT tB : TradeWithSinglePrice}
    (hT : auction (withAgents m (truth C)) r f₁ N₁ = .ok (some tT)) (hB : auction (withAgents m (reports C)) r f₂ N₂ = .ok (some tB))
    (hst : ∀ j, ∃ others, others.Subperm (m.valueLists.getD j []) ∧ (singleRemaining tB j).Perm (given (reports C) j ++ others))
    (hval : ∀ x ∈ C, singlePrice tB x.category < x.value) :
    ∀ x ∈ C, singleChance tT x.category = singleChance tB x.category ∧ singlePrice tT x.category = singlePrice tB x.category ∧
      ∃ D, (given (truth C) x.category ++ m.valueLists.getD x.category []).Perm (singleRemaining tT x.category ++ D) ∧
        ∀ y ∈ D, y ≤ singlePrice tT x.category := by
  obtain ⟨hlT, hcatT, hpos⟩ := auction_ok_inv hT
  have hl : r.length = m.numCategories := by rwa [withAgents_length] at hlT
  obtain ⟨hlB, hcatB, -⟩ := auction_ok_inv hB
  set mT := withAgents m (truth C) with hmT
  set mB := withAgents m (reports C) with hmB
  have hlT' : r.length = mT.sorted.length := by rw [mT.sorted_length]; exact hlT
  have hlB' : r.length = mB.sorted.length := by rw [mB.sorted_length]; exact hlB
  have hneB := rel_ne_nil hlB hpos
  have hcl : mT.sorted.length = mB.sorted.length := by omega
  obtain ⟨n₁, hmono⟩ := auction_mono hT
  obtain ⟨n, s, p, d, hp, he, rfl, hdle, hdmax⟩ := outcome_of_ok hB
  have hinv := (hp.inv hlB' hneB).1
  simp only [fun j => (single_outcome mB.sorted s r p d j).1, fun j => (single_outcome mB.sorted s r p d j).2.1] at hst hval
  obtain ⟨hsz, hdrop, htop, hperm⟩ := coalition_sorted (p := fun j => p.getD j 0) (fun j _ => hinv.le j) hst hval
    (fun j hj => (separation hlB' hneB (sorted_vAt mB) hp he (by omega)).1)
  obtain ⟨hpT, heT⟩ := same_ending hlT hlB hpos hp he hsz hdrop (fun j _ y hy => htop j y hy)
  obtain ⟨d', hd1, hd2, hd3⟩ := auction_of_ending hlT hcatT hpos hpT heT
  rw [hcl] at hd1 hd2
  obtain rfl : d = d' := le_antisymm (hd2 d hdle) (hdmax d' hd1)
  have hfin := hd3 (max n n₁ + 1) 0 (by omega)
  rw [hmono (max n n₁ + 1) 0 (by omega)] at hfin
  simp only [Except.ok.injEq, Option.some.injEq] at hfin
  subst hfin
  intro x hx
  obtain ⟨a1, a2, a3⟩ := single_outcome mT.sorted s r p d x.category
  obtain ⟨b1, b2, b3⟩ := single_outcome mB.sorted s r p d x.category
  rw [a1, a2, a3, b2, b3, List.length_take, List.length_take, hsz]
  refine ⟨rfl, rfl, (vAt mT.sorted x.category).drop (s x.category), (hperm x hx).2, ?_⟩
  rw [hdrop]
  exact (separation hlB' hneB (sorted_vAt mB) hp he (by have := (hperm x hx).1; omega)).1

/-- **C80**. Whatever the other agents report, and whichever agents with whatever true values agree on whatever reports: in the single-recipe ascending auction at least one of them
is not better off than when all of them tell the truth. -/
theorem ascending_coalition {m : Market} {r : List ℕ} {C : List Member} {f₁ N₁ f₂ N₂ : ℕ} {tT tB : TradeWithSinglePrice}
    (hT : auction (withAgents m (truth C)) r f₁ N₁ = .ok (some tT)) (hB : auction (withAgents m (reports C)) r f₂ N₂ = .ok (some tB))
    (hv : ∀ x ∈ C, -MAX_VALUE ≤ x.value) : NoCoalition m C tT tB := by
  refine no_coalition_of ?_ fun hst _ hval _ => ascending_same hT hB hst hval
  obtain ⟨hlT, hcatT, hpos⟩ := auction_ok_inv hT
  set mT := withAgents m (truth C) with hmT
  have hlT' : r.length = mT.sorted.length := by rw [mT.sorted_length]; exact hlT
  have hneT := rel_ne_nil hlT hpos
  obtain ⟨n, s, p, d, hp, he, rfl, -, -⟩ := outcome_of_ok hT
  intro j v hmem hmemC _
  obtain ⟨e1, e2, -⟩ := single_outcome mT.sorted s r p d j
  rw [e1] at hmem
  rw [e2]
  have hj : j < mT.sorted.length := by
    by_contra hge
    rw [vAt_of_ge (by omega)] at hmem
    simp at hmem
  obtain ⟨x, hx, hxe⟩ := List.mem_map.1 hmemC
  simp only [Prod.mk.injEq] at hxe
  exact separation_one hlT' hneT (sorted_vAt mT) hp he hj hmem (by rw [← hxe.2]; exact hv x hx)

/-- A market with two sellers. -/
def twoSellers : Market := ⟨[⟨"seller", [-1, -2]⟩, ⟨"buyer", []⟩]⟩

/-- Two buyers: the first, with value 9, tells the truth; the second, with value 2, reports 1. -/
def twoBuyers : List Member := [⟨1, 9, 9⟩, ⟨1, 2, 1⟩]

/-- The outcome when both buyers tell the truth. -/
def truthOutcome : TradeWithSinglePrice := ⟨[⟨"seller", [-1]⟩, ⟨"buyer", [9, 2]⟩], [1, 1], some [-2, 2], 1⟩

/-- The outcome when the second buyer reports 1. -/
def helpOutcome : TradeWithSinglePrice := ⟨[⟨"seller", [-1]⟩, ⟨"buyer", [9]⟩], [1, 1], some [-1, 1], 1⟩

/-- **C80**, negative result: a buyer who gains nothing anyway can help another one by reporting a lower value, without losing anything. So the word `all` in C80 is
needed. (Also shows that the hypotheses of `ascending_coalition` are met.) -/
theorem ascending_helper :
    auction (withAgents twoSellers (truth twoBuyers)) [1, 1] 20 = .ok (some truthOutcome) ∧
    auction (withAgents twoSellers (reports twoBuyers)) [1, 1] 20 = .ok (some helpOutcome) ∧
    Stay twoSellers (truth twoBuyers) (singleRemaining truthOutcome) (fun _ => true) ∧
    Stay twoSellers (reports twoBuyers) (singleRemaining helpOutcome) (fun k => k = 0) ∧
    memberUtility (singleChance truthOutcome) (singlePrice truthOutcome) true ⟨1, 9, 9⟩ = 7 / 2 ∧
    memberUtility (singleChance helpOutcome) (singlePrice helpOutcome) true ⟨1, 9, 9⟩ = 8 ∧
    memberUtility (singleChance truthOutcome) (singlePrice truthOutcome) true ⟨1, 2, 1⟩ = 0 ∧
    memberUtility (singleChance helpOutcome) (singlePrice helpOutcome) false ⟨1, 2, 1⟩ = 0 := by
  refine ⟨by decide +kernel, by decide +kernel, ?_, ?_, by decide +kernel, by decide +kernel, by decide +kernel, by decide +kernel⟩
  · intro j
    match j with
    | 0 => exact ⟨[-1], by decide +kernel, by decide +kernel⟩
    | 1 => exact ⟨[], by decide +kernel, by decide +kernel⟩
    | j + 2 => exact ⟨[], by simp, by simp [singleRemaining, truthOutcome, given, staying, truth, twoBuyers]⟩
  · intro j
    match j with
    | 0 => exact ⟨[-1], by decide +kernel, by decide +kernel⟩
    | 1 => exact ⟨[], by decide +kernel, by decide +kernel⟩
    | j + 2 => exact ⟨[], by simp, by simp [singleRemaining, helpOutcome, given, staying, reports, twoBuyers]⟩

end Auctions.Props
