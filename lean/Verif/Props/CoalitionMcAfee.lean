import Verif.Props.Coalition
import Verif.Props.McAfeeHeuristic

set_option autoImplicit false

/-!
# C81 — no coalition of agents can make all its members better off: McAfee's protocol
-/

namespace Auctions.Props

open Auctions Spec McAfee Ascending

/-- **C81**. Whatever the other agents report, and whichever agents agree on whatever reports: in McAfee's protocol without the price heuristic, or in a two-sided market with or
without it, at least one of them is not better off than when all of them tell the truth. -/
theorem mcafee_coalition {m : Market} {r : List ℕ} {β : ℕ} {C : List Member} {h : Bool} {tT tB : TradeWithSinglePrice}
    (hcase : h = false ∨ (TwoSided (withAgents m (truth C)) β ∧ TwoSided (withAgents m (reports C)) β ∧
      ∀ c ∈ (withAgents m (reports C)).categories, c.values.length ≤ 2000000))
    (hT : mcafeeTradeReduction (withAgents m (truth C)) r h = .ok tT)
    (hB : mcafeeTradeReduction (withAgents m (reports C)) r h = .ok tB) : NoCoalition m C tT tB := by
  have hir := mcafee_individually_rational hT
  have hirB := mcafee_individually_rational hB
  obtain ⟨hr, hcat⟩ := mcafee_ok_inv hT
  obtain ⟨hrB, hcatB⟩ := mcafee_ok_inv hB
  set mT := withAgents m (truth C) with hmT
  set mB := withAgents m (reports C) with hmB
  have hnT : mT.numCategories = m.numCategories := withAgents_length ..
  have hnB : mB.numCategories = m.numCategories := withAgents_length ..
  obtain ⟨kT, dT, pT, hkT, -, hresT, heT⟩ := mcafee_eq hr hcat h
  obtain ⟨kB, dB, pB, hkB, -, hresB, heB⟩ := mcafee_eq hrB hcatB h
  rw [heT] at hT
  rw [heB] at hB
  simp only [Except.ok.injEq] at hT hB
  subst hT hB
  refine no_coalition_of ?_ ?_
  · intro j v hmem _ _
    obtain ⟨p, hp, -, hle⟩ := hir
    obtain rfl : pT = p := by simpa using hp
    exact hle j v hmem
  · intro hst hC hval hch
    simp only [fun j => (single_outcome mB.sorted (fun _ => dB) r pB dB j).1, fun j => (single_outcome mB.sorted (fun _ => dB) r pB dB j).2.1,
      fun j => (single_outcome mB.sorted (fun _ => dB) r pB dB j).2.2] at hst hval hch
    have hd0 : 0 < dB := by
      obtain ⟨x, hx⟩ := List.exists_mem_of_ne_nil C hC
      rcases Nat.eq_zero_or_pos dB with h0 | h0
      · have := hch x hx
        simp [h0] at this
      · exact h0
    have hk0 : 0 < kB := by
      cases hresB with
      | none h0 => omega
      | full h0 h1 h2 => exact h0
      | reduced h0 h1 => exact h0
    have havB := (hkB.taken (kB - 1) (by omega)).1
    have hdk : dB ≤ kB := by cases hresB <;> omega
    have hget : ∀ j < m.numCategories, (blk mB.sorted r (kB - 1)).getD j 0 = (vAt mB.sorted j).getD (kB - 1) 0 ∧ kB - 1 < (vAt mB.sorted j).length :=
      fun j hj => blk_ones_getD hrB havB (by omega)
    have hlast := (hkB.taken (kB - 1) (by omega)).2
    unfold Good at hlast
    simp only [Bool.true_eq_false, and_false, or_false, not_lt] at hlast
    -- it is enough that the auction ends in the same way
    have hend : ∀ {d : ℕ} {p : List ℚ}, (∀ j < m.numCategories, ∀ x ∈ (vAt mB.sorted j).drop dB, x ≤ pB.getD j 0) →
        (SameBelow mT mB dB → (∀ j, ∀ y ∈ (vAt mT.sorted j).take dB, y ∈ (vAt mB.sorted j).take dB ∨ pB.getD j 0 ≤ y) →
          d = dB ∧ ∀ j < m.numCategories, p.getD j 0 = pB.getD j 0) →
        ∀ x ∈ C, singleChance ⟨(mkMarket mT.sorted (fun _ => d)).categories, r, some p, d⟩ x.category =
            singleChance ⟨(mkMarket mB.sorted (fun _ => dB)).categories, r, some pB, dB⟩ x.category ∧
          singlePrice ⟨(mkMarket mT.sorted (fun _ => d)).categories, r, some p, d⟩ x.category =
            singlePrice ⟨(mkMarket mB.sorted (fun _ => dB)).categories, r, some pB, dB⟩ x.category ∧
          ∃ D, (given (truth C) x.category ++ m.valueLists.getD x.category []).Perm
              (singleRemaining ⟨(mkMarket mT.sorted (fun _ => d)).categories, r, some p, d⟩ x.category ++ D) ∧
            ∀ y ∈ D, y ≤ singlePrice ⟨(mkMarket mT.sorted (fun _ => d)).categories, r, some p, d⟩ x.category := by
      intro d p hsep hthen x hx
      obtain ⟨hsz, hdrop, htop, hperm⟩ := coalition_sorted (s := fun _ => dB) (p := fun j => pB.getD j 0)
        (fun j hj => by have := (hget j hj).2; show dB ≤ (vAt mB.sorted j).length; omega) hst hval hsep
      obtain ⟨rfl, hpp⟩ := hthen ⟨by omega, hdrop, hsz⟩ htop
      obtain ⟨a1, a2, a3⟩ := single_outcome mT.sorted (fun _ => d) r p d x.category
      obtain ⟨b1, b2, b3⟩ := single_outcome mB.sorted (fun _ => d) r pB d x.category
      have hxc := (hperm x hx).1
      rw [a1, a2, a3, b2, b3, List.length_take, List.length_take, hsz]
      refine ⟨rfl, hpp _ hxc, (vAt mT.sorted x.category).drop d, (hperm x hx).2, ?_⟩
      rw [hdrop, hpp _ hxc]
      exact hsep _ hxc
    have hirle : ∀ j, ∀ x ∈ (vAt mB.sorted j).take dB, pB.getD j 0 ≤ x := by
      obtain ⟨p, hp, -, hle⟩ := hirB
      obtain rfl : pB = p := by simpa using hp
      intro j x hx
      exact hle j x (by rw [getD_values, vAt_mkMarket]; exact hx)
    cases hresB with
    | none h0 => omega
    | reduced h0 h1 =>
      refine hend ?_ ?_
      · intro j hj x hx
        rw [(hget j hj).1, getD_lt (hget j hj).2]
        obtain ⟨n, hn', rfl⟩ := List.getElem_of_mem hx
        simp only [List.getElem_drop]
        apply (sorted_vAt mB j).getElem_ge; omega
      · intro hsb _
        have hblk := hsb.blk hrB (le_refl _) havB
        have hstop := hsb.stop hrB h0 (by omega) hkB (by rw [hblk]; exact hlast)
        obtain rfl := greedy_unique hkT hstop
        have hc := hsb.candidate hrB (t := kT) (by omega)
        cases hresT with
        | none h2 => omega
        | full h2 h3 h4 => rw [hblk, hc, h1 h3] at h4; simp at h4
        | reduced h2 h3 => exact ⟨rfl, fun j _ => by rw [hblk]⟩
    | full h0 h1 h2 =>
      obtain ⟨hsT, hsB, hlenB⟩ : TwoSided mT β ∧ TwoSided mB β ∧ ∀ c ∈ mB.categories, c.values.length ≤ 2000000 := by
        rcases hcase with h3 | h3
        · rw [h1] at h3; simp at h3
        · exact h3
      have hn2 : m.numCategories = 2 := by rw [← hnB]; exact hsB.two
      have hlenV : ∀ j < 2, (vAt mB.sorted j).length ≤ 2000000 := by
        intro j hj
        have hj' : j < mB.categories.length := by have := hsB.two; unfold Market.numCategories at this; omega
        rw [vAt_sorted, sortDesc_length, vAt_eq_getElem hj']
        exact hlenB _ (List.getElem_mem _)
      have hio : ∀ j < 2, (j = 0 ∧ 1 - j = 1) ∨ (j = 1 ∧ 1 - j = 0) := fun j hj => by omega
      have hq : ∀ j < 2, ((List.range mB.numCategories).map (fun j => candidate mB r kB *
          (if (blk mB.sorted r (kB - 1)).getD j 0 < 0 then -1 else 1))).getD j 0
            = candidate mB r kB * (if (vAt mB.sorted j).getD (kB - 1) 0 < 0 then -1 else 1) := by
        intro j hj
        rw [← (hget j (by omega)).1]
        have : j < mB.numCategories := by omega
        simp [this]
      refine hend ?_ ?_
      · intro j hj x hx
        rw [hn2] at hj
        rw [hq j hj]
        obtain ⟨n, hn', rfl⟩ := List.getElem_of_mem hx
        rw [List.length_drop] at hn'
        refine le_trans ?_ (candidate_ge_next hsB (hio j hj) hrB hk0 hkB (hlenV j hj) h2 (by omega))
        rw [getD_lt (by omega)]
        simp only [List.getElem_drop]
        apply (sorted_vAt mB j).getElem_ge; omega
      · intro hsb htop
        have havT := (hsb.avail r (kB - 1)).2 havB
        have hgetT : ∀ j < 2, (blk mT.sorted r (kB - 1)).getD j 0 = (vAt mT.sorted j).getD (kB - 1) 0 ∧ kB - 1 < (vAt mT.sorted j).length :=
          fun j hj => blk_ones_getD hr havT (by omega)
        have hTge : ∀ j < 2, candidate mB r kB * (if (vAt mB.sorted j).getD (kB - 1) 0 < 0 then -1 else 1) ≤ (vAt mT.sorted j).getD (kB - 1) 0 := by
          intro j hj
          rw [← hq j hj]
          have hmem : (vAt mT.sorted j).getD (kB - 1) 0 ∈ (vAt mT.sorted j).take kB := by
            rw [getD_lt (hgetT j hj).2, List.mem_take_iff_getElem]
            exact ⟨kB - 1, by have := (hgetT j hj).2; omega, rfl⟩
          rcases htop j _ hmem with h3 | h3
          · exact hirle j _ h3
          · exact h3
        have hmT : ∀ j < 2, (vAt mT.sorted j).getD (kB - 1) 0 ∈ vAt mT.sorted j := fun j hj => getD_mem 0 (hgetT j hj).2
        have hmB' : ∀ j < 2, (vAt mB.sorted j).getD (kB - 1) 0 ∈ vAt mB.sorted j := fun j hj => getD_mem 0 (hget j (by omega)).2
        have hc := hsb.candidate hrB (t := kB) (le_refl _)
        have hcn : 0 ≤ candidate mB r kB := by
          rw [two_sided_candidate hsB (hio 0 (by omega)) hrB]
          positivity
        have hβ := hsB.index
        have hβ' : 1 - β < 2 := by omega
        have hb1 := ((two_sided_mem hsB).1 _ (hmB' β hβ)).1
        have hb2 := (two_sided_mem hsB).2 _ (hmB' (1 - β) hβ')
        have ht1 := ((two_sided_mem hsT).1 _ (hmT β hβ)).1
        have ht2 := (two_sided_mem hsT).2 _ (hmT (1 - β) hβ')
        have hg1 := hTge β hβ
        have hg2 := hTge (1 - β) hβ'
        rw [if_neg (by linarith)] at hg1
        rw [if_pos hb2] at hg2
        have hioβ : (β = 0 ∧ 1 - β = 1) ∨ (β = 1 ∧ 1 - β = 0) := hio β hβ
        have hgoodT : isPriceGoodForPs (candidate mT r kB) (blk mT.sorted r (kB - 1)) = true := by
          rw [good_iff, (two_sided_blk hsT hioβ hr havT).2, hc]
          exact ⟨⟨fun hh => by linarith [hh.2], fun hh => by linarith [hh.2]⟩, ⟨fun hh => by linarith [hh.1], fun hh => by linarith [hh.2]⟩⟩
        have hlastT : 0 ≤ (blk mT.sorted r (kB - 1)).sum := by
          rw [(two_sided_blk hsT hioβ hr havT).1]
          linarith
        have hstop := hsb.stop hrB h0 (le_refl _) hkB hlastT
        obtain rfl := greedy_unique hkT hstop
        cases hresT with
        | none h3 => omega
        | reduced h3 h4 => rw [h4 h1] at hgoodT; simp at hgoodT
        | full h3 h4 h5 =>
          refine ⟨rfl, fun j hj => ?_⟩
          rw [hn2] at hj
          rw [hq j hj]
          have : j < mT.numCategories := by omega
          simp only [List.getD_eq_getElem?_getD, List.getElem?_map, List.getElem?_range this, Option.map_some, Option.getD_some]
          rw [← List.getD_eq_getElem?_getD, ← List.getD_eq_getElem?_getD, (hgetT j hj).1, hc]
          congr 1
          refine if_congr ?_ rfl rfl
          rcases eq_or_ne j β with rfl | hjβ
          · exact ⟨fun hh => by linarith, fun hh => by linarith⟩
          · obtain rfl : j = 1 - β := by omega
            exact ⟨fun _ => hb2, fun _ => ht2⟩

/-- A market for the examples: three sellers and two buyers. -/
def coalitionMarket : Market := ⟨[⟨"seller", [-1, -3, -5]⟩, ⟨"buyer", [7, 4]⟩]⟩

/-- A buyer with value 9 that reports 6, and a seller with value -2 that reports -4. -/
def coalitionMembers : List Member := [⟨1, 9, 6⟩, ⟨0, -2, -4⟩]

/-- Non-vacuity of C81: when both members tell the truth both of them trade, with utilities 5 and 1; with their agreement they get 5 and 0. -/
example :
    let tT : TradeWithSinglePrice := ⟨[⟨"seller", [-1, -2]⟩, ⟨"buyer", [9, 7]⟩], [1, 1], some [-3, 4], 2⟩
    let tB : TradeWithSinglePrice := ⟨[⟨"seller", [-1, -3]⟩, ⟨"buyer", [7, 6]⟩], [1, 1], some [-4, 4], 2⟩
    TwoSided (withAgents coalitionMarket (truth coalitionMembers)) 1 ∧ TwoSided (withAgents coalitionMarket (reports coalitionMembers)) 1 ∧
    mcafeeTradeReduction (withAgents coalitionMarket (truth coalitionMembers)) [1, 1] true = .ok tT ∧
    mcafeeTradeReduction (withAgents coalitionMarket (reports coalitionMembers)) [1, 1] true = .ok tB ∧
    Stay coalitionMarket (truth coalitionMembers) (singleRemaining tT) (fun _ => true) ∧
    Stay coalitionMarket (reports coalitionMembers) (singleRemaining tB) (fun k => k = 0) ∧
    memberUtility (singleChance tT) (singlePrice tT) true ⟨1, 9, 6⟩ = 5 ∧ memberUtility (singleChance tT) (singlePrice tT) true ⟨0, -2, -4⟩ = 1 ∧
    memberUtility (singleChance tB) (singlePrice tB) true ⟨1, 9, 6⟩ = 5 := by
  refine ⟨⟨rfl, by decide, by decide +kernel, by decide +kernel⟩, ⟨rfl, by decide, by decide +kernel, by decide +kernel⟩, by decide +kernel, by decide +kernel,
    ?_, ?_, by decide +kernel, by decide +kernel, by decide +kernel⟩
  · intro j
    match j with
    | 0 => exact ⟨[-1], by decide +kernel, by decide +kernel⟩
    | 1 => exact ⟨[7], by decide +kernel, by decide +kernel⟩
    | j + 2 => exact ⟨[], by simp, by simp [singleRemaining, given, staying, truth, coalitionMembers]⟩
  · intro j
    match j with
    | 0 => exact ⟨[-1, -3], by decide +kernel, by decide +kernel⟩
    | 1 => exact ⟨[7], by decide +kernel, by decide +kernel⟩
    | j + 2 => exact ⟨[], by simp, by simp [singleRemaining, given, staying, reports, coalitionMembers]⟩

end Auctions.Props
