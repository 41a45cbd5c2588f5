import Verif.Proofs.UnitsTradeReduction
import Verif.Proofs.UnitsMcAfee
import Verif.Props.McAfee
import Verif.Props.TradeReduction
import Verif.Props.Ascending
import Verif.Spec.Coalition

set_option autoImplicit false

/-!
# C89 — another currency, and fees that cancel out
-/

namespace Auctions.Props

open Auctions Spec Auctions.Ascending Auctions.TradeReduction McAfee

/-- The market after the change. -/
abbrev inUnits (c : ℚ) (b : ℕ → ℚ) (m : Market) : Market := ⟨changed c b m.categories⟩

theorem inUnits_cat {c : ℚ} {b : ℕ → ℚ} {m : Market} : (inUnits c b m).categories ≠ [] ↔ m.categories ≠ [] := by
  unfold inUnits changed
  cases m.categories <;> simp

theorem inUnits_num {c : ℚ} {b : ℕ → ℚ} {m : Market} : (inUnits c b m).numCategories = m.numCategories := by
  unfold inUnits Market.numCategories; exact changed_length _

/-- **C89**, optimal trade. The same deals are made, their gain is multiplied by `c`, and the same agents are left. -/
theorem units_optimal {c : ℚ} {b : ℕ → ℚ} (hc : 0 < c) {m : Market} {r : List ℕ} (hb : CancelOut r b) {N : ℕ} {z : Bool} {opt : TradeWithMaterialBalance} {rem : Market}
    (ho : m.optimalTrade r N z = .ok (opt, rem)) :
    ∃ opt', (inUnits c b m).optimalTrade r N z = .ok (opt', inUnits c b rem) ∧ opt'.numOfDeals = opt.numOfDeals ∧ opt'.gainFromTrade = c * opt.gainFromTrade := by
  obtain ⟨h1, h2⟩ := optimalTrade_ok_inv ho
  have h' : r.length = m.sorted.length := by rw [m.sorted_length]; exact h1
  obtain ⟨k, hk, he⟩ := optimalTrade_eq h1 h2 N z
  obtain ⟨k', hk', he'⟩ := optimalTrade_eq (m := inUnits c b m) (by rw [inUnits_num]; exact h1) (inUnits_cat.2 h2) N z
  obtain rfl : k' = k := greedy_unique hk' (greedy_changed hc h1 hb hk)
  rw [he] at ho
  simp only [Except.ok.injEq, Prod.mk.injEq] at ho
  obtain ⟨rfl, rfl⟩ := ho
  rw [sorted_changed hc, dropBlocks_changed h'] at he'
  refine ⟨_, he', by simp [TradeWithMaterialBalance.numOfDeals], ?_⟩
  unfold TradeWithMaterialBalance.gainFromTrade
  simp only [List.map_reverse, List.sum_reverse, List.map_map]
  rw [← List.sum_map_mul_left]
  congr 1
  refine List.map_congr_left fun t ht => ?_
  exact blk_changed h' hb (hk.taken t (List.mem_range.1 ht)).1

/-- **C89**, ascending auction. The same agents remain, the number of deals is the same, and the prices change as the values do. -/
theorem units_ascending {c : ℚ} {b : ℕ → ℚ} (hc : 0 < c) {m : Market} {r : List ℕ} (hb : CancelOut r b) {bound bound' : ℚ}
    (hm : Moderate m r bound) (hm' : Moderate (inUnits c b m) r bound') {f f' N N' : ℕ} {t t' : TradeWithSinglePrice}
    (ht : auction m r f N = .ok (some t)) (ht' : auction (inUnits c b m) r f' N' = .ok (some t')) :
    t'.categories = changed c b t.categories ∧ t'.numOfDeals = t.numOfDeals ∧
      ∀ i, 0 < r.getD i 0 → m.valueLists.getD i [] ≠ [] → singlePrice t' i = c * singlePrice t i + b i := by
  obtain ⟨h1, h2, hpos⟩ := auction_ok_inv ht
  have h' : r.length = m.sorted.length := by rw [m.sorted_length]; exact h1
  have hne := rel_ne_nil h1 hpos
  have hmo := mod_of_moderate hm
  have hmo' := mod_of_moderate hm'
  rw [sorted_changed hc] at hmo'
  obtain ⟨n, s, p, d, hp, he, rfl, hd1, hd2⟩ := outcome_of_ok ht
  obtain ⟨p', he', hpp⟩ := ending_changed hc h' hb hmo hmo' hne he
  have hp' := path_changed hc h' hb hmo hmo' hp
  rw [← sorted_changed hc] at he' hp'
  obtain ⟨d', hd1', hd2', hrun⟩ := auction_of_ending (m := inUnits c b m) (by rw [inUnits_num]; exact h1) (inUnits_cat.2 h2) hpos hp' he'
  have hs' : (inUnits c b m).sorted.length = m.sorted.length := by rw [sorted_changed hc, changed_length]
  obtain rfl : d' = d := by
    refine le_antisymm (hd2 _ ?_) (hd2' _ ?_)
    · rw [hs'] at hd1'; exact hd1'
    · rw [hs']; exact hd1
  -- runs with other bounds on the loop end in the same way
  have hfuel : t' = ⟨(mkMarket (inUnits c b m).sorted s).categories, r, some p', d'⟩ := by
    obtain ⟨n₂, s₂, p₂, d₂, hp₂, he₂, rfl, hd1₂, hd2₂⟩ := outcome_of_ok ht'
    obtain ⟨d₃, hd1₃, hd2₃, hrun₃⟩ := auction_of_ending (m := inUnits c b m) (by rw [inUnits_num]; exact h1) (inUnits_cat.2 h2) hpos hp₂ he₂
    have e1 := hrun (max n n₂ + 1) 0 (by omega)
    have e2 := hrun₃ (max n n₂ + 1) 0 (by omega)
    rw [e1] at e2
    simp only [Except.ok.injEq, Option.some.injEq, TradeWithSinglePrice.mk.injEq] at e2
    obtain ⟨e3, -, e4, e5⟩ := e2
    have : d₂ = d₃ := le_antisymm (hd2₃ _ hd1₂) (hd2₂ _ hd1₃)
    rw [e3, e4, e5, this]
  rw [hfuel]
  refine ⟨?_, rfl, fun i hi hv => ?_⟩
  · simp only [sorted_changed hc]
    exact changed_mk _ _
  · have hil : i < m.sorted.length := by
      rw [← h']
      by_contra hge
      rw [List.getD_eq_getElem?_getD, List.getElem?_eq_none (by omega)] at hi
      simp at hi
    refine hpp i hil hi ?_
    rw [vAt_sorted]
    intro h0
    have := congrArg List.length h0
    rw [sortDesc_length] at this
    exact hv (List.length_eq_zero_iff.1 this)

/-- **C89**, trade reduction. The same agents trade, the number of deals is the same, prices are set in one market if they are set in the other, and when a deal is made, the prices change as the values do. -/
theorem units_trade_reduction {c : ℚ} {b : ℕ → ℚ} (hc : 0 < c) {m : Market} {r : List ℕ} (hb : CancelOut r b) {bound bound' : ℚ}
    (hm : Moderate m r bound) (hm' : Moderate (inUnits c b m) r bound') {z : Bool} {t : TradeWithSinglePrice} (hpos : ∃ x ∈ r, 0 < x)
    (ht : tradeReduction m r z = .ok t) :
    ∃ t', tradeReduction (inUnits c b m) r z = .ok t' ∧ t'.categories = changed c b t.categories ∧ t'.numOfDeals = t.numOfDeals ∧
      (t'.prices = none ↔ t.prices = none) ∧ (0 < t.numOfDeals → ∀ i, 0 < r.getD i 0 → singlePrice t' i = c * singlePrice t i + b i) := by
  obtain ⟨h1, h2⟩ := tr_ok_inv ht
  have h' : r.length = m.sorted.length := by rw [m.sorted_length]; exact h1
  have hmo := mod_of_moderate hm
  have hmo' := mod_of_moderate hm'
  have hso := sorted_changed (b := b) hc m
  rw [hso] at hmo'
  have hil : ∀ i, 0 < r.getD i 0 → i < m.sorted.length := by
    intro i hi
    rw [← h']
    by_contra hge
    rw [List.getD_eq_getElem?_getD, List.getElem?_eq_none (by omega)] at hi
    simp at hi
  obtain ⟨k, hk, -, hres⟩ := tr_front h1 h2 hpos z
  obtain ⟨k', hk', -, hres'⟩ := tr_front (m := inUnits c b m) (by rw [inUnits_num]; exact h1) (inUnits_cat.2 h2) hpos z
  obtain rfl : k' = k := greedy_unique hk' (greedy_changed hc h1 hb hk)
  rcases hres with ⟨hk0, hres⟩ | ⟨hk0, K, hkK, hK1, hK2, hKall, hwf, hres⟩
  · rcases hres' with ⟨-, hres'⟩ | ⟨hk1, -⟩
    swap
    · omega
    rw [ht] at hres
    simp only [Except.ok.injEq] at hres
    subst hres
    refine ⟨_, hres', ?_, rfl, by simp, fun hd => absurd hd (by simp [TradeWithSinglePrice.numOfDeals])⟩
    simp only [hso]
    exact changed_mk _ _
  · rcases hres' with ⟨hk1, -⟩ | ⟨-, K', hkK', hK1', hK2', hKall', hwf', hres'⟩
    · omega
    obtain rfl : K' = K := by
      rw [hso, avail_changed] at hK1' hK2'
      by_cases hav : Avail m.sorted r k'
      · rw [hK1 hav, hK1' hav]
      · rw [hK2 hav, hK2' hav]
    have hpad : padOf (inUnits c b m).sorted r K' = padOf m.sorted r K' := by
      funext l; unfold padOf; rw [hso, vAt_changed, List.length_map]
    rw [hpad, hso] at hres'
    have hcur : ∀ i < m.sorted.length, 0 < rAt r i → (Abs.compete (fun l => K' * rAt r l)).cur i - 1 < (vAt m.sorted i).length := by
      intro i hi hri
      have h3 := hKall (K' - 1) (by omega) i hi
      rw [show K' - 1 + 1 = K' by omega] at h3
      have h4 : 0 < K' * rAt r i := Nat.mul_pos (by omega) hri
      show K' * rAt r i - 1 < _
      omega
    have hsame := runs_changed hc h' hb hmo hmo' (pad := padOf m.sorted r K') (z := z) K' (A := .compete (fun l => K' * rAt r l)) (A' := .compete (fun l => K' * rAt r l)) rfl hcur
    have hend := (runs_trace h' (pad := padOf m.sorted r K') (z := z) (Q := fun _ => True) (fun _ _ _ _ _ _ _ => trivial) K' (A := .compete (fun l => K' * rAt r l)) trivial (fun l => rfl)).2
    generalize runs m.sorted r (padOf m.sorted r K') z K' (.compete (fun l => K' * rAt r l)) = F at *
    generalize runs (changed c b m.sorted) r (padOf m.sorted r K') z K' (.compete (fun l => K' * rAt r l)) = F' at *
    rw [ht] at hres
    cases F with
    | compete s =>
      cases F' with
      | found => exact hsame.elim
      | compete s' =>
        obtain rfl : s' = s := hsame
        simp only [conc] at hres hres'
        obtain ⟨e1, e2, e3⟩ := init_changed (c := c) (b := b) hres.symm none
        rw [trCats_changed, e3] at hres'
        refine ⟨_, hres', by rw [e1], rfl, by simp [e2], fun hd => ?_⟩
        -- nobody trades
        exfalso
        have hs0 : s' = fun _ => 0 := funext hend
        subst hs0
        obtain ⟨x, hx, hx0⟩ := hpos
        obtain ⟨i, hi, rfl⟩ := List.getElem_of_mem hx
        rcases trade_init_spec (trCats m.sorted (fun _ => 0) (fun _ => 0)) r none with ⟨-, g1⟩ | ⟨-, d, g1, g2, -⟩
        · rw [g1] at hres; cases hres
        · rw [g1] at hres
          simp only [Except.ok.injEq] at hres
          have := g2 i (by rw [trCats_length]; omega)
          rw [rAt_eq_getElem hi] at this
          have h0 : (vAt (trCats m.sorted (fun _ => 0) (fun _ => 0)) i).length = 0 := by
            rw [vAt_eq_getElem (by rw [trCats_length]; omega)]
            simp [trCats]
          rw [h0] at this
          have hd' : 0 < d := by rw [hres] at hd; exact hd
          have := Nat.mul_pos hd' hx0
          omega
    | found a e p =>
      cases F' with
      | compete => exact hsame.elim
      | found a' e' p' =>
        obtain ⟨rfl, rfl, hpp⟩ := hsame
        simp only [conc] at hres hres'
        obtain ⟨e1, e2, e3⟩ := init_changed (c := c) (b := b) hres.symm (some p')
        rw [trCats_changed, e3] at hres'
        refine ⟨_, hres', by rw [e1], rfl, by simp [e2], fun _ i hi => ?_⟩
        unfold singlePrice
        rw [e2]
        exact hpp i (hil i hi) hi

/-- **C89**, McAfee's protocol without the heuristic. The same deals are made, and when a deal is made, the prices change as the values do. -/
theorem units_mcafee {c : ℚ} {b : ℕ → ℚ} (hc : 0 < c) {m : Market} {r : List ℕ} (hb : CancelOut r b) {t : TradeWithSinglePrice} (ht : mcafeeTradeReduction m r false = .ok t) :
    ∃ t', mcafeeTradeReduction (inUnits c b m) r false = .ok t' ∧ t'.categories = changed c b t.categories ∧ t'.numOfDeals = t.numOfDeals ∧
      (0 < t.numOfDeals → ∀ i < m.numCategories, singlePrice t' i = c * singlePrice t i + b i) := by
  obtain ⟨hr, hcat⟩ := mcafee_ok_inv ht
  have h1 : r.length = m.numCategories := by rw [hr]; simp
  have hso := sorted_changed (b := b) hc m
  obtain ⟨k, d, p, hk, -, hR, he⟩ := mcafee_eq hr hcat false
  obtain ⟨k', d', p', hk', -, hR', he'⟩ := mcafee_eq (m := inUnits c b m) (r := r) (hr.trans (by rw [inUnits_num])) (inUnits_cat.2 hcat) false
  obtain rfl : k' = k := greedy_unique hk' (greedy_changed hc h1 hb hk)
  rw [ht] at he
  simp only [Except.ok.injEq] at he
  subst he
  have hmk : ∀ d, (mkMarket (inUnits c b m).sorted (fun _ => d)).categories = changed c b (mkMarket m.sorted (fun _ => d)).categories := by
    intro d; rw [hso]; exact changed_mk _ _
  rw [hmk] at he'
  cases hR with
  | none h0 =>
    cases hR' with
    | none => exact ⟨_, he', rfl, rfl, fun hd => absurd hd (by simp [TradeWithSinglePrice.numOfDeals])⟩
    | full h2 => omega
    | reduced h2 => omega
  | full _ hf => cases hf
  | reduced h2 =>
    cases hR' with
    | none => omega
    | full _ hf => cases hf
    | reduced =>
      refine ⟨_, he', rfl, rfl, fun _ i hi => ?_⟩
      have hav := (hk.taken (k' - 1) (by omega)).1
      have hsl : m.sorted.length = m.numCategories := m.sorted_length
      have hav' : Avail (changed c b m.sorted) r (k' - 1) := avail_changed.2 hav
      have hlt : k' - 1 < (vAt m.sorted i).length := by
        have := hav i (by omega)
        rw [hr] at this
        simp only [rAt, List.getD_eq_getElem?_getD, List.getElem?_replicate, if_pos hi, Option.getD_some] at this
        omega
      unfold singlePrice
      rw [hso]
      simp only [Option.getD_some]
      rw [blk_ones (by rw [hsl]; exact hr) hav, blk_ones (by rw [changed_length, hsl]; exact hr) hav', changed_length, hsl]
      simp [List.getD_eq_getElem?_getD, hi, vAt_changed, hlt]

/-- **C89**, McAfee's protocol with the heuristic: in another currency the same deals are made, and the prices are converted. -/
theorem units_mcafee_heuristic {c : ℚ} (hc : 0 < c) {m : Market} {r : List ℕ} {bound bound' : ℚ} (hm : Moderate m r bound) (hm' : Moderate (inUnits c (fun _ => 0) m) r bound')
    {t : TradeWithSinglePrice} (ht : mcafeeTradeReduction m r true = .ok t) :
    ∃ t', mcafeeTradeReduction (inUnits c (fun _ => 0) m) r true = .ok t' ∧ t'.categories = changed c (fun _ => 0) t.categories ∧ t'.numOfDeals = t.numOfDeals ∧
      ∀ i < m.numCategories, singlePrice t' i = c * singlePrice t i := by
  obtain ⟨hr, hcat⟩ := mcafee_ok_inv ht
  have hb : CancelOut r (fun _ => 0) := by simp [CancelOut]
  have h1 : r.length = m.numCategories := by rw [hr]; simp
  have hso := sorted_changed (b := fun _ => 0) hc m
  have hr' : r = List.replicate (inUnits c (fun _ => 0) m).numCategories 1 := hr.trans (by rw [inUnits_num])
  obtain ⟨k, d, p, hk, -, hR, he⟩ := mcafee_eq hr hcat true
  obtain ⟨k', d', p', hk', -, hR', he'⟩ := mcafee_eq (m := inUnits c (fun _ => 0) m) (r := r) hr' (inUnits_cat.2 hcat) true
  obtain rfl : k' = k := greedy_unique hk' (greedy_changed hc h1 hb hk)
  rw [ht] at he
  simp only [Except.ok.injEq] at he
  subst he
  have hmk : ∀ d, (mkMarket (inUnits c (fun _ => 0) m).sorted (fun _ => d)).categories = changed c (fun _ => 0) (mkMarket m.sorted (fun _ => d)).categories := by
    intro d; rw [hso]; exact changed_mk _ _
  rw [hmk] at he'
  have hsl : m.sorted.length = m.numCategories := m.sorted_length
  have hblk : ∀ j, Avail m.sorted r j → blk (inUnits c (fun _ => 0) m).sorted r j = (blk m.sorted r j).map (fun x => c * x) := by
    intro j hav
    rw [hso, blk_ones (by rw [hsl]; exact hr) hav, blk_ones (by rw [changed_length, hsl]; exact hr) (avail_changed.2 hav), changed_length, List.map_map]
    refine List.map_congr_left fun i hi => ?_
    have hi : i < m.numCategories := by rw [← hsl]; exact List.mem_range.1 hi
    have hlt : j < (vAt m.sorted i).length := by
      have := hav i (by omega)
      rw [hr] at this
      simp only [rAt, List.getD_eq_getElem?_getD, List.getElem?_replicate, if_pos hi, Option.getD_some] at this
      omega
    simp [List.getD_eq_getElem?_getD, vAt_changed, hlt]
  have hcand : 0 < k' → isPriceGoodForPs (candidate (inUnits c (fun _ => 0) m) r k') (blk (inUnits c (fun _ => 0) m).sorted r (k' - 1))
      = isPriceGoodForPs (candidate m r k') (blk m.sorted r (k' - 1)) ∧
      (isPriceGoodForPs (candidate m r k') (blk m.sorted r (k' - 1)) = true → candidate (inUnits c (fun _ => 0) m) r k' = c * candidate m r k') := by
    intro hk0
    by_cases hav : Avail m.sorted r k'
    · have e : candidate (inUnits c (fun _ => 0) m) r k' = c * candidate m r k' := by
        rw [candidate_clock hr, candidate_clock hr', inUnits_num, ← mul_div_assoc, Finset.mul_sum]
        congr 1
        refine Finset.sum_congr rfl fun i hi => ?_
        have hi := Finset.mem_range.1 hi
        have hlt : k' < (vAt m.sorted i).length := by
          have := hav i (by omega)
          rw [hr] at this
          simp only [rAt, List.getD_eq_getElem?_getD, List.getElem?_replicate, if_pos hi, Option.getD_some] at this
          omega
        rw [hso, vAt_changed, clock_changed _ hlt, add_zero, abs_mul, abs_of_pos hc]
      rw [e, hblk _ (hk.taken (k' - 1) (by omega)).1, good_scale hc]
      exact ⟨rfl, fun _ => rfl⟩
    · have e1 := dummy_not_good hr hcat hm hk0 hk hav
      have e2 := dummy_not_good hr' (inUnits_cat.2 hcat) hm' hk0 hk' (by rw [hso, avail_changed]; exact hav)
      rw [e1, e2]
      exact ⟨rfl, fun h => by cases h⟩
  cases hR with
  | none h0 =>
    cases hR' with
    | none =>
      refine ⟨_, he', rfl, rfl, fun i hi => ?_⟩
      unfold singlePrice
      simp [List.getD_eq_getElem?_getD, hi, inUnits_num]
    | full h2 => omega
    | reduced h2 => omega
  | full h2 _ hg =>
    obtain ⟨g1, g2⟩ := hcand h2
    cases hR' with
    | none => omega
    | full _ _ hg' =>
      rename' d => k'
      refine ⟨_, he', rfl, rfl, fun i hi => ?_⟩
      have hav := (hk.taken (k' - 1) (by omega)).1
      unfold singlePrice
      simp only [Option.getD_some]
      rw [g2 hg, hblk _ hav, inUnits_num]
      have hil : i < (blk m.sorted r (k' - 1)).length := by rw [blk_ones_length (by rw [hsl]; exact hr) hav, hsl]; exact hi
      have hsg : c * (blk m.sorted r (k' - 1))[i] < 0 ↔ (blk m.sorted r (k' - 1))[i] < 0 := by
        generalize (blk m.sorted r (k' - 1))[i] = x
        constructor <;> intro h <;> nlinarith
      simp only [List.getD_eq_getElem?_getD, List.getElem?_map, List.getElem?_range hi, Option.map_some, Option.getD_some, List.getElem?_eq_getElem hil, hsg]
      ring
    | reduced _ hg' =>
      rw [hg' rfl, hg] at g1
      cases g1
  | reduced h2 hg =>
    obtain ⟨g1, g2⟩ := hcand h2
    cases hR' with
    | none => omega
    | full _ _ hg' =>
      rw [hg', hg rfl] at g1
      cases g1
    | reduced =>
      refine ⟨_, he', rfl, rfl, fun i hi => ?_⟩
      have hav := (hk.taken (k' - 1) (by omega)).1
      unfold singlePrice
      simp only [Option.getD_some]
      rw [hblk _ hav]
      have hil : i < (blk m.sorted r (k' - 1)).length := by rw [blk_ones_length (by rw [hsl]; exact hr) hav, hsl]; exact hi
      simp [List.getD_eq_getElem?_getD, List.getElem?_eq_getElem hil]

/-- The market of README.md with twice the values, and a fee of 4 for buyers from which each of the two sellers of a deal gets 2. -/
example :
    let m : Market := ⟨[⟨"buyer", [17, 14, 13, 9, 6]⟩, ⟨"seller", [-1, -3, -4, -5, -8, -10]⟩]⟩
    let b : ℕ → ℚ := fun i => if i = 0 then -4 else 2
    CancelOut [1, 2] b ∧ Moderate m [1, 2] 17 ∧ Moderate (inUnits 2 b m) [1, 2] 30 ∧
    inUnits 2 b m = ⟨[⟨"buyer", [30, 24, 22, 14, 8]⟩, ⟨"seller", [0, -4, -6, -8, -14, -18]⟩]⟩ ∧
    m.optimalTrade [1, 2] = .ok (⟨[[14, -4, -5], [17, -1, -3]]⟩, ⟨[⟨"buyer", [13, 9, 6]⟩, ⟨"seller", [-8, -10]⟩]⟩) ∧
    (inUnits 2 b m).optimalTrade [1, 2] = .ok (⟨[[24, -6, -8], [30, 0, -4]]⟩, ⟨[⟨"buyer", [22, 14, 8]⟩, ⟨"seller", [-14, -18]⟩]⟩) ∧
    auction m [1, 2] 50 50 = .ok (some ⟨[⟨"buyer", [17]⟩, ⟨"seller", [-1, -3, -4, -5]⟩], [1, 2], some [14, -7], 1⟩) ∧
    auction (inUnits 2 b m) [1, 2] 50 50 = .ok (some ⟨[⟨"buyer", [30]⟩, ⟨"seller", [0, -4, -6, -8]⟩], [1, 2], some [24, -12], 1⟩) ∧
    tradeReduction m [1, 2] true = .ok ⟨[⟨"buyer", [17]⟩, ⟨"seller", [-1, -3, -4, -5]⟩], [1, 2], some [14, -7], 1⟩ ∧
    tradeReduction (inUnits 2 b m) [1, 2] true = .ok ⟨[⟨"buyer", [30]⟩, ⟨"seller", [0, -4, -6, -8]⟩], [1, 2], some [24, -12], 1⟩ := by
  refine ⟨?_, ⟨?_, ?_, ?_⟩, ⟨?_, ?_, ?_⟩, ?_, ?_, ?_, ?_, ?_, ?_, ?_⟩ <;> first | decide +kernel | norm_num [CancelOut, Finset.sum_range_succ]

/-- McAfee's protocol without the heuristic: the buyers pay a fee of 8 to the sellers. -/
example :
    let m : Market := ⟨[⟨"buyer", [9, 8, 6, 3]⟩, ⟨"seller", [-1, -2, -5, -7]⟩]⟩
    let b : ℕ → ℚ := fun i => if i = 0 then -8 else 8
    CancelOut [1, 1] b ∧ mcafeeTradeReduction m [1, 1] false = .ok ⟨[⟨"buyer", [9, 8]⟩, ⟨"seller", [-1, -2]⟩], [1, 1], some [6, -5], 2⟩ ∧
    mcafeeTradeReduction (inUnits 1 b m) [1, 1] false = .ok ⟨[⟨"buyer", [1, 0]⟩, ⟨"seller", [7, 6]⟩], [1, 1], some [-2, 3], 2⟩ := by
  refine ⟨?_, by decide +kernel, by decide +kernel⟩
  norm_num [CancelOut, Finset.sum_range_succ]

/-- With the heuristic, another currency is fine, but fees that cancel out change the outcome: a deal is lost. -/
example :
    let m : Market := ⟨[⟨"buyer", [18, 17, 2]⟩, ⟨"seller", [-5, -6, -10]⟩, ⟨"mediator", [-4, -5, -10]⟩]⟩
    let b : ℕ → ℚ := fun i => if i = 0 then -10 else 5
    CancelOut [1, 1, 1] b ∧ Moderate m [1, 1, 1] 18 ∧ Moderate (inUnits 3 (fun _ => 0) m) [1, 1, 1] 54 ∧
    mcafeeTradeReduction m [1, 1, 1] true = .ok ⟨[⟨"buyer", [18, 17]⟩, ⟨"seller", [-5, -6]⟩, ⟨"mediator", [-4, -5]⟩], [1, 1, 1], some [22/3, -22/3, -22/3], 2⟩ ∧
    mcafeeTradeReduction (inUnits 3 (fun _ => 0) m) [1, 1, 1] true
      = .ok ⟨[⟨"buyer", [54, 51]⟩, ⟨"seller", [-15, -18]⟩, ⟨"mediator", [-12, -15]⟩], [1, 1, 1], some [22, -22, -22], 2⟩ ∧
    mcafeeTradeReduction (inUnits 1 b m) [1, 1, 1] true = .ok ⟨[⟨"buyer", [8]⟩, ⟨"seller", [0]⟩, ⟨"mediator", [1]⟩], [1, 1, 1], some [7, -1, 0], 1⟩ := by
  refine ⟨?_, ⟨?_, ?_, ?_⟩, ⟨?_, ?_, ?_⟩, by decide +kernel, by decide +kernel, by decide +kernel⟩ <;> first | decide +kernel | norm_num [CancelOut, Finset.sum_range_succ]

/-- The values must be moderate: in a currency in which the values are beyond `MAX_VALUE`, the auction makes another deal. -/
example :
    let m : Market := ⟨[⟨"buyer", [9, 8]⟩, ⟨"seller", [-1, -2]⟩]⟩
    auction m [1, 1] 50 50 = .ok (some ⟨[⟨"buyer", [9]⟩, ⟨"seller", [-1, -2]⟩], [1, 1], some [8, -8], 1⟩) ∧
    auction (inUnits 100000000 (fun _ => 0) m) [1, 1] 50 50
      = .ok (some ⟨[⟨"buyer", [900000000, 800000000]⟩, ⟨"seller", [-100000000, -200000000]⟩], [1, 1], some [100000000, -100000000], 2⟩) ∧
    tradeReduction m [1, 1] true = .ok ⟨[⟨"buyer", [9]⟩, ⟨"seller", [-1, -2]⟩], [1, 1], some [8, -8], 1⟩ ∧
    tradeReduction (inUnits 100000000 (fun _ => 0) m) [1, 1] true
      = .ok ⟨[⟨"buyer", [900000000, 800000000]⟩, ⟨"seller", [-100000000, -200000000]⟩], [1, 1], some [100000000, -100000000], 2⟩ := by
  decide +kernel

end Auctions.Props
