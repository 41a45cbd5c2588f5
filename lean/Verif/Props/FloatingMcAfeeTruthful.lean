import Verif.Props.FloatingMcAfee
import Verif.Props.TradeReductionTruthful

set_option autoImplicit false

/-!
# C114: misreporting in McAfee's protocol (without the heuristic) with floating-point arithmetic
-/

namespace Auctions.Props

open Auctions Auctions.Spec Auctions.Floating Auctions.McAfee
open Auctions.Ascending (sorted_vAt)

theorem flSum_map_mono {fl : ℚ → ℚ} (hf : Rounding fl) {f g : ℕ → ℚ} (L : List ℕ) (h : ∀ c ∈ L, f c ≤ g c) : flSum fl (L.map f) ≤ flSum fl (L.map g) := by
  have key : ∀ (L : List ℕ) (s s' : ℚ), (∀ c ∈ L, f c ≤ g c) → s ≤ s' → (L.map f).foldl (fun s x => fl (s + x)) s ≤ (L.map g).foldl (fun s x => fl (s + x)) s' := by
    intro L
    induction L with
    | nil => intro s s' _ h; exact h
    | cons c L ih =>
      intro s s' h hs
      simp only [List.map_cons, List.foldl_cons]
      exact ih _ _ (fun c hc => h c (by simp [hc])) (hf.monotone _ _ (by have := h c (by simp); linarith))
  exact key L 0 0 h le_rfl

section
variable {fl : ℚ → ℚ} (hf : Rounding fl) {m : Market} {r : List ℕ} {M k : ℕ} (hm : FloatReports m r M k)
include hf hm

/-- The utilities in the protocol without the heuristic: the first deal of `optimal_trade` is dropped, and its values are the prices. -/
theorem flMcAfee_utility {t : TradeWithSinglePrice} (ht : Floating.mcafeeTradeReduction fl m r false = .ok t) {i : ℕ} (hi : i < m.numCategories) :
    ∃ n, FlStop fl m r 2000000 true n ∧ ((n = 0 ∧ ∀ v b, utility t i v b = 0) ∨
      ∃ (j : ℕ) (l : List ℕ), (j :: l).Perm (List.range n) ∧ (∀ a ∈ j :: l, (vAt m.sorted i).getD j 0 ≤ (vAt m.sorted i).getD a 0 + 2 * (m.numCategories / 2 ^ k)) ∧
        ∀ v b, utility t i v b = if b ∈ l.map (fun a => (vAt m.sorted i).getD a 0) then v - (vAt m.sorted i).getD j 0 else 0) := by
  have hrat := float_mcafee_rational hf hm ht
  obtain ⟨hr, hcat⟩ := flMcAfee_inv ht
  obtain ⟨n, idx, l, p, hk, hperm, ho, hres, hfalse, he⟩ := flMcAfee_eq fl hr hcat false
  rw [he] at ht
  simp only [Except.ok.injEq] at ht
  subst ht
  refine ⟨n, hk, ?_⟩
  obtain ⟨q, hq, -, hle⟩ := hrat
  obtain rfl : p = q := by simpa using hq
  cases hres with
  | none =>
    left
    have hn : n = 0 := by simpa using hperm.length_eq.symm
    refine ⟨hn, fun v b => ?_⟩
    unfold utility
    simp only [pick_values m [] hi]
    simp [sortDesc]
  | full ps h1 h2 => simp at h1
  | reduced =>
    rename_i j
    right
    obtain ⟨hb, -⟩ := blk_ones_getD hr (hk.taken j (perm_lt hperm j (by simp))).1 hi
    have hlen : l.length + 1 = n := by simpa using hperm.length_eq
    refine ⟨j, l, hperm, ?_, fun v b => ?_⟩
    · intro a ha
      rcases List.mem_cons.1 ha with rfl | ha
      · have : (0 : ℚ) ≤ 2 * (m.numCategories / 2 ^ k) := by positivity
        linarith
      · have := hle i ((vAt m.sorted i).getD a 0) (by
          rw [pick_values m l hi]
          exact (sortDesc_perm _).mem_iff.2 (List.mem_map_of_mem (f := fun j => (vAt m.sorted i).getD j 0) ha))
        rw [hb] at this
        exact this
    · have hnum := flMcAfee_num hf hm hr hcat (t := l.length) (by
        intro c hc
        have := taken_lt hr hk (show n - 1 < n by omega) c hc
        omega)
      have hri : r.getD i 0 = 1 := by rw [hr]; simp [hi]
      unfold utility
      simp only [pick_values m l hi, hnum, hri, one_mul, (sortDesc_perm _).mem_iff, (sortDesc_perm _).length_eq, List.length_map, Option.getD_some, hb]
      split_ifs with hmem
      · have : (l.length : ℚ) ≠ 0 := by
          intro h0
          have h0' : l = [] := List.length_eq_zero_iff.1 (by exact_mod_cast h0)
          rw [h0'] at hmem
          simp at hmem
        change (l.length : ℚ) / l.length * _ = _
        rw [div_self this, one_mul]
      · rfl

end

section
variable {fl : ℚ → ℚ} (hf : Rounding fl) {m : Market} {r : List ℕ} {i : ℕ} {v b : ℚ} {M k : ℕ} (hv : FloatReports (withAgent m i v) r M k)
include hf hv

/-- Whatever the others report, a false report gains at most `2n/2^k` in McAfee's protocol without the heuristic, and a true report loses at most as much. -/
theorem float_mcafee_truthful (hb : FloatReports (withAgent m i b) r M k) (hN : m.numAgents < 2000000) {tT tB : TradeWithSinglePrice}
    (hT : Floating.mcafeeTradeReduction fl (withAgent m i v) r false = .ok tT) (hB : Floating.mcafeeTradeReduction fl (withAgent m i b) r false = .ok tB) :
    utility tB i v b ≤ utility tT i v v + 2 * (m.numCategories / 2 ^ k) ∧ -(2 * (m.numCategories / 2 ^ k)) ≤ utility tT i v v := by
  obtain ⟨hrT, hcatT⟩ := flMcAfee_inv hT
  obtain ⟨hrB, hcatB⟩ := flMcAfee_inv hB
  have hE : (0 : ℚ) ≤ 2 * (m.numCategories / 2 ^ k) := by positivity
  by_cases hi' : i < m.numCategories
  swap
  · have hz : ∀ (x y : ℚ) (t : TradeWithSinglePrice), Floating.mcafeeTradeReduction fl (withAgent m i y) r false = .ok t → utility t i x y = 0 := by
      intro x y t ht
      obtain ⟨hr, hcat⟩ := flMcAfee_inv ht
      obtain ⟨n, idx, l, p, -, -, -, -, -, he⟩ := flMcAfee_eq fl hr hcat false
      rw [he] at ht
      simp only [Except.ok.injEq] at ht
      subst ht
      have : ((pick (withAgent m i y).sorted l).map AgentCategory.values).getD i [] = [] := by
        rw [List.getD_eq_getElem?_getD, List.getElem?_eq_none (by
          simp only [pick, List.length_map, Market.sorted_length, withAgent_length]; omega)]
        rfl
      unfold utility
      simp only [this]
      simp
    rw [hz v b tB hB, hz v v tT hT]
    constructor <;> linarith
  set mT := withAgent m i v with hmT
  set mB := withAgent m i b with hmB
  have hnT : mT.numCategories = m.numCategories := withAgent_length ..
  have hnB : mB.numCategories = m.numCategories := withAgent_length ..
  obtain ⟨nT, hkT, hcT⟩ := flMcAfee_utility hf hv hT (i := i) (by omega)
  obtain ⟨n, hk, hcB⟩ := flMcAfee_utility hf hb hB (i := i) (by omega)
  rw [hnT] at hcT
  rw [hnB] at hcB
  have hlow : -(2 * (m.numCategories / 2 ^ k : ℚ)) ≤ utility tT i v v := by
    rcases hcT with ⟨-, h⟩ | ⟨j, l, -, hj, h⟩
    · rw [h]; linarith
    · rw [h]
      split_ifs with hmem
      · obtain ⟨a, ha, h2⟩ := List.mem_map.1 hmem
        have := hj a (by simp [ha])
        rw [h2] at this
        linarith
      · linarith
  refine ⟨?_, hlow⟩
  rcases hcB with ⟨-, h⟩ | ⟨jB, l, hperm, hjB, h⟩
  · rw [h]; linarith
  rw [h]
  split_ifs with hmem
  swap
  · linarith
  by_cases hpv : v ≤ (vAt mB.sorted i).getD jB 0
  · linarith
  replace hpv : (vAt mB.sorted i).getD jB 0 < v := not_le.1 hpv
  have hlt := perm_lt hperm
  have hn0 : 0 < n := lt_of_le_of_lt (Nat.zero_le _) (hlt jB (by simp))
  have havB := (hk.taken (n - 1) (by omega)).1
  set X := vAt m.categories i with hX
  have hVB : vAt mB.sorted i = sortDesc (b :: X) := by rw [vAt_sorted, vAt_withAgent_eq m b hi']
  have hVT : vAt mT.sorted i = sortDesc (v :: X) := by rw [vAt_sorted, vAt_withAgent_eq m v hi']
  have hoth : ∀ j, j ≠ i → vAt mT.sorted j = vAt mB.sorted j := by
    intro j hj
    rw [vAt_sorted, vAt_sorted, vAt_withAgent_ne m v hj, vAt_withAgent_ne m b hj]
  have hsz : ∀ j, (vAt mT.sorted j).length = (vAt mB.sorted j).length := by
    intro j
    by_cases hj : j = i
    · subst hj; rw [hVT, hVB]; simp
    · rw [hoth j hj]
  have hcl : mT.sorted.length = mB.sorted.length := by rw [mT.sorted_length, mB.sorted_length]; omega
  have havT : ∀ t, Avail mT.sorted r t ↔ Avail mB.sorted r t := by
    intro t; unfold Avail; rw [hcl]; simp only [hsz]
  have hlB : n ≤ (vAt mB.sorted i).length := by
    have := (blk_ones_getD hrB havB (show i < mB.numCategories by omega)).2
    omega
  have hsi : n ≤ X.length + 1 := by rw [hVB] at hlB; simpa using hlB
  -- the deals of the misreporting run, as a list of values
  have hvals : (vAt mB.sorted i).getD jB 0 ::ₘ (l.map (fun a => (vAt mB.sorted i).getD a 0) : Multiset ℚ) = ((vAt mB.sorted i).take n : Multiset ℚ) := by
    have e : (vAt mB.sorted i).take n = (List.range n).map (fun a => (vAt mB.sorted i).getD a 0) := by
      apply List.ext_getElem
      · simp [hlB]
      · intro a h1 h2
        simp only [List.length_map, List.length_range] at h2
        simp [show a < (vAt mB.sorted i).length by omega]
    rw [e, Multiset.cons_coe, Multiset.coe_eq_coe]
    exact hperm.map (fun a => (vAt mB.sorted i).getD a 0)
  have hmem' : b ∈ (sortDesc (b :: X)).take n := by
    rw [← hVB, ← Multiset.mem_coe, ← hvals]
    exact Multiset.mem_cons_of_mem (Multiset.mem_coe.2 hmem)
  have hkeep : (vAt mB.sorted i).getD jB 0 ∈ ((sortDesc (b :: X)).take n).erase b := by
    rw [← hVB, ← Multiset.mem_coe, ← Multiset.coe_erase, ← hvals]
    by_cases hbj : b = (vAt mB.sorted i).getD jB 0
    · rw [← hbj, Multiset.erase_cons_head]
      exact Multiset.mem_coe.2 hmem
    · rw [Multiset.erase_cons_tail_of_mem (Multiset.mem_coe.2 hmem)]
      exact Multiset.mem_cons_self _ _
  obtain ⟨hX1, hX2⟩ := drop_report hsi hmem'
  have hXdrop : (sortDesc X).drop (n - 1) = (sortDesc (b :: X)).drop n := by
    conv_lhs => rw [hX1]
    rw [List.drop_append_of_le_length (by omega), List.drop_of_length_le (by omega), List.nil_append]
  have hXtake : (sortDesc X).take (n - 1) = ((sortDesc (b :: X)).take n).erase b := by
    conv_lhs => rw [hX1]
    rw [List.take_append_of_le_length (by omega), List.take_of_length_le (by omega)]
  have hge : ∀ (q : Market) (c a a' : ℕ), a ≤ a' → a' < (vAt q.sorted c).length → (vAt q.sorted c).getD a' 0 ≤ (vAt q.sorted c).getD a 0 := by
    intro q c a a' hab hb
    rw [getD_lt hb, getD_lt (by omega)]
    exact (sorted_vAt q c).getElem_ge hab hb
  have hlow' : (vAt mB.sorted i).getD (n - 1) 0 < v := lt_of_le_of_lt (hge mB i jB (n - 1) (by have := hlt jB (by simp); omega) (by omega)) hpv
  obtain ⟨hT1, hT2⟩ := add_report (v := v) hn0 hsi (fun x hx => by
    rw [hXdrop, ← hVB] at hx
    obtain ⟨a, ha, rfl⟩ := List.getElem_of_mem hx
    refine le_trans ?_ hlow'.le
    rw [getD_lt (show n - 1 < (vAt mB.sorted i).length by omega)]
    simp only [List.getElem_drop]
    apply (sorted_vAt mB i).getElem_ge; omega)
  rw [hXdrop] at hT2
  rw [hXtake] at hT1
  have hdrop : ∀ j, (vAt mT.sorted j).drop n = (vAt mB.sorted j).drop n := by
    intro j
    by_cases hj : j = i
    · subst hj; rw [hVT, hVB, hT2]
    · rw [hoth j hj]
  -- the last of the first `n` agents of the true report
  have hlT : n - 1 < (vAt mT.sorted i).length := by rw [hsz]; omega
  have hlastT : (vAt mT.sorted i).getD (n - 1) 0 ∈ (vAt mT.sorted i).take n := by
    rw [getD_lt hlT]
    exact List.mem_take_iff_getElem.2 ⟨n - 1, by omega, rfl⟩
  have hTle : ∀ x ∈ (vAt mT.sorted i).take n, (vAt mT.sorted i).getD (n - 1) 0 ≤ x := by
    intro x hx
    obtain ⟨a, ha, rfl⟩ := List.mem_take_iff_getElem.1 hx
    have := hge mT i a (n - 1) (by omega) hlT
    rwa [getD_lt (show a < (vAt mT.sorted i).length by omega)] at this
  have hBle : ∀ x ∈ (vAt mB.sorted i).take n, (vAt mB.sorted i).getD (n - 1) 0 ≤ x := by
    intro x hx
    obtain ⟨a, ha, rfl⟩ := List.mem_take_iff_getElem.1 hx
    have := hge mB i a (n - 1) (by omega) (by omega)
    rwa [getD_lt (show a < (vAt mB.sorted i).length by omega)] at this
  have hlastBT : (vAt mB.sorted i).getD (n - 1) 0 ≤ (vAt mT.sorted i).getD (n - 1) 0 := by
    have h1 := hlastT
    rw [hVT, hT1, mem_sortDesc, List.mem_cons, ← hVT] at h1
    rcases h1 with h1 | h1
    · rw [h1]; exact hlow'.le
    · refine hBle _ ?_
      rw [hVB]
      exact List.mem_of_mem_erase h1
  have hlastT_le : (vAt mT.sorted i).getD (n - 1) 0 ≤ (vAt mB.sorted i).getD jB 0 := by
    refine hTle _ ?_
    rw [hVT, hT1, mem_sortDesc]
    exact List.mem_cons_of_mem _ hkeep
  -- the two runs make the same number of optimal deals
  have hgood : ∀ t < n, Avail mT.sorted r t ∧ FlGood fl true (blk mT.sorted r t) := by
    intro t ht
    have hav := (havT t).2 (hk.taken t ht).1
    refine ⟨hav, ?_⟩
    have h2 := (hk.taken (n - 1) (by omega)).2
    rw [blk_ones (by rw [mB.sorted_length]; exact hrB) havB] at h2
    rw [blk_ones (by rw [mT.sorted_length]; exact hrT) hav, hcl]
    have h3 := flSum_map_mono hf (f := fun c => (vAt mB.sorted c).getD (n - 1) 0) (g := fun c => (vAt mT.sorted c).getD t 0) (List.range mB.sorted.length) (by
      intro c hc
      have hc' : c < mB.numCategories := by rw [← mB.sorted_length]; exact List.mem_range.1 hc
      have hcB := (blk_ones_getD hrB havB hc').2
      refine le_trans ?_ (hge mT c t (n - 1) (by omega) (by rw [hsz]; exact hcB))
      by_cases hci : c = i
      · subst hci; exact hlastBT
      · rw [hoth c hci])
    unfold FlGood Good at h2 ⊢
    push Not at h2 ⊢
    exact ⟨h2.1.trans h3, fun _ => by simp⟩
  have hnum : mT.numAgents ≤ 2000000 ∧ mB.numAgents ≤ 2000000 := by
    have h1 := numAgents_withAgent m i v
    have h2 := numAgents_withAgent m i b
    rw [← hmT] at h1
    rw [← hmB] at h2
    omega
  have hpos : ∃ x ∈ r, 0 < x := by
    refine ⟨1, ?_, by norm_num⟩
    rw [hrB, hnB]
    exact List.mem_replicate.2 ⟨by omega, rfl⟩
  have hstop : ¬ Avail mT.sorted r n ∨ ¬ FlGood fl true (blk mT.sorted r n) := by
    rcases hk.stop hnum.2 hpos with h1 | h1
    · exact Or.inl (fun hh => h1 ((havT n).1 hh))
    · by_cases hav : Avail mB.sorted r n
      · right
        rw [blk_congr (by rw [mB.sorted_length]; exact hrB) hcl (le_refl n) hdrop hav ((havT n).2 hav)]
        exact h1
      · exact Or.inl (fun hh => hav ((havT n).1 hh))
  have hnn : nT = n := by
    rcases Nat.lt_trichotomy nT n with h1 | h1 | h1
    · exfalso
      obtain ⟨h2, h3⟩ := hgood nT h1
      rcases hkT.stop hnum.1 hpos with h4 | h4
      · exact h4 h2
      · exact h4 h3
    · exact h1
    · exfalso
      obtain ⟨h2, h3⟩ := hkT.taken n h1
      rcases hstop with h4 | h4
      · exact h4 h2
      · exact h4 h3
  subst hnn
  rcases hcT with ⟨h0, -⟩ | ⟨jT, lT, hpermT, hjT, hutT⟩
  · omega
  have hjT' : (vAt mT.sorted i).getD jT 0 ≤ (vAt mB.sorted i).getD jB 0 + 2 * (m.numCategories / 2 ^ k) := by
    have := hjT (nT - 1) (hpermT.mem_iff.2 (List.mem_range.2 (by omega)))
    linarith
  rw [hutT]
  split_ifs with hvm
  · linarith
  · -- the agent is the one of the dropped deal
    have hvt : v ∈ (vAt mT.sorted i).take nT := by rw [hVT, hT1, mem_sortDesc]; simp
    obtain ⟨a, ha, hav⟩ := List.mem_take_iff_getElem.1 hvt
    have ha' : a ∈ jT :: lT := hpermT.mem_iff.2 (List.mem_range.2 (by omega))
    have hav' : (vAt mT.sorted i).getD a 0 = v := by rw [getD_lt (show a < (vAt mT.sorted i).length by omega)]; exact hav
    rcases List.mem_cons.1 ha' with rfl | h1
    · linarith
    · exact absurd (List.mem_map.2 ⟨a, h1, hav'⟩) hvm

end

/-- The market `tinyCosts` without its second seller. -/
def tinyCost : Market := ⟨[⟨"buyer", [100000000, 100000000]⟩, ⟨"seller", [-1 / 2 ^ 30]⟩]⟩

theorem tinyCost_float {x : ℚ} (hx : x = -1 / 2 ^ 29 ∨ x = -1) : FloatReports (withAgent tinyCost 1 x) [1, 1] 100000000 25 where
  float := by
    intro c hc v hv
    have h1 : Double 100000000 := ⟨100000000, 0, by norm_num, by norm_num, by norm_num, by norm_num⟩
    have h2 : Double (-1 / 2 ^ 30) := ⟨-1, -30, by norm_num, by norm_num, by norm_num, by norm_num⟩
    have h3 : Double (-1 / 2 ^ 29) := ⟨-1, -29, by norm_num, by norm_num, by norm_num, by norm_num⟩
    have h4 : Double (-1) := ⟨-1, 0, by norm_num, by norm_num, by norm_num, by norm_num⟩
    simp only [withAgent, tinyCost, List.modify_succ_cons, List.modify_zero_cons, List.mem_cons, List.not_mem_nil, or_false] at hc
    rcases hc with rfl | rfl <;> simp only [List.mem_cons, List.not_mem_nil, or_false] at hv
    · rcases hv with rfl | rfl <;> exact ⟨h1, by rw [abs_of_nonneg (by norm_num)]; norm_num, by norm_num⟩
    · rcases hv with rfl | rfl
      · rcases hx with rfl | rfl
        · exact ⟨h3, by rw [abs_of_nonpos (by norm_num)]; norm_num, by norm_num⟩
        · exact ⟨h4, by rw [abs_of_nonpos (by norm_num)]; norm_num, by norm_num⟩
      · exact ⟨h2, by rw [abs_of_nonpos (by norm_num)]; norm_num, by norm_num⟩
  constant := le_rfl
  digits := by norm_num
  categories := by norm_num
  sizes := by rcases hx with rfl | rfl <;> decide +kernel

/-- The protocol is not exactly truthful: a seller whose cost is tiny trades and gets even less, if it reports its cost; by reporting the cost 1 it avoids this loss. -/
theorem float_mcafee_not_truthful : ∃ (m : Market) (v b : ℚ) (tT tB : TradeWithSinglePrice), FloatReports (withAgent m 1 v) [1, 1] 100000000 25 ∧ FloatReports (withAgent m 1 b) [1, 1] 100000000 25 ∧
    Floating.mcafeeTradeReduction nearestFloat (withAgent m 1 v) [1, 1] false = .ok tT ∧ Floating.mcafeeTradeReduction nearestFloat (withAgent m 1 b) [1, 1] false = .ok tB ∧
    utility tT 1 v v < 0 ∧ utility tB 1 v b = 0 :=
  ⟨tinyCost, -1 / 2 ^ 29, -1, ⟨[⟨"buyer", [100000000]⟩, ⟨"seller", [-1 / 2 ^ 29]⟩], [1, 1], some [100000000, -1 / 2 ^ 30], 1⟩,
    ⟨[⟨"buyer", [100000000]⟩, ⟨"seller", [-1 / 2 ^ 30]⟩], [1, 1], some [100000000, -1], 1⟩, tinyCost_float (Or.inl rfl), tinyCost_float (Or.inr rfl),
    by decide +kernel, by decide +kernel, by decide +kernel, by decide +kernel⟩

/-- The theorem above, for these reports. -/
example : ∃ tT tB, Floating.mcafeeTradeReduction nearestFloat (withAgent tinyCost 1 (-1 / 2 ^ 29)) [1, 1] false = .ok tT ∧
    Floating.mcafeeTradeReduction nearestFloat (withAgent tinyCost 1 (-1)) [1, 1] false = .ok tB ∧
    utility tB 1 (-1 / 2 ^ 29) (-1) ≤ utility tT 1 (-1 / 2 ^ 29) (-1 / 2 ^ 29) + 2 * (2 / 2 ^ 25) := by
  have hT : Floating.mcafeeTradeReduction nearestFloat (withAgent tinyCost 1 (-1 / 2 ^ 29)) [1, 1] false =
      .ok ⟨[⟨"buyer", [100000000]⟩, ⟨"seller", [-1 / 2 ^ 29]⟩], [1, 1], some [100000000, -1 / 2 ^ 30], 1⟩ := by decide +kernel
  have hB : Floating.mcafeeTradeReduction nearestFloat (withAgent tinyCost 1 (-1)) [1, 1] false =
      .ok ⟨[⟨"buyer", [100000000]⟩, ⟨"seller", [-1 / 2 ^ 30]⟩], [1, 1], some [100000000, -1], 1⟩ := by decide +kernel
  exact ⟨_, _, hT, hB, (float_mcafee_truthful python_rounding.1 (tinyCost_float (Or.inl rfl)) (tinyCost_float (Or.inr rfl)) (by decide +kernel) hT hB).1⟩

end Auctions.Props
