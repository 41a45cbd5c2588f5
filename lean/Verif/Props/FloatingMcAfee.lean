import Verif.Proofs.FloatingMcAfeeRun
import Verif.Props.McAfee
import Verif.Props.FloatingDecimals

set_option autoImplicit false

/-! # C104: McAfee's protocol when the reports are decimal numbers (floats), which are rounded in every addition -/

namespace Auctions.Floating

open Auctions Auctions.Spec Auctions.Props Auctions.McAfee

theorem pick_total {cs : List AgentCategory} {r : List ℕ} (hr : r = List.replicate cs.length 1) {l : List ℕ} (hk : ∀ j ∈ l, ∀ c ∈ cs, j < c.values.length) :
    (((pick cs l).map AgentCategory.values).map List.sum).sum = (l.map (fun j => (blk cs r j).sum)).sum := by
  induction cs generalizing r with
  | nil => subst hr; simp [pick, blk]
  | cons c cs ih =>
    rw [List.length_cons, List.replicate_succ] at hr
    subst hr
    have h2 := ih rfl (fun j hj c hc => hk j hj c (by simp [hc]))
    simp only [pick, List.map_cons, List.sum_cons] at h2 ⊢
    rw [h2, (sortDesc_perm _).sum_eq, ← List.sum_map_add]
    congr 1
    refine List.map_congr_left fun j hj => ?_
    have hlt := hk j hj c (by simp)
    have hseg : seg c.values 1 j = [c.values.getD j 0] := by
      simp [seg, List.take_one_drop_eq_of_lt_length hlt, hlt]
    simp [blk, hseg]

theorem pick_values (m : Market) (l : List ℕ) {i : ℕ} (hi : i < m.numCategories) :
    ((pick m.sorted l).map AgentCategory.values).getD i [] = sortDesc (l.map (fun j => (vAt m.sorted i).getD j 0)) := by
  have hi' : i < m.sorted.length := by rw [m.sorted_length]; exact hi
  simp [pick, vAt, hi']

end Auctions.Floating

namespace Auctions.Props

open Auctions Auctions.Spec Auctions.Floating Auctions.McAfee
open Auctions.Ascending (sorted_vAt)

/-- Whatever the rounding does, McAfee's protocol returns a trade. -/
theorem float_mcafee_total (fl : ℚ → ℚ) {m : Market} (hcat : m.categories ≠ []) (h : Bool) :
    ∃ t, Floating.mcafeeTradeReduction fl m (List.replicate m.numCategories 1) h = .ok t := by
  obtain ⟨k, idx, l, p, -, -, -, -, -, he⟩ := flMcAfee_eq fl rfl hcat h
  exact ⟨_, he⟩

section
variable {fl : ℚ → ℚ} (hf : Rounding fl) {m : Market} {r : List ℕ} {M k : ℕ} (hm : FloatReports m r M k)

theorem ones_sum {m : Market} {r : List ℕ} (hr : r = List.replicate m.numCategories 1) : r.sum = m.numCategories := by rw [hr]; simp

theorem _root_.Auctions.Spec.FloatReports.sum_le {m : Market} {r : List ℕ} {M k : ℕ} (hm : FloatReports m r M k) (hr : r = List.replicate m.numCategories 1) : r.sum ≤ 2 ^ k := by
  have := hm.categories
  have h1 : r.length = r.sum := by rw [hr]; simp
  omega

theorem perm_lt {idx : List ℕ} {n : ℕ} (h : idx.Perm (List.range n)) : ∀ j ∈ idx, j < n := fun j hj => List.mem_range.1 (h.mem_iff.1 hj)

theorem taken_lt {fl : ℚ → ℚ} {m : Market} {r : List ℕ} {N n : ℕ} {z : Bool} (hr : r = List.replicate m.numCategories 1) (hk : FlStop fl m r N z n) {j : ℕ} (hj : j < n) :
    ∀ c ∈ m.sorted, j < c.values.length := by
  intro c hc
  obtain ⟨i, hi, rfl⟩ := List.getElem_of_mem hc
  have hi' : i < m.numCategories := by rw [← m.sorted_length]; exact hi
  have := (blk_ones_getD hr (hk.taken j hj).1 hi').2
  rwa [vAt_eq_getElem hi] at this

include hf hm in
theorem flMcAfee_num {t : ℕ} (hr : r = List.replicate m.numCategories 1) (hcat : m.categories ≠ []) (ht : ∀ c ∈ m.sorted, t ≤ c.values.length) :
    ⌊fl ((t : ℚ) / (1 : ℕ))⌋.toNat = t := by
  obtain ⟨c, cs, hc⟩ := List.exists_cons_of_ne_nil hcat
  have h1 : (1 : ℕ) ∈ r := by rw [hr]; simp [Market.numCategories, hc]
  have h2 := hm.sizes c (by simp [hc]) 1 h1
  have h3 := ht (AgentCategory.clone c) (by simp [Market.sorted, hc])
  have h4 : (AgentCategory.clone c).values.length = c.values.length := (sortDesc_perm _).length_eq
  rw [floor_quotient hf (by norm_num) (by rw [h4] at h3; nlinarith), Nat.div_one]

/-- The trade has all the deals of `optimal_trade`, or all except one (always all except one, if there are any, without the heuristic). In each category the traders are the highest agents
except those of the dropped deal. -/
theorem float_mcafee_deals (hf : Rounding fl) (hm : FloatReports m r M k) {h : Bool} {t : TradeWithSinglePrice} {o : TradeWithMaterialBalance} {rem : Market}
    (ht : Floating.mcafeeTradeReduction fl m r h = .ok t) (ho : Floating.optimalTrade fl m r = .ok (o, rem)) :
    t.numOfDeals ≤ o.numOfDeals ∧ o.numOfDeals ≤ t.numOfDeals + 1 ∧ (h = false → t.numOfDeals = o.numOfDeals - 1) ∧
    t.categories.map AgentCategory.name = m.categories.map AgentCategory.name ∧
    ∃ dropped : List (List ℚ), t.numOfDeals + dropped.length = o.numOfDeals ∧ (∀ ps ∈ dropped, ps ∈ o.procurementSets) ∧
      ∀ i < m.numCategories, SortedDesc ((t.categories.map AgentCategory.values).getD i []) ∧ ((t.categories.map AgentCategory.values).getD i []).length = t.numOfDeals ∧
        IsTop o.numOfDeals (((t.categories.map AgentCategory.values).getD i [] ++ dropped.map (fun ps => ps.getD i 0) : List ℚ) : Multiset ℚ) (m.valueLists.getD i []) := by
  obtain ⟨hr, hcat⟩ := flMcAfee_inv ht
  obtain ⟨n, idx, l, p, hk, hperm, ho', hres, hfalse, he⟩ := flMcAfee_eq fl hr hcat h
  rw [he] at ht
  rw [ho'] at ho
  simp only [Except.ok.injEq, Prod.mk.injEq] at ht ho
  obtain ⟨rfl, rfl⟩ := ho
  subst ht
  have hlen : idx.length = n := by rw [hperm.length_eq, List.length_range]
  have hsub : ∃ d : List ℕ, idx.Perm (l ++ d) ∧ d.length ≤ 1 := by
    cases hres with
    | none => exact ⟨[], by simp, by simp⟩
    | full ps h1 h2 => exact ⟨[], by simp, by simp⟩
    | reduced =>
      rename_i i
      exact ⟨[i], (List.perm_append_singleton i l).symm, by simp⟩
  obtain ⟨d, hd, hd1⟩ := hsub
  have hle : l.length + d.length = n := by rw [← hlen, hd.length_eq, List.length_append]
  have hnum := flMcAfee_num hf hm hr hcat (t := l.length) (by
    intro c hc
    rcases Nat.eq_zero_or_pos n with h0 | h0
    · omega
    · have := taken_lt hr hk (show n - 1 < n by omega) c hc
      omega)
  simp only [TradeWithSinglePrice.numOfDeals, TradeWithMaterialBalance.numOfDeals, List.length_map, hlen]
  rw [hnum]
  refine ⟨by omega, by omega, fun h0 => ?_, ?_, d.map (blk m.sorted r), by simp [hle], ?_, fun i hi => ?_⟩
  · cases idx with
    | nil => simp only [List.length_nil] at hlen; omega
    | cons i rest => rw [hfalse h0 (by simp), ← hlen]; simp
  · simp [pick, Market.sorted, AgentCategory.clone, AgentCategory.init]
  · intro ps hps
    obtain ⟨j, hj, rfl⟩ := List.mem_map.1 hps
    exact List.mem_map_of_mem (hd.mem_iff.2 (by simp [hj]))
  · rw [pick_values m l hi]
    refine ⟨sortDesc_sorted _, by rw [(sortDesc_perm _).length_eq, List.length_map], ?_⟩
    have hV : n ≤ (vAt m.sorted i).length := by
      rcases Nat.eq_zero_or_pos n with h0 | h0
      · omega
      · have := (blk_ones_getD hr (hk.taken (n - 1) (by omega)).1 hi).2
        omega
    have hd' : (d.map (blk m.sorted r)).map (fun ps => ps.getD i 0) = d.map (fun j => (vAt m.sorted i).getD j 0) := by
      rw [List.map_map]
      refine List.map_congr_left fun j hj => ?_
      exact (blk_ones_getD hr (hk.taken j (perm_lt hperm j (hd.mem_iff.2 (by simp [hj])))).1 hi).1
    have htop := AgentCategory.isTop_take (sorted_vAt m i) hV
    rw [hd']
    have hp : (sortDesc (l.map (fun j => (vAt m.sorted i).getD j 0)) ++ d.map (fun j => (vAt m.sorted i).getD j 0)).Perm ((vAt m.sorted i).take n) := by
      refine ((sortDesc_perm _).append_right _).trans ?_
      rw [← List.map_append]
      refine ((hd.symm.trans hperm).map _).trans (List.Perm.of_eq ?_)
      apply List.ext_getElem
      · simp [hV]
      · intro j h1 h2
        simp only [List.length_map, List.length_range] at h1
        simp [show j < (vAt m.sorted i).length by omega]
    rw [Multiset.coe_eq_coe.2 hp]
    have := htop.1
    rw [vAt_sorted] at this ⊢
    rw [sortDesc_coe] at this
    exact this

include hf hm

/-- A number that is rounded to a moderate number is a float after rounding. -/
theorem round_twice (hr : r = List.replicate m.numCategories 1) (hcat : m.categories ≠ []) {q : ℚ} (h0 : 0 ≤ q) (h1 : fl q ≤ M) : fl (fl q) = fl q ∧ fl (-fl q) = -fl q := by
  have hn : 0 < m.numCategories := List.length_pos_iff.2 hcat
  have hd := hm.digits
  rw [ones_sum hr] at hd
  have hM : M < 2 ^ 53 := by
    have h2 : M * m.numCategories + 1 ≤ 2 ^ 53 := (Nat.le_mul_of_pos_right _ (by positivity)).trans hd
    have h3 : M ≤ M * m.numCategories := Nat.le_mul_of_pos_right _ hn
    omega
  have hq : |q| ≤ 2 ^ 53 := by
    rw [abs_of_nonneg h0]
    by_contra hc
    push Not at hc
    have h2 : fl (2 ^ 53) ≤ fl q := hf.monotone _ _ hc.le
    rw [hf.exact _ ⟨2 ^ 52, 1, by norm_num, by norm_num, by norm_num, by norm_num⟩] at h2
    have : (M : ℚ) < 2 ^ 53 := by exact_mod_cast hM
    linarith
  have h2 := hf.exact _ (hf.float q hq)
  exact ⟨h2, by rw [hf.symmetric, h2]⟩

/-- The heuristic price and the prices it leads to. -/
theorem heuristic_spec (hr : r = List.replicate m.numCategories 1) (hcat : m.categories ≠ []) {N i : ℕ} {z : Bool} {n : ℕ} (hk : FlStop fl m r N z n) (hi : i < n) (ps : List ℚ)
    (hg : isPriceGoodForPs (fl (flSum fl (ps.map (fun x => |x|)) / ps.length)) (blk m.sorted r i) = true) :
    ∃ c, 0 ≤ c ∧ (∀ x ∈ blk m.sorted r i, c * (if x < 0 then -1 else 1) ≤ x) ∧
      (List.range m.numCategories).map (fun n => fl (fl (flSum fl (ps.map (fun x => |x|)) / ps.length) * (if (blk m.sorted r i).getD n 0 < 0 then -1 else 1)))
        = (blk m.sorted r i).map (fun x => c * (if x < 0 then -1 else 1)) := by
  have hl : r.length = m.numCategories := by rw [hr]; simp
  have hr' : r = List.replicate m.sorted.length 1 := by rw [m.sorted_length]; exact hr
  have hzero : fl 0 = 0 := hf.exact 0 ⟨0, 0, by norm_num, by norm_num, by norm_num, by norm_num⟩
  have hnn : ∀ (l : List ℚ) (s : ℚ), (∀ x ∈ l, 0 ≤ x) → 0 ≤ s → 0 ≤ l.foldl (fun s x => fl (s + x)) s := by
    intro l
    induction l with
    | nil => intro s _ hs; exact hs
    | cons x l ih =>
      intro s hx hs
      refine ih _ (fun y hy => hx y (by simp [hy])) ?_
      rw [← hzero]
      exact hf.monotone _ _ (by have := hx x (by simp); linarith)
  have hq0 : 0 ≤ flSum fl (ps.map (fun x => |x|)) / ps.length := by
    refine div_nonneg (hnn _ 0 ?_ le_rfl) (by positivity)
    intro x hx
    obtain ⟨y, -, rfl⟩ := List.mem_map.1 hx
    exact abs_nonneg y
  have hc0 : 0 ≤ fl (flSum fl (ps.map (fun x => |x|)) / ps.length) := by
    rw [← hzero]; exact hf.monotone _ _ hq0
  obtain ⟨hav, hgood⟩ := hk.taken i hi
  have hs : 0 ≤ flSum fl (blk m.sorted r i) := by
    unfold FlGood Good at hgood; push Not at hgood; exact hgood.1
  have hprice := good_price hg
  have hbl : (blk m.sorted r i).length = m.numCategories := by rw [blk_ones_length hr' hav, m.sorted_length]
  have hbound : ∀ x ∈ blk m.sorted r i, Double x ∧ |x| ≤ M := by
    intro x hx
    obtain ⟨j, hj⟩ := blk_mem hx
    exact report_bound hm j x hj
  have hex : ∃ x ∈ blk m.sorted r i, 0 ≤ x := by
    by_contra hc
    push Not at hc
    obtain ⟨x, l, hx⟩ := List.exists_cons_of_ne_nil (show blk m.sorted r i ≠ [] by
      intro h0; rw [h0] at hbl; exact hcat (List.length_eq_zero_iff.1 hbl.symm))
    rw [hx] at hs hc hbound
    unfold flSum at hs
    rw [List.foldl_cons, zero_add, hf.exact x (hbound x (by simp)).1] at hs
    have hx0 := hc x (by simp)
    have hmono : ∀ (l : List ℚ) (s : ℚ), s ≤ x → (∀ y ∈ l, y < 0) → l.foldl (fun s x => fl (s + x)) s ≤ x := by
      intro l
      induction l with
      | nil => intro s h _; exact h
      | cons w l ih =>
        intro s h hw
        refine ih _ ?_ fun y hy => hw y (by simp [hy])
        rw [← hf.exact x (hbound x (by simp)).1]
        exact hf.monotone _ _ (by have := hw w (by simp); linarith)
    have := hmono l x le_rfl fun y hy => hc y (by simp [hy])
    linarith
  obtain ⟨x, hx, hx0⟩ := hex
  have hcM : fl (flSum fl (ps.map (fun x => |x|)) / ps.length) ≤ M := by
    have h1 := hprice x hx
    rw [if_neg (by linarith), mul_one] at h1
    exact h1.trans ((le_abs_self x).trans (hbound x hx).2)
  obtain ⟨h2, h3⟩ := round_twice hf hm hr hcat hq0 hcM
  refine ⟨_, hc0, hprice, ?_⟩
  apply List.ext_getElem
  · simp [hbl]
  · intro j h4 h5
    simp only [List.length_map, List.length_range] at h4
    simp only [List.getElem_map, List.getElem_range, getD_lt (show j < (blk m.sorted r i).length by omega)]
    split_ifs
    · rw [mul_neg_one]; exact h3
    · rw [mul_one]; exact h2

/-- No trader pays (or loses) more than a small amount: `2*n/2^k` in a market of `n` categories. -/
theorem float_mcafee_rational {h : Bool} {t : TradeWithSinglePrice} (ht : Floating.mcafeeTradeReduction fl m r h = .ok t) :
    ∃ p, t.prices = some p ∧ p.length = m.numCategories ∧
      ∀ i, ∀ v ∈ (t.categories.map AgentCategory.values).getD i [], p.getD i 0 ≤ v + 2 * (m.numCategories / 2 ^ k) := by
  obtain ⟨hr, hcat⟩ := flMcAfee_inv ht
  obtain ⟨n, idx, l, p, hk, hperm, ho, hres, -, he⟩ := flMcAfee_eq fl hr hcat h
  rw [he] at ht
  simp only [Except.ok.injEq] at ht
  subst ht
  have hl : r.length = m.numCategories := by rw [hr]; simp
  have hr' : r = List.replicate m.sorted.length 1 := by rw [m.sorted_length]; exact hr
  have hlen : ∀ i < n, (blk m.sorted r i).length = m.numCategories := by
    intro i hi
    rw [blk_ones_length hr' (hk.taken i hi).1, m.sorted_length]
  have hpair := (float_optimal_sorted ho).2
  have hlt := perm_lt hperm
  have hnd : idx.Nodup := hperm.nodup_iff.2 List.nodup_range
  -- a later deal in the list is nearly as good for each agent as the first one
  have key : ∀ (i : ℕ) (rest : List ℕ), idx = i :: rest → ∀ c < m.numCategories, ∀ j ∈ i :: rest,
      (vAt m.sorted c).getD i 0 ≤ (vAt m.sorted c).getD j 0 + 2 * (m.numCategories / 2 ^ k) := by
    intro i rest hidx c hc j hj
    subst hidx
    have hδ : (0 : ℚ) ≤ 2 * (m.numCategories / 2 ^ k) := by positivity
    have hi := hlt i (by simp)
    have hjn := hlt j hj
    have hvi := fun c (hc : c < m.numCategories) => (blk_ones_getD hr (hk.taken i hi).1 hc).2
    have hvj := fun c (hc : c < m.numCategories) => (blk_ones_getD hr (hk.taken j hjn).1 hc).2
    have hge : ∀ c (hc : c < m.numCategories) (a b : ℕ), a ≤ b → b < (vAt m.sorted c).length → (vAt m.sorted c).getD b 0 ≤ (vAt m.sorted c).getD a 0 := by
      intro c hc a b hab hb
      rw [getD_lt hb, getD_lt (by omega)]
      exact (sorted_vAt m c).getElem_ge hab hb
    rcases lt_or_ge i j with hij | hij
    · have hjr : j ∈ rest := by
        rcases List.mem_cons.1 hj with h1 | h1
        · omega
        · exact h1
      rw [List.map_cons, List.pairwise_cons] at hpair
      have h1 := hpair.1 _ (List.mem_map_of_mem (f := blk m.sorted r) hjr)
      obtain ⟨h2, -⟩ := flSum_blk hf hm (hm.sum_le hr) hl (hk.taken i hi).1
      obtain ⟨h3, -⟩ := flSum_blk hf hm (hm.sum_le hr) hl (hk.taken j hjn).1
      rw [ones_sum hr] at h2 h3
      have h4 := (abs_le.1 h2).1
      have h5 := (abs_le.1 h3).2
      have hsum : (blk m.sorted r i).sum ≤ (blk m.sorted r j).sum + 2 * (m.numCategories / 2 ^ k) := by linarith
      have e : ∀ a < n, (blk m.sorted r a).sum = ∑ c ∈ Finset.range m.numCategories, (vAt m.sorted c).getD a 0 := by
        intro a ha
        rw [blk_ones hr' (hk.taken a ha).1, m.sorted_length]
        rfl
      rw [e i hi, e j hjn] at hsum
      have h6 := Finset.single_le_sum (s := Finset.range m.numCategories) (f := fun c => (vAt m.sorted c).getD i 0 - (vAt m.sorted c).getD j 0)
        (fun c hc => sub_nonneg.2 (hge c (Finset.mem_range.1 hc) i j hij.le (hvj c (Finset.mem_range.1 hc)))) (Finset.mem_range.2 hc)
      rw [Finset.sum_sub_distrib] at h6
      linarith
    · have := hge c hc j i hij (hvi c hc)
      linarith
  have hmem : ∀ i, ∀ v ∈ ((pick m.sorted l).map AgentCategory.values).getD i [], i < m.numCategories ∧ ∃ j ∈ l, v = (vAt m.sorted i).getD j 0 := by
    intro i v hv
    have hi : i < m.numCategories := by
      by_contra hc
      have : ((pick m.sorted l).map AgentCategory.values).length ≤ i := by simp [pick, m.sorted_length]; omega
      rw [List.getD_eq_getElem?_getD, List.getElem?_eq_none this] at hv
      simp at hv
    rw [pick_values m l hi] at hv
    obtain ⟨j, hj, rfl⟩ := List.mem_map.1 ((sortDesc_perm _).mem_iff.1 hv)
    exact ⟨hi, j, hj, rfl⟩
  refine ⟨p, rfl, ?_, ?_⟩
  · cases hres with
    | none => simp
    | full ps h1 h2 => simp
    | reduced => exact hlen _ (hlt _ (by simp))
  · intro c v hv
    obtain ⟨hc, j, hj, rfl⟩ := hmem c v hv
    cases hres with
    | none => simp at hj
    | full ps h1 h2 =>
      rename_i i rest
      have hi := hlt i (by simp)
      obtain ⟨x, hx0, hx1, hx2⟩ := heuristic_spec hf hm hr hcat hk hi ps h2
      rw [hx2]
      obtain ⟨hb, -⟩ := blk_ones_getD hr (hk.taken i hi).1 hc
      have hcl : c < (blk m.sorted r i).length := by rw [hlen i hi]; exact hc
      have h3 := hx1 ((blk m.sorted r i).getD c 0) (by rw [getD_lt hcl]; exact List.getElem_mem _)
      have h4 : ((blk m.sorted r i).map (fun y => x * (if y < 0 then -1 else 1))).getD c 0 = x * (if (blk m.sorted r i).getD c 0 < 0 then -1 else 1) := by
        rw [getD_lt (by simpa using hcl), List.getElem_map, getD_lt hcl]
      rw [h4]
      refine h3.trans ?_
      rw [hb]
      exact key i rest rfl c hc j hj
    | reduced =>
      rename_i i
      obtain ⟨hb, -⟩ := blk_ones_getD hr (hk.taken i (hlt i (by simp))).1 hc
      rw [hb]
      exact key i l rfl c hc j (by simp [hj])

/-- Without the heuristic, the auctioneer pays at most a small amount for a deal: `n/2^k` in a market of `n` categories. In a two-sided market it never pays anything, with or without
the heuristic. -/
theorem float_mcafee_deficit {h : Bool} {t : TradeWithSinglePrice} (ht : Floating.mcafeeTradeReduction fl m r h = .ok t) :
    ∃ p, t.prices = some p ∧ (h = false → -(m.numCategories / 2 ^ k : ℚ) ≤ recipeSum r p) ∧ (m.numCategories = 2 → 0 ≤ recipeSum r p) := by
  obtain ⟨hr, hcat⟩ := flMcAfee_inv ht
  obtain ⟨n, idx, l, p, hk, hperm, ho, hres, -, he⟩ := flMcAfee_eq fl hr hcat h
  rw [he] at ht
  simp only [Except.ok.injEq] at ht
  subst ht
  have hl : r.length = m.numCategories := by rw [hr]; simp
  have hr' : r = List.replicate m.sorted.length 1 := by rw [m.sorted_length]; exact hr
  have hsum : ∀ q : List ℚ, q.length = m.numCategories → recipeSum r q = q.sum := by
    intro q hq
    rw [hr, ← hq]
    clear hr hq hres he hr' hl ho hk hf hm
    induction q with
    | nil => simp
    | cons x q ih => rw [List.length_cons, List.replicate_succ, recipeSum_cons, ih]; simp
  have hlen : ∀ i < n, (blk m.sorted r i).length = m.numCategories := by
    intro i hi
    rw [blk_ones_length hr' (hk.taken i hi).1, m.sorted_length]
  have hlt := perm_lt hperm
  have hpos : ∀ i < n, 0 ≤ flSum fl (blk m.sorted r i) := by
    intro i hi
    have hg := (hk.taken i hi).2
    unfold FlGood Good at hg; push Not at hg; exact hg.1
  have htwo : m.numCategories = 2 → ∀ i < n, ∃ x y, blk m.sorted r i = [x, y] ∧ 0 ≤ x + y := by
    intro h2 i hi
    have h3 := hlen i hi
    rw [h2] at h3
    obtain ⟨x, y, hxy⟩ := List.length_eq_two.1 h3
    have hb : ∀ v ∈ blk m.sorted r i, Double v := by
      intro v hv
      obtain ⟨j, hj⟩ := blk_mem hv
      exact (report_bound hm j v hj).1
    have h4 := hpos i hi
    rw [hxy] at h4 hb
    simp only [flSum, List.foldl_cons, List.foldl_nil, zero_add, hf.exact x (hb x (by simp))] at h4
    exact ⟨x, y, hxy, (sum_neg hf (hb x (by simp)) (hb y (by simp))).1 h4⟩
  refine ⟨p, rfl, fun h0 => ?_, fun h2 => ?_⟩
  · cases hres with
    | none => rw [hsum _ (by simp)]; simp only [List.sum_replicate, smul_zero, Left.neg_nonpos_iff]; positivity
    | full ps h1 h2 => rw [h0] at h1; simp at h1
    | reduced =>
      rename_i i
      have hi := hlt i (by simp)
      obtain ⟨h2, -⟩ := flSum_blk hf hm (hm.sum_le hr) hl (hk.taken i hi).1
      rw [ones_sum hr] at h2
      have h3 := (abs_le.1 h2).2
      have h4 := hpos i hi
      rw [hsum _ (hlen i hi)]
      linarith
  · cases hres with
    | none => rw [hsum _ (by simp)]; simp
    | full ps h1 hg =>
      rename_i i rest
      have hi := hlt i (by simp)
      obtain ⟨c, hc0, -, hc2⟩ := heuristic_spec hf hm hr hcat hk hi ps hg
      obtain ⟨x, y, hxy, h3⟩ := htwo h2 i hi
      rw [hsum _ (by simp), hc2, hxy]
      simp only [List.map_cons, List.map_nil, List.sum_cons, List.sum_nil, add_zero]
      by_cases hx : x < 0 <;> by_cases hy : y < 0 <;> simp only [hx, hy, if_true, if_false] <;> linarith
    | reduced =>
      rename_i i
      have hi := hlt i (by simp)
      obtain ⟨x, y, hxy, h3⟩ := htwo h2 i hi
      rw [hsum _ (hlen i hi), hxy]
      simpa using h3

/-- The traders' total value is at least `1-1/k` of the value of the deals of `optimal_trade` (which is nearly optimal by C103), and at most that value, up to small amounts. -/
theorem float_mcafee_gain {h : Bool} {t : TradeWithSinglePrice} {o : TradeWithMaterialBalance} {rem : Market}
    (ht : Floating.mcafeeTradeReduction fl m r h = .ok t) (ho : Floating.optimalTrade fl m r = .ok (o, rem)) :
    ((t.categories.map AgentCategory.values).map List.sum).sum ≤ o.gainFromTrade + m.numCategories / 2 ^ k ∧
    (0 < o.numOfDeals → (1 - 1 / (o.numOfDeals : ℚ)) * o.gainFromTrade - 2 * (m.numCategories / 2 ^ k) ≤ ((t.categories.map AgentCategory.values).map List.sum).sum) := by
  obtain ⟨hr, hcat⟩ := flMcAfee_inv ht
  obtain ⟨n, idx, l, p, hk, hperm, ho', hres, -, he⟩ := flMcAfee_eq fl hr hcat h
  rw [he] at ht
  rw [ho'] at ho
  simp only [Except.ok.injEq, Prod.mk.injEq] at ht ho
  obtain ⟨rfl, rfl⟩ := ho
  subst ht
  have hl : r.length = m.numCategories := by rw [hr]; simp
  have hr' : r = List.replicate m.sorted.length 1 := by rw [m.sorted_length]; exact hr
  have hlt := perm_lt hperm
  have hpair := (float_optimal_sorted ho').2
  have hgain : TradeWithMaterialBalance.gainFromTrade ⟨idx.map (blk m.sorted r)⟩ = (idx.map (fun j => (blk m.sorted r j).sum)).sum := by
    simp only [TradeWithMaterialBalance.gainFromTrade, List.map_map]; rfl
  have hnum : TradeWithMaterialBalance.numOfDeals ⟨idx.map (blk m.sorted r)⟩ = idx.length := by simp [TradeWithMaterialBalance.numOfDeals]
  have hε : ∀ j ∈ idx, |flSum fl (blk m.sorted r j) - (blk m.sorted r j).sum| ≤ m.numCategories / 2 ^ k := by
    intro j hj
    have := (flSum_blk hf hm (hm.sum_le hr) hl (hk.taken j (hlt j hj)).1).1
    rwa [ones_sum hr] at this
  have hlow : ∀ j ∈ idx, -(m.numCategories / 2 ^ k : ℚ) ≤ (blk m.sorted r j).sum := by
    intro j hj
    have hg := (hk.taken j (hlt j hj)).2
    unfold FlGood Good at hg; push Not at hg
    have := (abs_le.1 (hε j hj)).2
    linarith [hg.1]
  rw [hgain, hnum]
  set ε : ℚ := m.numCategories / 2 ^ k with hεdef
  have hε0 : 0 ≤ ε := by positivity
  have hmin : ∀ (a : ℚ) (l : List ℕ), (∀ j ∈ l, a ≤ (blk m.sorted r j).sum) → l.length * a ≤ (l.map (fun j => (blk m.sorted r j).sum)).sum := by
    intro a l
    induction l with
    | nil => simp
    | cons j l ih =>
      intro h
      have h1 := ih fun i hi => h i (by simp [hi])
      have h2 := h j (by simp)
      simp only [List.length_cons, List.map_cons, List.sum_cons, Nat.cast_add, Nat.cast_one]
      linarith
  have htot : ∀ l : List ℕ, (∀ j ∈ l, j ∈ idx) → (((pick m.sorted l).map AgentCategory.values).map List.sum).sum = (l.map (fun j => (blk m.sorted r j).sum)).sum := by
    intro l hsub
    exact pick_total hr' fun j hj => taken_lt hr hk (hlt j (hsub j hj))
  -- the part of the gain that every deal has on average
  have havg : ∀ (S a : ℚ) (n : ℕ), 0 < n → (n : ℚ) * (a - 2 * ε) ≤ S → (1 - 1 / (n : ℚ)) * S - 2 * ε ≤ S - a := by
    intro S a n hn h1
    have hn' : (0 : ℚ) < n := by exact_mod_cast hn
    have h2 : a - 2 * ε ≤ S / n := by rw [le_div_iff₀ hn']; linarith
    have h3 : (1 - 1 / (n : ℚ)) * S = S - S / n := by ring
    linarith
  have hid : ∀ (l : List ℕ), l = idx → 0 < l.length →
      (1 - 1 / (l.length : ℚ)) * (l.map (fun j => (blk m.sorted r j).sum)).sum - 2 * ε ≤ (l.map (fun j => (blk m.sorted r j).sum)).sum := by
    intro l hli h0
    have h1 := hmin (-ε) l fun j hj => hlow j (by rw [← hli]; exact hj)
    have h2 := havg _ 0 l.length h0 (by
      have : (l.length : ℚ) * (0 - 2 * ε) ≤ l.length * -ε := mul_le_mul_of_nonneg_left (by linarith) (by positivity)
      linarith)
    linarith
  cases hres with
  | none => rw [htot [] (by simp)]; simp [hε0]
  | full ps h1 h2 => rw [htot _ fun j hj => hj]; exact ⟨by linarith, fun h0 => hid _ rfl h0⟩
  | reduced =>
    rename_i i
    rw [htot l fun j hj => by simp [hj]]
    simp only [List.map_cons, List.sum_cons]
    have h1 := hlow i (by simp)
    refine ⟨by linarith, fun h0 => ?_⟩
    have h2 : ((i :: l).length : ℚ) * ((blk m.sorted r i).sum - 2 * ε) ≤ ((i :: l).map (fun j => (blk m.sorted r j).sum)).sum := by
      refine hmin _ _ fun j hj => ?_
      rcases List.mem_cons.1 hj with rfl | hjl
      · linarith
      · rw [List.map_cons, List.pairwise_cons] at hpair
        have h3 := hpair.1 _ (List.mem_map_of_mem (f := blk m.sorted r) hjl)
        have h4 := (abs_le.1 (hε i (by simp))).1
        have h5 := (abs_le.1 (hε j hj)).2
        linarith
    have h3 := havg _ _ _ h0 h2
    simp only [List.map_cons, List.sum_cons] at h3
    linarith

end

/-! ### Examples -/

/-- Very valuable objects and very small costs: in the sums, the costs are rounded away. -/
def tinyCosts : Market := ⟨[⟨"buyer", [100000000, 100000000]⟩, ⟨"seller", [-1 / 2 ^ 30, -1 / 2 ^ 29]⟩]⟩

theorem tinyCosts_float : FloatReports tinyCosts [1, 1] 100000000 25 where
  float := by
    intro c hc v hv
    have h1 : Double 100000000 := ⟨100000000, 0, by norm_num, by norm_num, by norm_num, by norm_num⟩
    have h2 : Double (-1 / 2 ^ 30) := ⟨-1, -30, by norm_num, by norm_num, by norm_num, by norm_num⟩
    have h3 : Double (-1 / 2 ^ 29) := ⟨-1, -29, by norm_num, by norm_num, by norm_num, by norm_num⟩
    simp only [tinyCosts, List.mem_cons, List.not_mem_nil, or_false] at hc
    rcases hc with rfl | rfl <;> simp only [List.mem_cons, List.not_mem_nil, or_false] at hv <;> rcases hv with rfl | rfl
    · exact ⟨h1, by rw [abs_of_nonneg (by norm_num)]; norm_num, by norm_num⟩
    · exact ⟨h1, by rw [abs_of_nonneg (by norm_num)]; norm_num, by norm_num⟩
    · exact ⟨h2, by rw [abs_of_nonpos (by norm_num)]; norm_num, by norm_num⟩
    · exact ⟨h3, by rw [abs_of_nonpos (by norm_num)]; norm_num, by norm_num⟩
  constant := le_rfl
  digits := by norm_num
  categories := by norm_num
  sizes := by decide +kernel

/-- The error cannot be dropped: Python's McAfee protocol drops the wrong deal here (the computed gains of both deals are equal), and the seller that trades gets less than its cost. With
exact arithmetic the other seller trades. -/
theorem float_mcafee_loss : ∃ (m : Market) (t : TradeWithSinglePrice) (p : List ℚ), FloatReports m [1, 1] 100000000 25 ∧
    Floating.mcafeeTradeReduction nearestFloat m [1, 1] false = .ok t ∧ t.numOfDeals = 1 ∧ t.prices = some p ∧
    (∃ v ∈ (t.categories.map AgentCategory.values).getD 1 [], v < p.getD 1 0) ∧
    McAfee.mcafeeTradeReduction m [1, 1] false = .ok ⟨[⟨"buyer", [100000000]⟩, ⟨"seller", [-1 / 2 ^ 30]⟩], [1, 1], some [100000000, -1 / 2 ^ 29], 1⟩ :=
  ⟨tinyCosts, ⟨[⟨"buyer", [100000000]⟩, ⟨"seller", [-1 / 2 ^ 29]⟩], [1, 1], some [100000000, -1 / 2 ^ 30], 1⟩, _, tinyCosts_float,
    by decide +kernel, rfl, rfl, by decide +kernel, by decide +kernel⟩

/-- With three categories the auctioneer can pay (a bit), although the exact deals are not even worth making. -/
theorem float_mcafee_pays : ∃ (m : Market) (t : TradeWithSinglePrice) (p : List ℚ), FloatReports m [1, 1, 1] 100000000 24 ∧
    Floating.mcafeeTradeReduction nearestFloat m [1, 1, 1] false = .ok t ∧ t.numOfDeals = 1 ∧ t.prices = some p ∧ recipeSum [1, 1, 1] p < 0 :=
  ⟨decimalDeals, ⟨[⟨"buyer", [tenths 6]⟩, ⟨"seller", [tenths (-1)]⟩, ⟨"mediator", [tenths (-5)]⟩], [1, 1, 1], some [tenths 6, tenths (-1), tenths (-5)], 1⟩, _, decimalDeals_float,
    by decide +kernel, rfl, rfl, by decide +kernel⟩

/-- The theorems above, for a market with decimal reports. -/
example : ∃ t p, Floating.mcafeeTradeReduction nearestFloat decimalMarket [1, 1] true = .ok t ∧ t.numOfDeals = 1 ∧ t.prices = some p ∧ 0 ≤ recipeSum [1, 1] p ∧
    ∀ i, ∀ v ∈ (t.categories.map AgentCategory.values).getD i [], p.getD i 0 ≤ v + 2 * (2 / 2 ^ 25) := by
  have ht : Floating.mcafeeTradeReduction nearestFloat decimalMarket [1, 1] true =
      .ok ⟨[⟨"buyer", [tenths 1401]⟩, ⟨"seller", [tenths (-907)]⟩], [1, 1], some [tenths 1359, tenths (-1003)], 1⟩ := by decide +kernel
  obtain ⟨p, h1, -, h2⟩ := float_mcafee_rational python_rounding.1 decimalMarket_float ht
  obtain ⟨q, h3, -, h4⟩ := float_mcafee_deficit python_rounding.1 decimalMarket_float ht
  obtain rfl : p = q := by rw [h1] at h3; exact Option.some.inj h3
  exact ⟨_, p, ht, rfl, h1, h4 rfl, h2⟩

end Auctions.Props
