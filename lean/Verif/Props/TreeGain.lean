import Verif.Proofs.TreeCountsLoop
import Verif.Proofs.TreeReplace
import Verif.Props.Counters
import Mathlib.Tactic.FieldSimp

set_option autoImplicit false

/-!
# C59 — the gain of the tree auction
-/

namespace Auctions.Props

open Auctions Spec TreeAuction

theorem tieFree_perm {V W : ℕ → List ℚ} (h : ∀ i, (V i).Perm (W i)) {f : Forest} (ht : TieFree V f) : TieFree W f := by
  induction f with
  | nil => trivial
  | cons i ch s ih1 ih2 =>
    obtain ⟨h1, h2, h3, h4⟩ := ht
    have hsel : ∀ (f : Forest) d, Selects f W d → Selects f V d := fun f d hd => ⟨hd.1, fun a ha => (h a.1).mem_iff.2 (hd.2 a ha)⟩
    exact ⟨(h i).nodup_iff.1 h1, ih1 h2, ih2 h3, fun d d' hd hd' => h4 d d' (hsel _ d hd) (hsel _ d' hd')⟩

theorem treeDeals_root_sorted {V : ℕ → List ℚ} {t : RecipeTree} (hs : SortedDesc (V t.index)) :
    (treeDeals V t.forest).Pairwise (fun a b => treeGain b ≤ treeGain a) := by
  have h : SortedDesc (nodeValues V t.index t.children) := by
    by_cases hc : t.children = .nil
    · rw [hc]; exact hs
    · rw [nodeValues_of_ne _ _ hc]
      unfold SortedDesc
      rw [List.pairwise_iff_getElem]
      intro i j hi hj hij
      rw [List.length_zipWith] at hi hj
      rw [List.getElem_zipWith, List.getElem_zipWith]
      have h1 : (V t.index)[i] ≥ (V t.index)[j] := by apply hs.getElem_ge; omega
      have h2 : (sortDesc (t.children.combinedValues V))[i] ≥ (sortDesc (t.children.combinedValues V))[j] := by
        apply (sortDesc_sorted _).getElem_ge; omega
      linarith
  rw [nodeValues_eq, nodeDeals_eq_treeDeals] at h
  exact List.pairwise_map.1 h

section

variable {f : List (List ℕ) → ℚ → Py (List ℚ)} {m : Market} {struct : List PyObj} {fuel : ℕ}
  {trade : TradeWithMultipleRecipes} {t : RecipeTree}

/-- The statement of C59 for the deals that the code computes. -/
theorem gain_of_optimal (hf : PriceContract f) (ht : RecipeTree.init m.numCategories struct = .ok t) (hn : (treeNodes t).Nodup)
    {B : ℚ} (hB : 0 ≤ B) (hb : ∀ l ∈ m.valueLists, ∀ x ∈ l, -B ≤ x ∧ x ≤ B)
    {L : ℕ} (hL : IsGreatest {l | ∃ p, TreePath t p ∧ p.length = l} L) (hM : 3 * L * B < MAX_VALUE)
    (hties : TieFree (fun i => m.valueLists.getD i []) (.cons t.index t.children .nil))
    (h : auction f m struct fuel = .ok (some trade)) (deals : List TreeDeal)
    (hdeals : deals = (treeDeals (valuesAt m.sorted) t.forest).filter (fun d => treeGain d ≥ 0)) :
    (∀ x, (agentsOf x deals.flatten).length ≤ (remaining trade x).length + 1) ∧
      (∀ k : ℕ, (∀ d ∈ deals, k ≤ dealsOnPath deals d) → ((k : ℚ) - 1) * treeTotalGain deals ≤ k * trade.gainFromTrade) ∧
      deals.length ≤ trade.numOfDeals + (deals.map (List.map Prod.fst)).toFinset.card := by
  have hto := treeOn_of_init ht hn
  have hLh : L = height t.forest := by
    apply le_antisymm
    · obtain ⟨p, hp, hl⟩ := hL.1
      rw [← hl]; exact isPath_length_le hp
    · obtain ⟨q, hq, hl⟩ := exists_longest (f := t.forest) (by simp [RecipeTree.forest])
      exact hL.2 ⟨q, hq, hl⟩
  subst hLh
  have hL1 : (1 : ℚ) ≤ height t.forest := by
    have : 1 ≤ height t.forest := by rw [RecipeTree.forest, height]; omega
    exact_mod_cast this
  have hBM : B < MAX_VALUE := by nlinarith
  have hpos := max_value_pos
  have hb' : ∀ i, ∀ x ∈ valuesAt m.sorted i, -B ≤ x ∧ x ≤ B := by
    intro i x hx
    rw [valuesAt_sorted, mem_sortDesc] at hx
    refine hb (m.valueLists.getD i []) ?_ x hx
    by_cases hil : i < m.valueLists.length
    · rw [List.getD_eq_getElem?_getD, List.getElem?_eq_getElem hil]; exact List.getElem_mem hil
    · rw [List.getD_eq_getElem?_getD, List.getElem?_eq_none (by omega)] at hx; simp at hx
  have hd : Distinct (valuesAt m.sorted) t.forest := by
    apply distinct_of_tieFree
    refine tieFree_perm ?_ hties
    intro i
    rw [valuesAt_sorted]; exact (sortDesc_perm _).symm
  obtain ⟨cats, v, s, rfl, h1, h2, h3⟩ := outcome hf ht hn (fun cats v s => CRun t m.sorted B cats v s)
    (fun cats v s cats' v' d e1 e2 e3 e4 e5 e6 => crun_next hto hB hM hd (fun i x hx => ((hb' i x hx).2).trans hBM.le) e1 e2 e3 e4 e5 e6)
    (fun cats v s v' d e1 e2 e3 e4 e5 _ e7 e8 => crun_stop hto hB hM hd e1 e2 e3 e4 e5 e7 e8)
    (by
      intro v s e1 e2 e3
      refine ⟨by linarith, fun _ => ⟨cinv_start hto hB hM (fun i _ => hb' i) e1 e3, ?_, ?_⟩, fun e => by linarith⟩
      · intro i x hx
        by_cases hi : i < m.numCategories
        · have := e3 i hi
          have := (hb' i x hx).1
          linarith
        · rw [valuesAt_ge (by rw [m.sorted_length]; omega)] at hx; simp at hx
      · intro i
        by_cases hi : i < m.numCategories
        · have := e3 i hi; linarith
        · unfold priceAt
          rw [List.getD_eq_getElem?_getD, List.getElem?_eq_none (by rw [e1.fits.length]; omega)]
          simpa using hpos.le) h
  have hend := crun_end hto hB hM hd h2 h3
  rw [← hdeals] at hend
  have hsorted : ∀ i, SortedDesc (valuesAt m.sorted i) := by
    intro i; rw [valuesAt_sorted]; exact sortDesc_sorted _
  have hfeas : TreeFeasible t.forest (valuesAt m.sorted) deals := by
    rw [hdeals]; exact (filtered_deals (vals := valuesAt m.sorted) hn).1
  have hnd := forest_nodup hto
  have hthrough : ∀ x, (agentsOf x deals.flatten).length ≤ sizeAt cats x + 1 := by
    intro x
    by_cases hx : x ∈ nodes t.forest
    · exact hend x hx
    · rw [agentsOf_eq_nil]
      · simp
      · intro a ha; have := deals_nodes hfeas.1 a ha; rintro rfl; exact hx this
  have hsort : deals.Pairwise (fun a b => treeGain b ≤ treeGain a) := by
    rw [hdeals]; exact (treeDeals_root_sorted (hsorted _)).sublist List.filter_sublist
  have hnn : ∀ d ∈ deals, 0 ≤ treeGain d := by
    intro d hd
    rw [hdeals] at hd
    simpa using (List.mem_filter.1 hd).2
  have hpath : ∀ d ∈ deals, (d.map Prod.fst).Nodup := fun d hd => (isPath_sublist (hfeas.1 d hd)).nodup hnd
  have key : ∀ k : ℕ, (∀ d ∈ deals, k ≤ dealsOnPath deals d) →
      ((k : ℚ) - 1) * treeTotalGain deals ≤ k * (TradeWithMultipleRecipes.init cats t v.prices).gainFromTrade ∧
      deals.length ≤ (TradeWithMultipleRecipes.init cats t v.prices).numOfDeals + (deals.map (List.map Prod.fst)).toFinset.card := by
    intro k hk
    obtain ⟨E, e1, e2, e3, e4⟩ := drop_worst k deals.length rfl hsort hnn hk hpath
    have hE : TreeFeasible t.forest (valuesAt m.sorted) E := by
      refine ⟨fun d hd => hfeas.1 d (e1.subset hd), fun i => ?_⟩
      obtain ⟨w, hw, hsub⟩ := e1
      exact ((agentsOf_perm (flatten_perm hw)).symm.subperm.trans (agentsOf_sublist (flatten_sublist hsub)).subperm).trans (hfeas.2 i)
    obtain ⟨E', g1, g2, g3⟩ := replace_deals hnd (V := valuesAt m.sorted) (W := valuesAt cats) (fun x _ => hsorted x)
      (fun x _ => h1.pre x) hE (by
        intro x hx
        rw [← sizeAt_eq]
        have h5 := hthrough x
        by_cases h0 : (agentsOf x deals.flatten).length = 0
        · obtain ⟨w, hw, hsub⟩ := e1
          have h6 := (agentsOf_perm (i := x) (flatten_perm hw)).length_eq
          have h7 := (agentsOf_sublist (i := x) (flatten_sublist hsub)).length_le
          omega
        · have := e2 x h0; omega)
    have hgain : treeTotalGain E' ≤ (TradeWithMultipleRecipes.init cats t v.prices).gainFromTrade :=
      (tree_gft_is_maximum (vals := valuesAt cats) hn (fun i _ => h1.sorted i)).2 ⟨E', g1, rfl⟩
    have hnum : E'.length ≤ (TradeWithMultipleRecipes.init cats t v.prices).numOfDeals := by
      have := (tree_num_of_deals_is_maximum (t := t) (valuesAt cats) hn).2 ⟨E', g1, rfl⟩
      change _ ≤ (t.numOfDealsExplained (sizeAt cats)).1
      rw [tree_num_of_deals_explained, sizeAt_fun]; exact this
    refine ⟨e3.trans ?_, by omega⟩
    exact mul_le_mul_of_nonneg_left (g3.trans hgain) (by positivity)
  refine ⟨?_, fun k hk => (key k hk).1, (key 0 (fun _ _ => Nat.zero_le _)).2⟩
  intro x
  rw [remaining_eq, ← sizeAt_eq]
  exact hthrough x

/-- **C59**. Let `L` be the number of categories on a longest path of the tree, let all values be between `-B` and `B` with
`3 * L * B < MAX_VALUE`, and let the market have no ties. Compare the outcome of the auction with the optimal deals (those of
`optimal_trade()`), which are a feasible collection of largest gain: in every category at most one of the agents in these deals is missing; if
every path in use is used by at least `k` deals, the gain is at least `1 - 1/k` times the optimal gain; and the number of deals is smaller than
the optimal number by at most the number of paths in use. -/
theorem tree_auction_gain (hf : PriceContract f) (ht : RecipeTree.init m.numCategories struct = .ok t) (hn : (treeNodes t).Nodup)
    {B : ℚ} (hB : 0 ≤ B) (hb : ∀ l ∈ m.valueLists, ∀ x ∈ l, -B ≤ x ∧ x ≤ B)
    {L : ℕ} (hL : IsGreatest {l | ∃ p, TreePath t p ∧ p.length = l} L) (hM : 3 * L * B < MAX_VALUE)
    (hties : TieFree (fun i => m.valueLists.getD i []) (.cons t.index t.children .nil))
    (h : auction f m struct fuel = .ok (some trade)) :
    ∃ deals : List TreeDeal, FeasibleDeals t (fun i => m.valueLists.getD i []) deals ∧
      IsGreatest {g | ∃ deals', FeasibleDeals t (fun i => m.valueLists.getD i []) deals' ∧ treeTotalGain deals' = g} (treeTotalGain deals) ∧
      (t.children ≠ .nil → t.optimalTrade (fun i => sortDesc (m.valueLists.getD i []))
        = .ok (deals.map (List.map Prod.snd), deals.length, treeTotalGain deals)) ∧
      (∀ x, (agentsOf x deals.flatten).length ≤ (remaining trade x).length + 1) ∧
      (∀ k : ℕ, 0 < k → (∀ d ∈ deals, k ≤ dealsOnPath deals d) → (1 - 1 / (k : ℚ)) * treeTotalGain deals ≤ trade.gainFromTrade) ∧
      deals.length ≤ trade.numOfDeals + (deals.map (List.map Prod.fst)).toFinset.card := by
  have hsorted : ∀ i, SortedDesc (valuesAt m.sorted i) := by
    intro i; rw [valuesAt_sorted]; exact sortDesc_sorted _
  have hvals : valuesAt m.sorted = fun i => sortDesc (m.valueLists.getD i []) := by
    funext i; exact valuesAt_sorted m i
  obtain ⟨g1, g2, g3⟩ := gain_of_optimal hf ht hn hB hb hL hM hties h _ rfl
  obtain ⟨c1, -, c3, c4, -⟩ := counted_deals (t := t) (vals := valuesAt m.sorted) hn (fun i _ => hsorted i) _ rfl
  generalize (treeDeals (valuesAt m.sorted) t.forest).filter (fun d => treeGain d ≥ 0) = deals at *
  have hfe : ∀ ds, FeasibleDeals t (valuesAt m.sorted) ds ↔ FeasibleDeals t (fun i => m.valueLists.getD i []) ds := by
    intro ds
    rw [hvals]
    exact and_congr_right fun _ => forall_congr' fun i =>
      ⟨fun h => h.trans (sortDesc_perm _).subperm, fun h => h.trans (sortDesc_perm _).symm.subperm⟩
  refine ⟨deals, (hfe _).1 c1, ?_, fun hc => by rw [← hvals]; exact c4 hc, g1, ?_, g3⟩
  · simpa only [hfe] using c3
  · intro k hk0 hk
    have h1 := g2 k hk
    have hkpos : (0 : ℚ) < k := by exact_mod_cast hk0
    have h2 : (k : ℚ) * ((1 - 1 / (k : ℚ)) * treeTotalGain deals) = ((k : ℚ) - 1) * treeTotalGain deals := by
      field_simp
    by_contra hlt
    push Not at hlt
    have := mul_lt_mul_of_pos_left hlt hkpos
    linarith

/-- **C59**, in terms of `optimal_trade_with_counters()`: the gain of the auction is at least `1 - 1/kmin` times the optimal gain, the formula
that `experiment_ascending_auction_recipetree_stock.py` reports. -/
theorem tree_auction_gain_kmin (hf : PriceContract f) (ht : RecipeTree.init m.numCategories struct = .ok t) (hn : (treeNodes t).Nodup)
    {B : ℚ} (hB : 0 ≤ B) (hb : ∀ l ∈ m.valueLists, ∀ x ∈ l, -B ≤ x ∧ x ≤ B)
    {L : ℕ} (hL : IsGreatest {l | ∃ p, TreePath t p ∧ p.length = l} L) (hM : 3 * L * B < MAX_VALUE)
    (hties : TieFree (fun i => m.valueLists.getD i []) (.cons t.index t.children .nil))
    (h : auction f m struct fuel = .ok (some trade)) {r : CountedTrade}
    (hr : r = t.optimalTradeWithCounters (fun i => sortDesc (m.valueLists.getD i []))) :
    (1 - 1 / (r.kmin : ℚ)) * r.gain ≤ trade.gainFromTrade := by
  have hvals : valuesAt m.sorted = fun i => sortDesc (m.valueLists.getD i []) := by
    funext i; exact valuesAt_sorted m i
  rw [← hvals] at hr
  have hsorted : ∀ i, SortedDesc (valuesAt m.sorted i) := by
    intro i; rw [valuesAt_sorted]; exact sortDesc_sorted _
  obtain ⟨-, g2, -⟩ := gain_of_optimal hf ht hn hB hb hL hM hties h _ rfl
  obtain ⟨-, c2, -, -, c5⟩ := counted_deals (t := t) (vals := valuesAt m.sorted) hn (fun i _ => hsorted i) _ rfl
  obtain ⟨-, -, d3, -, d5, d6⟩ := c5 r hr
  generalize (treeDeals (valuesAt m.sorted) t.forest).filter (fun d => treeGain d ≥ 0) = deals at *
  have hk : 0 < r.kmin ∧ ∀ d ∈ deals, r.kmin ≤ dealsOnPath deals d := by
    by_cases hne : deals = []
    · rw [(d6 hne).1, hne]; simp
    · obtain ⟨⟨⟨d, hd, hdk⟩, h2⟩, -⟩ := d5 hne
      refine ⟨?_, fun d hd => h2 ⟨d, hd, rfl⟩⟩
      rw [← hdk]; unfold dealsOnPath
      exact List.length_pos_of_mem (List.mem_filter.2 ⟨hd, by simp⟩)
  have h1 := g2 r.kmin hk.2
  rw [d3]
  have hkpos : (0 : ℚ) < r.kmin := by exact_mod_cast hk.1
  have h2 : (r.kmin : ℚ) * ((1 - 1 / (r.kmin : ℚ)) * treeTotalGain deals) = ((r.kmin : ℚ) - 1) * treeTotalGain deals := by
    field_simp
  by_contra hlt
  push Not at hlt
  have := mul_lt_mul_of_pos_left hlt hkpos
  linarith

end

/-! ### Concrete markets -/

/-- The gains of all deals that follow a path of the forest. -/
def pathGains (vals : ℕ → List ℚ) : Forest → List ℚ
  | .nil => []
  | .cons i .nil s => vals i ++ pathGains vals s
  | .cons i ch s => (vals i).flatMap (fun x => (pathGains vals ch).map (fun g => x + g)) ++ pathGains vals s

theorem mem_pathGains {vals : ℕ → List ℚ} {f : Forest} {d : TreeDeal} (h : Selects f vals d) : treeGain d ∈ pathGains vals f := by
  induction f generalizing d with
  | nil => exact absurd h.1 isPath_nil
  | cons i ch s ih1 ih2 =>
    obtain ⟨hp, hm⟩ := h
    rw [isPath_cons] at hp
    rcases hp with ⟨rfl, hq⟩ | ⟨q, hq, hpq⟩ | hp
    · obtain ⟨a, rfl, rfl⟩ := List.map_eq_singleton_iff.1 hq
      rw [pathGains]
      refine List.mem_append_left _ ?_
      simpa [treeGain] using hm a (by simp)
    · obtain ⟨a, d', rfl, rfl, rfl⟩ := List.map_eq_cons_iff.1 hq
      have h1 := ih1 (d := d') ⟨hpq, fun b hb => hm b (by simp [hb])⟩
      cases ch with
      | nil => exact absurd hpq isPath_nil
      | cons j c s' =>
        rw [pathGains]
        · refine List.mem_append_left _ (List.mem_flatMap.2 ⟨a.2, hm a (by simp), List.mem_map.2 ⟨_, h1, by simp [treeGain]⟩⟩)
        · simp
    · have h2 := ih2 ⟨hp, hm⟩
      cases ch with
      | nil => rw [pathGains]; exact List.mem_append_right _ h2
      | cons j c s' =>
        rw [pathGains]
        · exact List.mem_append_right _ h2
        · simp

/-- A check that a market has no ties. -/
def noTies (vals : ℕ → List ℚ) : Forest → Bool
  | .nil => true
  | .cons i ch s => decide (vals i).Nodup && noTies vals ch && noTies vals s &&
      (pathGains vals (.cons i ch .nil)).all (fun x => (pathGains vals s).all (fun y => x ≠ y))

theorem tieFree_of_noTies {vals : ℕ → List ℚ} {f : Forest} (h : noTies vals f = true) : TieFree vals f := by
  induction f with
  | nil => trivial
  | cons i ch s ih1 ih2 =>
    rw [noTies] at h
    simp only [Bool.and_eq_true, decide_eq_true_eq, List.all_eq_true] at h
    exact ⟨h.1.1.1, ih1 h.1.1.2, ih2 h.1.2, fun d d' hd hd' => h.2 _ (mem_pathGains hd) _ (mem_pathGains hd')⟩

/-- The market of the next two examples. -/
def lossMarket : Market :=
  ⟨[⟨"buyer", [270, 210, 170, 110, 31]⟩, ⟨"seller", [-40, -50, -113]⟩, ⟨"A", [-21, -32, -114]⟩, ⟨"B", [-11, -23, -85]⟩]⟩

def lossStruct : List PyObj := [.int 0, .list [.int 1, .none, .int 2, .list [.int 3, .none]]]

def lossTree : RecipeTree := ⟨0, .cons 1 .nil (.cons 2 (.cons 3 .nil .nil) .nil)⟩

def lossSolver := fixedSolver [-100000000, -200000000, -100000000, -100000000]

/-- Non-vacuity of C59: the tree `[0, [1, None, 2, [3, None]]]`, a market without ties with four optimal deals, two on each path, and a total
gain of 583. The auction does three of them, with a gain of 528. -/
example :
    RecipeTree.init lossMarket.numCategories lossStruct = .ok lossTree ∧ (treeNodes lossTree).Nodup ∧
    (∀ l ∈ lossMarket.valueLists, ∀ x ∈ l, -270 ≤ x ∧ x ≤ (270 : ℚ)) ∧
    (3 : ℚ) * 3 * 270 < MAX_VALUE ∧
    (auction lossSolver lossMarket lossStruct 100).map (fun o => o.map (fun t => (t.numOfDeals, t.gainFromTrade))) = .ok (some (3, 528)) ∧
    (let r := lossTree.optimalTradeWithCounters (fun i => sortDesc (lossMarket.valueLists.getD i []))
     (r.count, r.kmin, r.gain) = (4, 2, 583)) := by
  decide +kernel

example : TieFree (fun i => lossMarket.valueLists.getD i []) (.cons lossTree.index lossTree.children .nil) :=
  tieFree_of_noTies (by decide +kernel)

example : IsGreatest {l | ∃ p, TreePath lossTree p ∧ p.length = l} 3 := by
  have key : ∀ p, TreePath lossTree p ↔ p = [0, 1] ∨ p = [0, 2, 3] := by
    intro p
    simp only [TreePath, lossTree, isPath_cons, isPath_nil, or_false, reduceCtorEq, false_and, false_or, and_false, exists_false, true_and]
    constructor
    · rintro ⟨q, rfl, rfl | ⟨q', rfl, rfl⟩⟩ <;> simp
    · rintro (rfl | rfl) <;> simp
  refine ⟨⟨[0, 2, 3], (key _).2 (Or.inr rfl), rfl⟩, ?_⟩
  rintro l ⟨p, hp, rfl⟩
  rcases (key p).1 hp with rfl | rfl <;> simp

/-- **C59**: ties break the bound. Two agents of category 3 have the same value; there are two optimal deals, both on the same path, with a total
gain of 1051, and the auction does nothing, although `1 - 1/kmin` is one half. -/
theorem tree_auction_gain_needs_tieFree :
    let m : Market := ⟨[⟨"buyer", [688, 878]⟩, ⟨"seller", [-313, -878]⟩, ⟨"A", [-427, -361, -178, -396, -233, -406]⟩,
      ⟨"B", [-58, -52, -268, -52]⟩]⟩
    PriceContract lossSolver ∧ RecipeTree.init m.numCategories lossStruct = .ok lossTree ∧
    (∀ l ∈ m.valueLists, ∀ x ∈ l, -878 ≤ x ∧ x ≤ (878 : ℚ)) ∧
    (auction lossSolver m lossStruct 100).map (fun o => o.map (fun t => (t.numOfDeals, t.gainFromTrade))) = .ok (some (0, 0)) ∧
    (let r := lossTree.optimalTradeWithCounters (fun i => sortDesc (m.valueLists.getD i []))
     (r.count, r.kmin, r.gain) = (2, 2, 1051)) := by
  refine ⟨fixedSolver_contract _, ?_⟩
  decide +kernel

end Auctions.Props
