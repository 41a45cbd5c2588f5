import Verif.Proofs.FloatingReductionOrder
import Verif.Props.McAfee
import Verif.Props.FloatingDecimals

set_option autoImplicit false

/-! # C110: the trade-reduction protocol when the reports are decimal numbers (floats), which are rounded in every operation -/

namespace Auctions.Floating

open Auctions Auctions.Spec Auctions.TradeReduction

theorem bind_ok {α β : Type} {x : Py α} {f : α → Py β} {y : β} (h : (x >>= f) = .ok y) : ∃ a, x = .ok a ∧ f a = .ok y := by
  cases x with
  | error e => simp [bind, Except.bind] at h
  | ok a => exact ⟨a, rfl, h⟩

theorem initTrade_pos {fl : ℚ → ℚ} {cs : List AgentCategory} {r : List ℕ} {p : Option (List ℚ)} {t : TradeWithSinglePrice} (h : initTrade fl cs r p = .ok t) : ∃ x ∈ r, 0 < x := by
  obtain ⟨d, hd, -⟩ := bind_ok h
  by_contra hc
  push Not at hc
  have : potentialDeals fl cs r = [] := by
    clear h hd
    induction cs generalizing r with
    | nil => cases r <;> rfl
    | cons c cs ih =>
      cases r with
      | nil => rfl
      | cons a r =>
        unfold potentialDeals
        rw [if_neg (by have := hc a (by simp); omega)]
        exact ih (fun x hx => hc x (by simp [hx]))
  rw [this] at hd
  simp [pyMinNat] at hd

theorem flReduction_inv {fl : ℚ → ℚ} {m : Market} {r : List ℕ} {z : Bool} {t : TradeWithSinglePrice} (h : tradeReduction fl m r z = .ok t) :
    r.length = m.numCategories ∧ m.categories ≠ [] ∧ ∃ x ∈ r, 0 < x := by
  unfold tradeReduction at h
  split at h
  · simp at h
  · obtain ⟨⟨o, rem⟩, h1, h2⟩ := bind_ok h
    obtain ⟨h3, h4⟩ := flOptimal_inv h1
    refine ⟨h3, h4, ?_⟩
    dsimp only at h2
    split at h2
    · exact initTrade_pos h2
    · obtain ⟨hn, -, h6⟩ := bind_ok h2
      split at h6
      · obtain ⟨_, -, h7⟩ := bind_ok h6
        obtain ⟨_, -, h8⟩ := bind_ok h7
        obtain ⟨_, -, h9⟩ := bind_ok h8
        exact initTrade_pos h9
      · obtain ⟨_, -, h7⟩ := bind_ok h6
        obtain ⟨_, -, h8⟩ := bind_ok h7
        exact initTrade_pos h8

/-- The outcomes of the protocol. -/
theorem flReduction_cases {fl : ℚ → ℚ} {m : Market} {r : List ℕ} {z : Bool} {t : TradeWithSinglePrice} (ht : tradeReduction fl m r z = .ok t) :
    ∃ k idx, FlStop fl m r 2000000 true k ∧ idx.Perm (List.range k) ∧ optimalTrade fl m r = .ok (⟨idx.map (blk m.sorted r)⟩, ⟨dropBlocks m.sorted r k⟩) ∧
      ∃ K ranks pre T, (ranks = idx ∧ K = k ∨ ranks = k :: idx ∧ K = k + 1) ∧ (∀ j ∈ ranks, Avail m.sorted r j) ∧ ranks.flatMap (visits m.sorted r) = pre ++ T ∧
        Rejected fl (rest m r K) r z pre ∧ initTrade fl (withAdded m.emptyAgentCategories T) r t.prices = .ok t ∧
        (T = [] ∧ (k = 0 ∧ t.prices = some (List.replicate r.length 0) ∨ t.prices = none) ∨
          ∃ x post, T = x :: post ∧ Pass z (flDot fl (bestAt (withAdded (rest m r K) pre) x.1 x.2) r) ∧
            t.prices = some (priceVec fl r (bestAt (withAdded (rest m r K) pre) x.1 x.2) x.1 x.2)) := by
  obtain ⟨hl, hcat, hpos⟩ := flReduction_inv ht
  obtain ⟨k, idx, hk, hperm, ho, hres⟩ := flReduction_eq fl hl hcat hpos z
  refine ⟨k, idx, hk, hperm, ho, ?_⟩
  have hes : withAdded m.emptyAgentCategories [] = m.emptyAgentCategories := withAdded_nil fun c hc => by
    rw [empty_values m c hc]; exact List.Pairwise.nil
  have hfin : ∀ cs p, tradeReduction fl m r z = initTrade fl cs r p → initTrade fl cs r t.prices = .ok t ∧ t.prices = p := by
    intro cs p he
    rw [ht] at he
    obtain ⟨d, hd, h2⟩ := bind_ok he.symm
    have : t = ⟨cs, r, p, d⟩ := by simpa using h2.symm
    subst this
    exact ⟨he.symm, rfl⟩
  have hrej0 : ∀ K, Rejected fl (rest m r K) r z [] := by
    intro K pre x post h0
    simp at h0
  rcases hres with ⟨h0, h1⟩ | ⟨K, ranks, hK, hav, he⟩
  · obtain ⟨h2, h3⟩ := hfin _ _ h1
    have : idx = [] := List.length_eq_zero_iff.1 (by rw [hperm.length_eq, List.length_range, h0])
    refine ⟨k, idx, [], [], Or.inl ⟨rfl, rfl⟩, ?_, ?_, hrej0 _, ?_, Or.inl ⟨rfl, Or.inl ⟨h0, h3⟩⟩⟩
    · rw [this]; simp
    · rw [this]; rfl
    · rw [hes]; exact h2
  · dsimp only at he
    rcases walk_end fl (rest m r K) r z (ranks.flatMap (visits m.sorted r)) [] (hrej0 K) with ⟨h1, h2⟩ | ⟨pre, x, post, h1, h2, h3, h4⟩
    · rw [h2] at he
      obtain ⟨h3, h4⟩ := hfin _ _ he
      rw [List.nil_append] at h1
      exact ⟨K, ranks, _, [], hK, hav, (List.append_nil _).symm, h1, h3, Or.inl ⟨rfl, Or.inr h4⟩⟩
    · rw [h4] at he
      obtain ⟨h5, h6⟩ := hfin _ _ he
      exact ⟨K, ranks, pre, x :: post, hK, hav, h1, h2, h5, Or.inr ⟨x, post, rfl, h3, h6⟩⟩

theorem ranks_perm {idx ranks : List ℕ} {k K : ℕ} (hp : idx.Perm (List.range k)) (h : ranks = idx ∧ K = k ∨ ranks = k :: idx ∧ K = k + 1) : ranks.Perm (List.range K) := by
  rcases h with ⟨rfl, rfl⟩ | ⟨rfl, rfl⟩
  · exact hp
  · rw [List.range_succ]
    exact (hp.cons k).trans (List.perm_append_singleton _ _).symm

theorem ranks_order {fl : ℚ → ℚ} {m : Market} {r : List ℕ} {N : ℕ} {z : Bool} {idx ranks : List ℕ} {rem : Market} {k K : ℕ} (ho : optimalTrade fl m r N z = .ok (⟨idx.map (blk m.sorted r)⟩, rem))
    (hp : idx.Perm (List.range k)) (h : ranks = idx ∧ K = k ∨ ranks = k :: idx ∧ K = k + 1) : ranks.Pairwise (Order fl m.sorted r) := by
  have h1 := order_idx ho (hp.nodup_iff.2 List.nodup_range)
  rcases h with ⟨rfl, rfl⟩ | ⟨rfl, rfl⟩
  · exact h1
  · rw [List.pairwise_cons]
    exact ⟨fun j hj => Or.inl (List.mem_range.1 (hp.mem_iff.1 hj)), h1⟩

/-- The agents of a category in the first deals. -/
theorem added_ranks {cs : List AgentCategory} {r : List ℕ} (h : r.length = cs.length) {ranks : List ℕ} {K : ℕ} (hp : ranks.Perm (List.range K)) (hav : ∀ j ∈ ranks, Avail cs r j) {l : ℕ}
    (hl : l < cs.length) : (added (ranks.flatMap (visits cs r)) l).Perm ((vAt cs l).take (K * rAt r l)) := by
  rw [added_flatMap]
  have h1 : (ranks.flatMap (fun j => added (visits cs r j) l)).Perm (ranks.flatMap (fun j => seg (vAt cs l) (rAt r l) j)) := by
    clear hp
    induction ranks with
    | nil => exact List.Perm.refl _
    | cons j ranks ih =>
      rw [List.flatMap_cons, List.flatMap_cons, added_visits h (hav j (by simp)) hl]
      exact (List.reverse_perm _).append (ih fun i hi => hav i (by simp [hi]))
  refine h1.trans ((hp.flatMap_right _).trans (List.Perm.of_eq ?_))
  clear h1 hp hav
  induction K with
  | zero => simp
  | succ K ih =>
    rw [List.range_succ, List.flatMap_append, ih, Nat.add_mul, Nat.one_mul, List.take_add]
    simp [seg]

theorem visits_in {cs : List AgentCategory} {r : List ℕ} (h : r.length = cs.length) {ranks : List ℕ} (hav : ∀ j ∈ ranks, Avail cs r j) :
    ∀ x ∈ ranks.flatMap (visits cs r), x.1 < cs.length ∧ 0 < rAt r x.1 ∧ x.2 ∈ vAt cs x.1 := by
  intro x hx
  obtain ⟨j, hj, hxj⟩ := List.mem_flatMap.1 hx
  obtain ⟨h1, h2⟩ := visits_lt h hxj
  refine ⟨h1, h2, ?_⟩
  have h3 := mem_added.2 (show (x.1, x.2) ∈ visits cs r j from hxj)
  rw [added_visits h (hav j hj) h1, List.mem_reverse] at h3
  exact List.mem_of_mem_drop (List.mem_of_mem_take h3)

/-- The traders. -/
theorem traders_values {m : Market} {T : List (ℕ × ℚ)} {i : ℕ} :
    ((withAdded m.emptyAgentCategories T).map AgentCategory.values).getD i [] = if i < m.numCategories then sortDesc (added T i) else [] := by
  have hlen : m.emptyAgentCategories.length = m.numCategories := by simp [Market.emptyAgentCategories, Market.numCategories]
  split
  · rename_i h
    have hi : i < m.emptyAgentCategories.length := by omega
    have h0 := empty_values m m.emptyAgentCategories[i] (List.getElem_mem hi)
    simp [withAdded, hi, h0]
  · rename_i h
    rw [List.getD_eq_getElem?_getD, List.getElem?_eq_none (by simp [withAdded_length, hlen]; omega)]
    rfl

theorem init_fields {fl : ℚ → ℚ} {cs : List AgentCategory} {r : List ℕ} {p : Option (List ℚ)} {t : TradeWithSinglePrice} (h : initTrade fl cs r p = .ok t) : t.categories = cs := by
  obtain ⟨d, -, h2⟩ := bind_ok h
  have : t = ⟨cs, r, p, d⟩ := by simpa using h2.symm
  rw [this]

end Auctions.Floating

namespace Auctions.Props

open Auctions Auctions.Spec Auctions.Floating Auctions.TradeReduction
open Auctions.Ascending (sorted_vAt)

/-- Whatever the rounding does, the protocol returns a trade. -/
theorem float_reduction_total (fl : ℚ → ℚ) {m : Market} {r : List ℕ} (h : r.length = m.numCategories) (hcat : m.categories ≠ []) (hpos : ∃ x ∈ r, 0 < x) (z : Bool) :
    ∃ t, Floating.tradeReduction fl m r z = .ok t := by
  obtain ⟨k, idx, -, -, -, hres⟩ := flReduction_eq fl h hcat hpos z
  have hes : m.emptyAgentCategories.length = m.numCategories := by simp [Market.emptyAgentCategories, Market.numCategories]
  rcases hres with ⟨-, h1⟩ | ⟨K, ranks, -, -, h1⟩
  · obtain ⟨d, hd⟩ := flInit_ok (fl := fl) (cs := m.emptyAgentCategories) (r := r) (by omega) hpos (some (List.replicate r.length 0))
    exact ⟨_, h1.trans hd⟩
  · dsimp only at h1
    generalize (ranks.flatMap (visits m.sorted r)).foldl (step fl (rest m r K) r z) (.searching []) = A at h1
    obtain ⟨d, hd⟩ := flInit_ok (fl := fl) (cs := (state (rest m r K) m.emptyAgentCategories A).actualTraders) (r := r)
      (by cases A <;> simp [state, withAdded_length, hes, h]) hpos (state (rest m r K) m.emptyAgentCategories A).latestPrices
    exact ⟨_, h1.trans hd⟩

section
variable {fl : ℚ → ℚ} (hf : Rounding fl) {m : Market} {r : List ℕ} {M k : ℕ} (hm : FloatReports m r M k)

include hf hm in
/-- The prices sum up to almost zero. -/
theorem float_reduction_nearly_balanced {z : Bool} {t : TradeWithSinglePrice} (ht : Floating.tradeReduction fl m r z = .ok t) {p : List ℚ} (hp : t.prices = some p) :
    p.length = r.length ∧ |recipeSum r p| ≤ (2 * r.length + 2 + r.sum) / 2 ^ k := by
  obtain ⟨hl, hcat, hpos⟩ := flReduction_inv ht
  have hl' : r.length = m.sorted.length := by rw [m.sorted_length]; exact hl
  obtain ⟨n, idx, hk, hperm, ho, K, ranks, pre, T, hK, hav, hV, hrej, hinit, hcase⟩ := flReduction_cases ht
  rcases hcase with ⟨-, ⟨-, h1⟩ | h1⟩ | ⟨x, post, rfl, hpass, h1⟩
  · rw [h1, Option.some.injEq] at hp
    subst hp
    refine ⟨by simp, ?_⟩
    have : recipeSum r (List.replicate r.length 0) = 0 := by
      rw [recipeSum_eq_sum (n := r.length) rfl (by simp)]
      refine Finset.sum_eq_zero fun i hi => ?_
      simp [List.getD_eq_getElem?_getD, List.getElem?_replicate, Finset.mem_range.1 hi]
    rw [this, abs_zero]
    positivity
  · rw [h1] at hp; simp at hp
  · rw [h1, Option.some.injEq] at hp
    subst hp
    have hin := visits_in hl' hav
    rw [hV] at hin
    obtain ⟨hx1, hx2, hx3⟩ := hin x (by simp)
    have hlen := bestAt_len hl K pre x.1 x.2
    have hb := best_bound hl hm (K := K) (pre := pre) (fun y hy => (hin y (by simp [hy])).2.2) hx3
    have hget : (bestAt (withAdded (rest m r K) pre) x.1 x.2)[x.1]? = some x.2 := by
      have hlt : x.1 < (rest m r K).length := by rw [rest_length hl, ← m.sorted_length]; exact hx1
      simp [bestAt, withAdded, hlt]
    exact ⟨by simp [priceVec, hlen], (price_spec hf hm hl hb hlen hx2 hget).1⟩

include hf hm in
/-- No trader pays (or loses) more than a small amount. Without prices there are no traders. -/
theorem float_reduction_rational (hR : r.sum ≤ 2 ^ k) {z : Bool} {t : TradeWithSinglePrice} (ht : Floating.tradeReduction fl m r z = .ok t) :
    (t.prices = none → ∀ i, (t.categories.map AgentCategory.values).getD i [] = []) ∧
    ∀ p, t.prices = some p → ∀ i, ∀ v ∈ (t.categories.map AgentCategory.values).getD i [], p.getD i 0 ≤ v + (2 * r.sum + 2) / 2 ^ k := by
  obtain ⟨hl, hcat, hpos⟩ := flReduction_inv ht
  have hl' : r.length = m.sorted.length := by rw [m.sorted_length]; exact hl
  obtain ⟨n, idx, hk, hperm, ho, K, ranks, pre, T, hK, hav, hV, hrej, hinit, hcase⟩ := flReduction_cases ht
  rw [init_fields hinit]
  have hnone : T = [] → ∀ i, ((withAdded m.emptyAgentCategories T).map AgentCategory.values).getD i [] = [] := by
    rintro rfl i
    rw [traders_values]
    split <;> simp [added, sortDesc]
  rcases hcase with ⟨hT, h1⟩ | ⟨x, post, rfl, hpass, h1⟩
  · refine ⟨fun _ => hnone hT, fun p _ i v hv => ?_⟩
    rw [hnone hT i] at hv
    simp at hv
  refine ⟨fun h0 => (by rw [h1] at h0; simp at h0), fun p hp i v hv => ?_⟩
  rw [h1, Option.some.injEq] at hp
  subst hp
  rw [traders_values] at hv
  split at hv
  swap
  · simp at hv
  rename_i hi
  rw [mem_sortDesc, mem_added] at hv
  have hin := visits_in hl' hav
  have hord := visits_order hf hm hR hl hav (ranks_order ho hperm hK)
  have hadd := added_ranks hl' (ranks_perm hperm hK) hav (l := i) (by rw [m.sorted_length]; exact hi)
  rw [hV] at hin hord hadd
  obtain ⟨hx1, hx2, hx3⟩ := hin x (by simp)
  have hlen := bestAt_len hl K pre x.1 x.2
  have hb := best_bound hl hm (K := K) (pre := pre) (fun y hy => (hin y (by simp [hy])).2.2) hx3
  have hget : (bestAt (withAdded (rest m r K) pre) x.1 x.2)[x.1]? = some x.2 := by
    have hlt : x.1 < (rest m r K).length := by rw [rest_length hl, ← m.sorted_length]; exact hx1
    simp [bestAt, withAdded, hlt]
  rw [List.pairwise_append] at hord
  have e : ((2 * r.sum + 2) / 2 ^ k : ℚ) = 2 * (r.sum / 2 ^ k) + 2 / 2 ^ k := by ring
  have hu : (0 : ℚ) ≤ 2 / 2 ^ k := by positivity
  have hδ : (0 : ℚ) ≤ 2 * (r.sum / 2 ^ k) := by positivity
  rw [e]
  by_cases hix : i = x.1
  · subst hix
    have h2 := (price_spec hf hm hl hb hlen hx2 hget).2 (by
      rcases hpass with h3 | ⟨-, h3⟩
      · exact h3.le
      · exact h3.ge)
    have h3 : x.2 ≤ v + 2 * (r.sum / 2 ^ k) := by
      rcases List.mem_cons.1 hv with h4 | h4
      · rw [← h4]
        dsimp only
        linarith
      · exact (List.pairwise_cons.1 hord.2.1).1 _ h4 rfl
    linarith
  · have h2 : (priceVec fl r (bestAt (withAdded (rest m r K) pre) x.1 x.2) x.1 x.2).getD i 0 = (bestAt (withAdded (rest m r K) pre) x.1 x.2).getD i 0 := by
      simp [priceVec, List.getD_eq_getElem?_getD, List.getElem?_set, Ne.symm hix]
    rw [h2]
    have hvV : v ∈ vAt m.sorted i := (hin (i, v) (by simp only [List.mem_append]; exact Or.inr hv)).2.2
    rcases (best_spec hl (K := K) (pre := pre) (v := x.2) hi hix).1 with h3 | h3 | h3
    · rw [h3]
      have : (-100000000 : ℚ) ≤ v := by
        obtain ⟨c, hc, hvc⟩ : ∃ c ∈ m.categories, v ∈ c.values := by
          rw [vAt_sorted, mem_sortDesc] at hvV
          have : i < m.categories.length := hi
          rw [vAt_eq_getElem this] at hvV
          exact ⟨_, List.getElem_mem this, hvV⟩
        exact (hm.float c hc v hvc).2.2
      have h4 : (-MAX_VALUE : ℚ) = -100000000 := by norm_num [MAX_VALUE]
      rw [h4]
      linarith
    · have h4 : v ∈ (vAt m.sorted i).take (K * rAt r i) := hadd.mem_iff.1 (by rw [mem_added]; simp only [List.mem_append]; exact Or.inr hv)
      have h5 : (bestAt (withAdded (rest m r K) pre) x.1 x.2).getD i 0 ≤ v := by
        have := sorted_vAt m i
        rw [← List.take_append_drop (K * rAt r i) (vAt m.sorted i)] at this
        exact (List.pairwise_append.1 this).2.2 v h4 _ h3
      linarith
    · have := hord.2.2 _ (mem_added.1 h3) _ hv rfl
      dsimp only at this
      linarith

/-- Each category's traders are among the highest agents, as many as belong to the deals of `optimal_trade` and (possibly) one more. -/
theorem float_reduction_traders {z : Bool} {t : TradeWithSinglePrice} (ht : Floating.tradeReduction fl m r z = .ok t) {o : TradeWithMaterialBalance} {rem : Market}
    (ho : Floating.optimalTrade fl m r = .ok (o, rem)) :
    t.categories.map AgentCategory.name = m.categories.map AgentCategory.name ∧ ∃ K ≤ o.numOfDeals + 1, ∀ i < m.numCategories, ∃ rejected : List ℚ,
      SortedDesc ((t.categories.map AgentCategory.values).getD i []) ∧
      IsTop (K * rAt r i) (((t.categories.map AgentCategory.values).getD i [] ++ rejected : List ℚ) : Multiset ℚ) (m.valueLists.getD i []) := by
  obtain ⟨hl, hcat, hpos⟩ := flReduction_inv ht
  have hl' : r.length = m.sorted.length := by rw [m.sorted_length]; exact hl
  obtain ⟨n, idx, hk, hperm, ho', K, ranks, pre, T, hK, hav, hV, hrej, hinit, hcase⟩ := flReduction_cases ht
  rw [ho', Except.ok.injEq, Prod.mk.injEq] at ho
  obtain ⟨rfl, -⟩ := ho
  rw [init_fields hinit]
  refine ⟨?_, K, ?_, fun i hi => ⟨added pre i, ?_, ?_⟩⟩
  · apply List.ext_getElem
    · simp [withAdded, Market.emptyAgentCategories]
    · intro i h1 h2
      simp [withAdded, Market.emptyAgentCategories, AgentCategory.init]
  · have : idx.length = n := by rw [hperm.length_eq, List.length_range]
    simp only [TradeWithMaterialBalance.numOfDeals, List.length_map, this]
    rcases hK with ⟨-, h⟩ | ⟨-, h⟩ <;> omega
  · rw [traders_values, if_pos hi]
    exact sortDesc_sorted _
  · rw [traders_values, if_pos hi]
    have hadd := added_ranks hl' (ranks_perm hperm hK) hav (l := i) (by rw [m.sorted_length]; exact hi)
    rw [hV, added_append] at hadd
    have hp : (sortDesc (added T i) ++ added pre i).Perm ((vAt m.sorted i).take (K * rAt r i)) :=
      ((sortDesc_perm _).append_right _).trans (List.perm_append_comm.trans hadd)
    have hVl : K * rAt r i ≤ (vAt m.sorted i).length := by
      rcases Nat.eq_zero_or_pos K with h0 | h0
      · rw [h0]; omega
      · have h1 : K - 1 ∈ ranks := (ranks_perm hperm hK).mem_iff.2 (List.mem_range.2 (by omega))
        have h2 := hav _ h1 i (by rw [m.sorted_length]; exact hi)
        rwa [show K - 1 + 1 = K by omega] at h2
    have htop := AgentCategory.isTop_take (sorted_vAt m i) hVl
    rw [Multiset.coe_eq_coe.2 hp]
    have := htop.1
    rw [vAt_sorted] at this ⊢
    rw [sortDesc_coe] at this
    exact this

theorem split_flatMap {α β : Type} (f : α → List β) {L : List α} {pre post : List β} {x : β} (h : L.flatMap f = pre ++ x :: post) :
    ∃ L1 j L2 a b, L = L1 ++ j :: L2 ∧ f j = a ++ x :: b ∧ pre = L1.flatMap f ++ a ∧ post = b ++ L2.flatMap f := by
  induction L generalizing pre with
  | nil => simp at h
  | cons j L ih =>
    rw [List.flatMap_cons, List.append_eq_append_iff] at h
    rcases h with ⟨a', h1, h2⟩ | ⟨c', h1, h2⟩
    · obtain ⟨L1, i, L2, a, b, rfl, h4, rfl, h6⟩ := ih h2
      exact ⟨j :: L1, i, L2, a, b, rfl, h4, by rw [h1]; simp, h6⟩
    · cases c' with
      | nil =>
        obtain ⟨L1, i, L2, a, b, rfl, h4, h5, h6⟩ := ih (pre := []) (by simpa using h2.symm)
        refine ⟨j :: L1, i, L2, a, b, rfl, h4, ?_, h6⟩
        rw [List.append_nil] at h1
        rw [List.flatMap_cons, List.append_assoc, ← h5, h1]; simp
      | cons y c' =>
        simp only [List.cons_append, List.cons.injEq] at h2
        obtain ⟨rfl, h3⟩ := h2
        exact ⟨[], j, L, pre, c', rfl, h1, by simp, h3⟩

include hf hm in
/-- The deals all agents of which were rejected are worth almost nothing. -/
theorem rejected_deals {z : Bool} (hl : r.length = m.numCategories) (hpos : ∃ x ∈ r, 0 < x) {K : ℕ} {L : List ℕ} {a : List (ℕ × ℚ)} (hav : ∀ j ∈ L, Avail m.sorted r j)
    (hrej : Rejected fl (Floating.rest m r K) r z (L.flatMap (visits m.sorted r) ++ a)) : ∀ j ∈ L, (blk m.sorted r j).sum ≤ 2 * r.length / 2 ^ k := by
  intro j hj
  have hl' : r.length = m.sorted.length := by rw [m.sorted_length]; exact hl
  obtain ⟨L1, L2, rfl⟩ := List.append_of_mem hj
  refine rejected_blk hf hm hl hpos (K := K) (z := z) (A := L1.flatMap (visits m.sorted r)) (hav j hj)
    (fun x hx => (visits_in hl' (fun i hi => hav i (by simp [hi])) x hx).2.2) (fun pre x h => ?_) (visits_inner hl (hav j hj))
  refine hrej pre x (L2.flatMap (visits m.sorted r) ++ a) ?_
  rw [List.flatMap_append, List.flatMap_cons, ← List.append_assoc (L1.flatMap _), h]
  simp

include hf hm in
/-- At most one of the deals of `optimal_trade` that are worth more than a small amount is lost. -/
theorem float_reduction_deals {z : Bool} {t : TradeWithSinglePrice} (ht : Floating.tradeReduction fl m r z = .ok t) {o : TradeWithMaterialBalance} {rem : Market}
    (ho : Floating.optimalTrade fl m r = .ok (o, rem)) :
    (o.procurementSets.filter (fun ps => (2 * r.length / 2 ^ k : ℚ) < ps.sum)).length ≤ t.numOfDeals + 1 := by
  obtain ⟨hl, hcat, hpos⟩ := flReduction_inv ht
  have hl' : r.length = m.sorted.length := by rw [m.sorted_length]; exact hl
  obtain ⟨n, idx, hk, hperm, ho', K, ranks, pre, T, hK, hav, hV, hrej, hinit, hcase⟩ := flReduction_cases ht
  rw [ho', Except.ok.injEq, Prod.mk.injEq] at ho
  obtain ⟨rfl, -⟩ := ho
  set P : ℕ → Bool := fun j => decide ((2 * r.length / 2 ^ k : ℚ) < (blk m.sorted r j).sum) with hP
  have hcount : ((idx.map (blk m.sorted r)).filter (fun ps => (2 * r.length / 2 ^ k : ℚ) < ps.sum)).length ≤ ranks.countP P := by
    rw [← List.countP_eq_length_filter, List.countP_map]
    have : idx.countP P ≤ ranks.countP P := by
      rcases hK with ⟨rfl, -⟩ | ⟨rfl, -⟩
      · exact le_rfl
      · exact (List.sublist_cons_self n idx).countP_le
    exact this
  refine hcount.trans ?_
  have hzero : ∀ L : List ℕ, (∀ j ∈ L, (blk m.sorted r j).sum ≤ 2 * r.length / 2 ^ k) → L.countP P = 0 := by
    intro L hL
    rw [List.countP_eq_zero]
    intro j hj
    simpa [hP] using hL j hj
  rcases hcase with ⟨rfl, -⟩ | ⟨x, post, rfl, -, -⟩
  · rw [List.append_nil] at hV
    rw [hzero ranks (rejected_deals hf hm hl hpos (K := K) (z := z) (a := []) hav (by rw [List.append_nil, hV]; exact hrej))]
    omega
  · obtain ⟨L1, j, L2, a, b, rfl, hj, rfl, rfl⟩ := split_flatMap _ hV
    rw [List.countP_append, List.countP_cons, hzero L1 (rejected_deals hf hm hl hpos (K := K) (z := z) (a := a) (fun i hi => hav i (by simp [hi])) hrej)]
    have h1 : L2.countP P ≤ L2.length := List.countP_le_length
    have h2 : L2.length ≤ t.numOfDeals := by
      set T := x :: (b ++ L2.flatMap (visits m.sorted r)) with hT
      have hes : (withAdded m.emptyAgentCategories T).length = m.numCategories := by simp [withAdded_length, Market.emptyAgentCategories, Market.numCategories]
      have hlen : ∀ i < m.numCategories, (vAt (withAdded m.emptyAgentCategories T) i).length = (added T i).length := by
        intro i hi
        show (((withAdded m.emptyAgentCategories T).map AgentCategory.values).getD i []).length = _
        rw [traders_values, if_pos hi, sortDesc_length]
      have hle : ∀ i < m.numCategories, (added T i).length ≤ (vAt m.sorted i).length := by
        intro i hi
        have hadd := added_ranks hl' (ranks_perm hperm hK) hav (l := i) (by rw [m.sorted_length]; exact hi)
        rw [hV, added_append] at hadd
        have h3 := hadd.length_eq
        rw [List.length_append, List.length_take] at h3
        omega
      have hsz : Sizes (withAdded m.emptyAgentCategories T) r := by
        intro c hc e he
        obtain ⟨i, hi, rfl⟩ := List.getElem_of_mem hc
        rw [hes] at hi
        have h3 := hlen i hi
        rw [vAt_eq_getElem (by omega)] at h3
        have h4 := hle i hi
        rw [vAt_sorted, sortDesc_length, vAt_eq_getElem (show i < m.categories.length from hi)] at h4
        have h5 := hm.sizes m.categories[i] (List.getElem_mem _) e he
        rw [h3]
        exact (Nat.mul_le_mul_right _ (by omega)).trans h5
      have hex : TradeWithSinglePrice.init (withAdded m.emptyAgentCategories T) r t.prices = .ok t := by
        rw [← hinit]
        unfold initTrade TradeWithSinglePrice.init
        rw [potentialDeals_eq hf hsz]
      rcases trade_init_spec (withAdded m.emptyAgentCategories T) r t.prices with ⟨-, h3⟩ | ⟨-, d, h3, -, h5⟩
      · rw [h3] at hex; simp at hex
      · rw [h3, Except.ok.injEq] at hex
        have h6 : t.numOfDeals = d := by rw [← hex]; rfl
        rw [h6]
        refine h5 _ fun i hi => ?_
        rw [hes] at hi
        rw [hlen i hi]
        have h7 : (added (L2.flatMap (visits m.sorted r)) i).length = L2.length * rAt r i := by
          have : ∀ L : List ℕ, (∀ j ∈ L, Avail m.sorted r j) → (added (L.flatMap (visits m.sorted r)) i).length = L.length * rAt r i := by
            intro L hL
            induction L with
            | nil => simp [added]
            | cons j L ih =>
              have hi' : i < m.sorted.length := by rw [m.sorted_length]; exact hi
              rw [List.flatMap_cons, added_append, List.length_append, ih (fun q hq => hL q (by simp [hq])), added_visits hl' (hL j (by simp)) hi',
                List.length_reverse, seg_length (hL j (by simp) i hi'), List.length_cons]
              ring
          exact this L2 (fun q hq => hav q (by simp [hq]))
        rw [← h7, hT, show x :: (b ++ L2.flatMap (visits m.sorted r)) = (x :: b) ++ L2.flatMap (visits m.sorted r) by simp, added_append, List.length_append]
        omega
    split <;> omega

end

/-! ### Examples -/

/-- A buyer and two sellers with decimal reports. -/
def decimalPair : Market := ⟨[⟨"buyer", [tenths 9]⟩, ⟨"seller", [tenths (-3), tenths (-1)]⟩]⟩

theorem decimalPair_float : FloatReports decimalPair [1, 1] 100000000 25 where
  float := by
    intro c hc v hv
    simp only [decimalPair, List.mem_cons, List.not_mem_nil, or_false] at hc
    rcases hc with rfl | rfl <;> simp only [List.mem_cons, List.not_mem_nil, or_false] at hv
    · rcases hv with rfl
      exact tenths_float _ (by norm_num)
    · rcases hv with rfl | rfl <;> exact tenths_float _ (by norm_num)
  constant := le_rfl
  digits := by norm_num
  categories := by norm_num
  sizes := by decide +kernel

def decimalPairTrade : TradeWithSinglePrice :=
  ⟨[⟨"buyer", [tenths 9]⟩, ⟨"seller", [tenths (-1)]⟩], [1, 1], some [2702159776422297 / 2 ^ 53, tenths (-3)], 1⟩

theorem decimalPair_trade : Floating.tradeReduction nearestFloat decimalPair [1, 1] = .ok decimalPairTrade := by decide +kernel

/-- The budget is not balanced exactly: the buyer 0.9 pays 0.29999999999999993, and the seller -0.1 gets 0.3; the auctioneer pays the difference. -/
theorem float_reduction_deficit : ∃ (m : Market) (t : TradeWithSinglePrice) (p : List ℚ), FloatReports m [1, 1] 100000000 25 ∧
    Floating.tradeReduction nearestFloat m [1, 1] = .ok t ∧ t.numOfDeals = 1 ∧ t.prices = some p ∧ recipeSum [1, 1] p < 0 :=
  ⟨decimalPair, decimalPairTrade, _, decimalPair_float, decimalPair_trade, rfl, rfl, by decide +kernel⟩

/-- The float `0.1 + 0.2`, that is 0.30000000000000004. -/
def threeTenths : ℚ := nearestFloat (tenths 1 + tenths 2)

/-- Two sellers that differ in the last digit. -/
def decimalNeighbours : Market := ⟨[⟨"buyer", [5, 5]⟩, ⟨"seller", [-threeTenths, tenths (-3)]⟩, ⟨"mediator", [-4, -4]⟩]⟩

theorem small_float (n : ℤ) (h : |n| ≤ 1000) : Double (n : ℚ) ∧ |(n : ℚ)| ≤ (100000000 : ℕ) ∧ -100000000 ≤ (n : ℚ) := by
  have h1 : |(n : ℚ)| ≤ 1000 := by exact_mod_cast h
  obtain ⟨h2, h3⟩ := abs_le.1 h1
  have hf := python_rounding.1
  have e : nearestFloat n = n := Small.fl hf (a := 1000) ⟨n, rfl, h⟩ (by norm_num)
  refine ⟨?_, ?_, by linarith⟩
  · rw [← e]
    exact hf.float _ (by rw [abs_le]; constructor <;> linarith)
  · rw [abs_le]; push_cast; constructor <;> linarith

theorem threeTenths_float : Double (-threeTenths) ∧ |(-threeTenths)| ≤ (100000000 : ℕ) ∧ -100000000 ≤ -threeTenths := by
  have hf := python_rounding.1
  have e : -threeTenths = nearestFloat (-threeTenths) := by decide +kernel
  have h1 : |(-threeTenths)| ≤ 1 := by decide +kernel
  obtain ⟨h2, h3⟩ := abs_le.1 h1
  refine ⟨?_, ?_, by linarith⟩
  · rw [e]
    exact hf.float _ (by rw [abs_le]; constructor <;> linarith)
  · rw [abs_le]; push_cast; constructor <;> linarith

theorem decimalNeighbours_float : FloatReports decimalNeighbours [1, 1, 1] 100000000 24 where
  float := by
    intro c hc v hv
    simp only [decimalNeighbours, List.mem_cons, List.not_mem_nil, or_false] at hc
    rcases hc with rfl | rfl | rfl <;> simp only [List.mem_cons, List.not_mem_nil, or_false] at hv
    · rcases hv with rfl | rfl <;> exact small_float 5 (by norm_num)
    · rcases hv with rfl | rfl
      · exact threeTenths_float
      · exact tenths_float _ (by norm_num)
    · rcases hv with rfl | rfl <;> exact small_float (-4) (by norm_num)
  constant := le_rfl
  digits := by norm_num
  categories := by norm_num
  sizes := by decide +kernel

def decimalNeighboursTrade : TradeWithSinglePrice :=
  ⟨[⟨"buyer", [5]⟩, ⟨"seller", [-threeTenths]⟩, ⟨"mediator", [-4, -4]⟩], [1, 1, 1], some [5, tenths (-3), -5291729562160333 / 1125899906842624], 1⟩

theorem decimalNeighbours_trade : Floating.tradeReduction nearestFloat decimalNeighbours [1, 1, 1] = .ok decimalNeighboursTrade := by decide +kernel

/-- A trader can lose a bit: the price of the sellers is -0.3, and the trader is the other seller, who reported -0.30000000000000004. -/
theorem float_reduction_loss : ∃ (m : Market) (t : TradeWithSinglePrice) (p : List ℚ), FloatReports m [1, 1, 1] 100000000 24 ∧
    Floating.tradeReduction nearestFloat m [1, 1, 1] = .ok t ∧ t.numOfDeals = 1 ∧ t.prices = some p ∧
    ∃ v ∈ (t.categories.map AgentCategory.values).getD 1 [], v < p.getD 1 0 :=
  ⟨decimalNeighbours, decimalNeighboursTrade, _, decimalNeighbours_float, decimalNeighbours_trade, rfl, rfl, -threeTenths, by simp [decimalNeighboursTrade], by decide +kernel⟩

/-- Two deals, that are worth almost nothing. -/
def decimalWorthless : Market :=
  ⟨[⟨"buyer", [tenths 6, tenths 6]⟩, ⟨"seller", [tenths (-1), tenths (-1), tenths (-1), tenths (-4), tenths (-1), tenths (-2)]⟩, ⟨"mediator", [tenths (-3), tenths (-4)]⟩]⟩

theorem decimalWorthless_float : FloatReports decimalWorthless [1, 2, 1] 100000000 24 where
  float := by
    intro c hc v hv
    simp only [decimalWorthless, List.mem_cons, List.not_mem_nil, or_false] at hc
    rcases hc with rfl | rfl | rfl <;> simp only [List.mem_cons, List.not_mem_nil, or_false] at hv
    · rcases hv with rfl | rfl <;> exact tenths_float _ (by norm_num)
    · rcases hv with rfl | rfl | rfl | rfl | rfl | rfl <;> exact tenths_float _ (by norm_num)
    · rcases hv with rfl | rfl <;> exact tenths_float _ (by norm_num)
  constant := le_rfl
  digits := by norm_num
  categories := by norm_num
  sizes := by decide +kernel

/-- So `float_reduction_deals` has to leave the worthless deals out: here `optimal_trade` has two deals, and the protocol none. -/
theorem float_reduction_loses_two : ∃ (m : Market) (o : TradeWithMaterialBalance) (rem : Market) (t : TradeWithSinglePrice), FloatReports m [1, 2, 1] 100000000 24 ∧
    Floating.optimalTrade nearestFloat m [1, 2, 1] = .ok (o, rem) ∧ o.numOfDeals = 2 ∧ Floating.tradeReduction nearestFloat m [1, 2, 1] = .ok t ∧ t.numOfDeals = 0 := by
  have h1 : (match Floating.optimalTrade nearestFloat decimalWorthless [1, 2, 1] with | .ok (o, _) => decide (o.numOfDeals = 2) | .error _ => false) = true := by decide +kernel
  have h2 : (match Floating.tradeReduction nearestFloat decimalWorthless [1, 2, 1] with | .ok t => decide (t.numOfDeals = 0) | .error _ => false) = true := by decide +kernel
  split at h1
  · rename_i o rem ho
    split at h2
    · rename_i t ht
      exact ⟨decimalWorthless, o, rem, t, decimalWorthless_float, ho, by simpa using h1, ht, by simpa using h2⟩
    · simp at h2
  · simp at h1

/-- The theorems above, for the example. -/
example : (|recipeSum [1, 1] [2702159776422297 / 2 ^ 53, tenths (-3)]| ≤ (2 * ([1, 1] : List ℕ).length + 2 + (([1, 1] : List ℕ).sum : ℚ)) / 2 ^ 25) ∧
    (∀ i, ∀ v ∈ (decimalPairTrade.categories.map AgentCategory.values).getD i [], ([2702159776422297 / 2 ^ 53, tenths (-3)] : List ℚ).getD i 0 ≤ v + (2 * (([1, 1] : List ℕ).sum : ℚ) + 2) / 2 ^ 25) :=
  ⟨(float_reduction_nearly_balanced python_rounding.1 decimalPair_float decimalPair_trade rfl).2,
    (float_reduction_rational python_rounding.1 decimalPair_float (by decide) decimalPair_trade).2 _ rfl⟩

example : ∃ t, Floating.tradeReduction nearestFloat decimalPair [1, 1] true = .ok t :=
  float_reduction_total nearestFloat (m := decimalPair) (r := [1, 1]) rfl (by simp [decimalPair]) ⟨1, by simp⟩ true

/-- In this market `optimal_trade` has a deal that is not worthless, and the traders are among the highest agents. -/
example : ∃ o rem, Floating.optimalTrade nearestFloat decimalPair [1, 1] = .ok (o, rem) ∧
    (o.procurementSets.filter (fun ps => (2 * ([1, 1] : List ℕ).length / 2 ^ 25 : ℚ) < ps.sum)).length = 1 ∧
    (o.procurementSets.filter (fun ps => (2 * ([1, 1] : List ℕ).length / 2 ^ 25 : ℚ) < ps.sum)).length ≤ decimalPairTrade.numOfDeals + 1 ∧
    ∃ K ≤ o.numOfDeals + 1, ∀ i < 2, ∃ rejected : List ℚ,
      IsTop (K * rAt [1, 1] i) (((decimalPairTrade.categories.map AgentCategory.values).getD i [] ++ rejected : List ℚ) : Multiset ℚ) (decimalPair.valueLists.getD i []) := by
  have h1 : (match Floating.optimalTrade nearestFloat decimalPair [1, 1] with
      | .ok (o, _) => decide ((o.procurementSets.filter (fun ps => (2 * ([1, 1] : List ℕ).length / 2 ^ 25 : ℚ) < ps.sum)).length = 1)
      | .error _ => false) = true := by decide +kernel
  split at h1
  · rename_i o rem ho
    obtain ⟨-, K, hK, h⟩ := float_reduction_traders decimalPair_trade ho
    exact ⟨o, rem, ho, of_decide_eq_true h1, float_reduction_deals python_rounding.1 decimalPair_float decimalPair_trade ho, K, hK, fun i hi => by
      obtain ⟨rej, -, h2⟩ := h i hi
      exact ⟨rej, h2⟩⟩
  · simp at h1

end Auctions.Props
