import Verif.Proofs.OptimalTrade
import Verif.Spec.View

set_option autoImplicit false

/-! # Optimality of the greedy trade -/

namespace Auctions

open Spec

/-- The deal formed by block `j`. -/
def blkDeal : List AgentCategory → List ℕ → ℕ → Deal
  | c :: cs, a :: r, j => seg c.values a j :: blkDeal cs r j
  | _, _, _ => []

theorem blkDeal_flatten (cs : List AgentCategory) (r : List ℕ) (j : ℕ) : (blkDeal cs r j).flatten = blk cs r j := by
  induction cs generalizing r with
  | nil => cases r <;> simp [blk, blkDeal]
  | cons c cs ih => cases r <;> simp [blk, blkDeal, ih]

theorem Avail.tail {c : AgentCategory} {cs : List AgentCategory} {a : ℕ} {r : List ℕ} {j : ℕ}
    (h : Avail (c :: cs) (a :: r) j) : Avail cs r j := fun i hi => by
  have := h (i + 1) (by simpa using hi); simpa using this

theorem blkDeal_follows {cs : List AgentCategory} {r : List ℕ} (h : r.length = cs.length) {j : ℕ}
    (hav : Avail cs r j) : Follows r (blkDeal cs r j) := by
  unfold Follows
  induction cs generalizing r with
  | nil => cases r <;> simp_all [blkDeal]
  | cons c cs ih =>
    cases r with
    | nil => simp at h
    | cons a r =>
      have h0 := hav 0 (by simp)
      simp [blkDeal, ih (by simpa using h) hav.tail, seg_length (by simpa using h0)]

theorem blkDeal_getD {cs : List AgentCategory} {r : List ℕ} (h : r.length = cs.length) (j i : ℕ) :
    (blkDeal cs r j).getD i [] = seg (vAt cs i) (rAt r i) j := by
  induction cs generalizing r i with
  | nil => cases r <;> simp [blkDeal, vAt, seg]
  | cons c cs ih =>
    cases r with
    | nil => simp at h
    | cons a r =>
      cases i with
      | zero => simp [blkDeal]
      | succ i => simpa [blkDeal] using ih (by simpa using h) i

theorem used_cons (d : Deal) (ds : List Deal) (i : ℕ) :
    used (d :: ds) i = ((d.getD i [] : List ℚ) : Multiset ℚ) + used ds i := by simp [used]

theorem used_append (ds es : List Deal) (i : ℕ) : used (ds ++ es) i = used ds i + used es i := by simp [used]

theorem used_reverse (ds : List Deal) (i : ℕ) : used ds.reverse i = used ds i := by
  unfold used; rw [List.map_reverse]; exact (List.reverse_perm _).sum_eq

theorem used_blks {cs : List AgentCategory} {r : List ℕ} (h : r.length = cs.length) (k i : ℕ) :
    used ((List.range k).map (blkDeal cs r)) i = (((vAt cs i).take (k * rAt r i) : List ℚ) : Multiset ℚ) := by
  induction k with
  | zero => simp [used]
  | succ k ih =>
    rw [List.range_succ, List.map_append, used_append, ih, List.map_singleton, used_cons, blkDeal_getD h]
    rw [Nat.succ_mul, List.take_add]
    simp [used, seg]

theorem length_of_follows {r : List ℕ} {d : Deal} (h : Follows r d) (i : ℕ) : (d.getD i []).length = rAt r i := by
  unfold Follows at h
  subst h
  simp only [rAt, List.getD_eq_getElem?_getD, List.getElem?_map]
  cases d[i]? <;> simp

theorem used_card {r : List ℕ} {deals : List Deal} (h : ∀ d ∈ deals, Follows r d) (i : ℕ) :
    Multiset.card (used deals i) = deals.length * rAt r i := by
  induction deals with
  | nil => simp [used]
  | cons d ds ih =>
    rw [used_cons, Multiset.card_add, ih (fun d hd => h d (by simp [hd]))]
    rw [Multiset.coe_card, length_of_follows (h d (by simp)) i, List.length_cons, Nat.succ_mul, add_comm]

theorem dealGain_eq {r : List ℕ} {d : Deal} (h : Follows r d) :
    dealGain d = ∑ i ∈ Finset.range r.length, (d.getD i []).sum := by
  unfold Follows at h
  subst h
  rw [List.length_map]
  unfold dealGain
  induction d with
  | nil => simp
  | cons x d ih =>
    rw [List.length_cons, Finset.sum_range_succ']
    simp only [List.map_cons, List.sum_cons, List.getD_cons_zero, List.getD_cons_succ]
    rw [ih, add_comm]

theorem totalGain_eq {r : List ℕ} {deals : List Deal} (h : ∀ d ∈ deals, Follows r d) :
    totalGain deals = ∑ i ∈ Finset.range r.length, (used deals i).sum := by
  induction deals with
  | nil => simp [totalGain, used]
  | cons d ds ih =>
    have := ih (fun d hd => h d (by simp [hd]))
    simp only [totalGain, List.map_cons, List.sum_cons] at this ⊢
    rw [this, dealGain_eq (h d (by simp)), ← Finset.sum_add_distrib]
    refine Finset.sum_congr rfl fun i _ => ?_
    rw [used_cons, Multiset.sum_add, Multiset.sum_coe]

/-- Sum of a sub-multiset of a descending list. -/
theorem sum_le_sum_take_multiset {l : List ℚ} (h : SortedDesc l) {s : Multiset ℚ} (hs : s ≤ (l : Multiset ℚ)) :
    s.sum ≤ (l.take (Multiset.card s)).sum := by
  induction s using Quotient.inductionOn with
  | h s =>
    have : s.Subperm l := Multiset.coe_le.1 hs
    simpa using sum_le_sum_take h this

/-- Every feasible set of `n` deals gains at most as much as the first `n` blocks, and needs them to be available. -/
theorem feasible_bound {m : Market} {r : List ℕ} (h : r.length = m.numCategories) {deals : List Deal}
    (hf : Feasible m.valueLists r deals) :
    (∀ t < deals.length, Avail m.sorted r t) ∧
      totalGain deals ≤ ∑ j ∈ Finset.range deals.length, (blk m.sorted r j).sum := by
  obtain ⟨hfol, hused⟩ := hf
  have h' : r.length = m.sorted.length := by rw [m.sorted_length]; exact h
  have hle : ∀ i, used deals i ≤ ((vAt m.sorted i : List ℚ) : Multiset ℚ) := by
    intro i
    rw [vAt_sorted, sortDesc_coe]
    exact hused i
  have hcard : ∀ i, deals.length * rAt r i ≤ (vAt m.sorted i).length := by
    intro i
    have := Multiset.card_le_card (hle i)
    rwa [used_card hfol, Multiset.coe_card] at this
  refine ⟨fun t ht i _ => le_trans (Nat.mul_le_mul_right _ ht) (hcard i), ?_⟩
  rw [totalGain_eq hfol]
  have : ∑ j ∈ Finset.range deals.length, (blk m.sorted r j).sum
      = ∑ i ∈ Finset.range r.length, ((vAt m.sorted i).take (deals.length * rAt r i)).sum := by
    simp_rw [blk_sum h']
    rw [Finset.sum_comm, h']
    refine Finset.sum_congr rfl fun i _ => seg_sums _ _ _
  rw [this]
  refine Finset.sum_le_sum fun i _ => ?_
  have hs : SortedDesc (vAt m.sorted i) := by rw [vAt_sorted]; exact sortDesc_sorted _
  have := sum_le_sum_take_multiset hs (hle i)
  rwa [used_card hfol] at this

theorem blk_antitone {m : Market} {r : List ℕ} (h : r.length = m.numCategories) {j j' : ℕ} (hj : j ≤ j')
    (hav : Avail m.sorted r j') : (blk m.sorted r j').sum ≤ (blk m.sorted r j).sum :=
  (blk_dom (by rw [m.sorted_length]; exact h) m.sorted_sorted hj hav).sum_le

theorem Avail.mono {cs : List AgentCategory} {r : List ℕ} {j j' : ℕ} (hj : j ≤ j') (h : Avail cs r j') :
    Avail cs r j := fun i hi => le_trans (Nat.mul_le_mul_right _ (by omega)) (h i hi)

theorem length_vAt_le_numAgents (m : Market) (i : ℕ) : (vAt m.categories i).length ≤ m.numAgents := by
  by_cases hi : i < m.categories.length
  · rw [vAt_eq_getElem hi]
    unfold Market.numAgents Market.valueLists
    rw [List.map_map]
    refine List.single_le_sum (by simp) _ ?_
    exact List.mem_map.2 ⟨m.categories[i], List.getElem_mem hi, rfl⟩
  · rw [vAt_of_ge (by omega)]; simp

/-- With enough iterations the greedy loop stops because of the market, not because of the limit. -/
theorem GreedyStop.stopped {m : Market} {r : List ℕ} {n : ℕ} {z : Bool} {k : ℕ} (hs : GreedyStop m r n z k)
    (h : r.length = m.numCategories) (hn : m.numAgents ≤ n) (hr : ∃ x ∈ r, 0 < x) :
    ¬ Avail m.sorted r k ∨ ¬ Good z (blk m.sorted r k).sum := by
  rcases Nat.lt_or_ge k n with hlt | hge
  · exact hs.stop hlt
  · left
    intro hav
    obtain ⟨x, hx, hx0⟩ := hr
    obtain ⟨i, hi, rfl⟩ := List.getElem_of_mem hx
    have h1 := hav i (by rw [m.sorted_length]; omega)
    rw [rAt_eq_getElem hi, vAt_sorted, sortDesc_length] at h1
    have h2 := length_vAt_le_numAgents m i
    have : k + 1 ≤ (k + 1) * r[i] := Nat.le_mul_of_pos_right _ hx0
    omega

theorem gain_blks (cs : List AgentCategory) (r : List ℕ) (k : ℕ) :
    TradeWithMaterialBalance.gainFromTrade ⟨((List.range k).map (blk cs r)).reverse⟩
      = ∑ j ∈ Finset.range k, (blk cs r j).sum := by
  unfold TradeWithMaterialBalance.gainFromTrade
  rw [List.map_reverse, List.sum_reverse, List.map_map]
  induction k with
  | zero => simp
  | succ k ih => rw [List.range_succ, List.map_append, List.sum_append, ih, Finset.sum_range_succ]; simp

/-- Comparison of any number `n` of blocks with the greedy number `k`. -/
theorem GreedyStop.sum_le {m : Market} {r : List ℕ} {N : ℕ} {z : Bool} {k : ℕ} (hs : GreedyStop m r N z k)
    (h : r.length = m.numCategories) (hstop : ¬ Avail m.sorted r k ∨ ¬ Good z (blk m.sorted r k).sum)
    {n : ℕ} (hn : ∀ t < n, Avail m.sorted r t) :
    ∑ j ∈ Finset.range n, (blk m.sorted r j).sum ≤ ∑ j ∈ Finset.range k, (blk m.sorted r j).sum ∧
    (z = true → k < n →
      ∑ j ∈ Finset.range n, (blk m.sorted r j).sum < ∑ j ∈ Finset.range k, (blk m.sorted r j).sum) ∧
    (z = false → n < k →
      ∑ j ∈ Finset.range n, (blk m.sorted r j).sum < ∑ j ∈ Finset.range k, (blk m.sorted r j).sum) := by
  rcases Nat.lt_or_ge k n with hlt | hge
  · have havk : Avail m.sorted r k := hn k hlt
    have hng : ¬ Good z (blk m.sorted r k).sum := by
      rcases hstop with h1 | h1
      · exact absurd havk h1
      · exact h1
    have hle0 : (blk m.sorted r k).sum ≤ 0 := by
      rcases not_not.1 hng with h1 | h1
      · exact le_of_lt h1
      · exact le_of_eq h1.1
    rw [← Finset.sum_range_add_sum_Ico _ (le_of_lt hlt)]
    have hIco : ∀ j ∈ Finset.Ico k n, (blk m.sorted r j).sum ≤ (blk m.sorted r k).sum := by
      intro j hj
      rw [Finset.mem_Ico] at hj
      exact blk_antitone h hj.1 (hn j hj.2)
    refine ⟨?_, ?_, fun _ hnk => by omega⟩
    · have := Finset.sum_nonpos (fun j hj => le_trans (hIco j hj) hle0)
      linarith
    · intro hz _
      subst hz
      have hlt0 : (blk m.sorted r k).sum < 0 := by
        rcases not_not.1 hng with h1 | h1
        · exact h1
        · exact absurd h1.2 (by simp)
      have : ∑ j ∈ Finset.Ico k n, (blk m.sorted r j).sum < 0 := by
        refine Finset.sum_neg (fun j hj => lt_of_le_of_lt (hIco j hj) hlt0) ⟨k, by simp [hlt]⟩
      linarith
  · rw [← Finset.sum_range_add_sum_Ico _ hge]
    have hnn : ∀ j ∈ Finset.Ico n k, 0 ≤ (blk m.sorted r j).sum := by
      intro j hj
      rw [Finset.mem_Ico] at hj
      have := (hs.taken j hj.2).2
      unfold Good at this
      push Not at this
      exact this.1
    refine ⟨?_, fun _ hkn => by omega, ?_⟩
    · have := Finset.sum_nonneg hnn
      linarith
    · intro hz hnk
      subst hz
      have : 0 < ∑ j ∈ Finset.Ico n k, (blk m.sorted r j).sum := by
        refine Finset.sum_pos (fun j hj => ?_) ⟨n, by simp [hnk]⟩
        have h1 := hnn j hj
        rw [Finset.mem_Ico] at hj
        have := (hs.taken j hj.2).2
        unfold Good at this
        push Not at this
        exact lt_of_le_of_ne h1 (fun h0 => absurd (this.2 h0.symm) (by simp))
      linarith

end Auctions
