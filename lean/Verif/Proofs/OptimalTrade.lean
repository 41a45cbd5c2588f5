import Verif.Model.Markets
import Verif.Proofs.Agents
import Mathlib.Algebra.BigOperators.Group.Finset.Basic
import Mathlib.Algebra.BigOperators.Intervals
import Mathlib.Algebra.Order.BigOperators.Group.Finset

set_option autoImplicit false

/-! # Closed form of `Market.optimalTrade` -/

namespace Auctions

open Spec

/-- The `j`-th block of `r` consecutive elements of `l`. -/
def seg (l : List ℚ) (r j : ℕ) : List ℚ := (l.drop (j * r)).take r

/-- Values of category `i`. -/
def vAt (cs : List AgentCategory) (i : ℕ) : List ℚ := (cs.map AgentCategory.values).getD i []

/-- Recipe entry `i`. -/
def rAt (r : List ℕ) (i : ℕ) : ℕ := r.getD i 0

@[simp] theorem vAt_cons_zero (c : AgentCategory) (cs) : vAt (c :: cs) 0 = c.values := rfl
@[simp] theorem vAt_cons_succ (c : AgentCategory) (cs) (i : ℕ) : vAt (c :: cs) (i + 1) = vAt cs i := by simp [vAt]
@[simp] theorem rAt_cons_zero (a : ℕ) (r) : rAt (a :: r) 0 = a := rfl
@[simp] theorem rAt_cons_succ (a : ℕ) (r) (i : ℕ) : rAt (a :: r) (i + 1) = rAt r i := by simp [rAt]

theorem vAt_eq_getElem {cs : List AgentCategory} {i : ℕ} (h : i < cs.length) : vAt cs i = (cs[i]).values := by
  simp [vAt, h]

theorem vAt_of_ge {cs : List AgentCategory} {i : ℕ} (h : cs.length ≤ i) : vAt cs i = [] := by
  simp [vAt, h]

theorem rAt_eq_getElem {r : List ℕ} {i : ℕ} (h : i < r.length) : rAt r i = r[i] := by
  simp [rAt, h]

/-- `j + 1` blocks are available in every category. -/
def Avail (cs : List AgentCategory) (r : List ℕ) (j : ℕ) : Prop := ∀ i < cs.length, (j + 1) * rAt r i ≤ (vAt cs i).length

/-- The `j`-th procurement-set. -/
def blk : List AgentCategory → List ℕ → ℕ → List ℚ
  | c :: cs, a :: r, j => seg c.values a j ++ blk cs r j
  | _, _, _ => []

/-- The categories after `j` procurement-sets were removed. -/
def dropBlocks : List AgentCategory → List ℕ → ℕ → List AgentCategory
  | c :: cs, a :: r, j => { c with values := c.values.drop (j * a) } :: dropBlocks cs r j
  | _, _, _ => []

theorem dropBlocks_length {cs : List AgentCategory} {r : List ℕ} (h : r.length = cs.length) (j : ℕ) :
    (dropBlocks cs r j).length = cs.length := by
  induction cs generalizing r with
  | nil => cases r <;> simp [dropBlocks]
  | cons c cs ih =>
    cases r with
    | nil => simp at h
    | cons a r => simp [dropBlocks, ih (by simpa using h)]

theorem vAt_dropBlocks {cs : List AgentCategory} {r : List ℕ} (h : r.length = cs.length) (j i : ℕ) :
    vAt (dropBlocks cs r j) i = (vAt cs i).drop (j * rAt r i) := by
  induction cs generalizing r i with
  | nil => cases r <;> simp [dropBlocks, vAt]
  | cons c cs ih =>
    cases r with
    | nil => simp at h
    | cons a r =>
      cases i with
      | zero => simp [dropBlocks]
      | succ i => simp [dropBlocks, ih (by simpa using h)]

theorem dropBlocks_zero {cs : List AgentCategory} {r : List ℕ} (h : r.length = cs.length) :
    dropBlocks cs r 0 = cs := by
  induction cs generalizing r with
  | nil => cases r <;> simp [dropBlocks]
  | cons c cs ih =>
    cases r with
    | nil => simp at h
    | cons a r => simp [dropBlocks, ih (by simpa using h)]

theorem dropBlocks_dropBlocks {cs : List AgentCategory} {r : List ℕ} (h : r.length = cs.length) (j k : ℕ) :
    dropBlocks (dropBlocks cs r j) r k = dropBlocks cs r (j + k) := by
  induction cs generalizing r with
  | nil => cases r <;> simp [dropBlocks]
  | cons c cs ih =>
    cases r with
    | nil => simp at h
    | cons a r => simp [dropBlocks, ih (by simpa using h), List.drop_drop, Nat.add_mul]

theorem blk_dropBlocks {cs : List AgentCategory} {r : List ℕ} (h : r.length = cs.length) (j k : ℕ) :
    blk (dropBlocks cs r j) r k = blk cs r (j + k) := by
  induction cs generalizing r with
  | nil => cases r <;> simp [dropBlocks, blk]
  | cons c cs ih =>
    cases r with
    | nil => simp at h
    | cons a r => simp [dropBlocks, blk, seg, ih (by simpa using h), List.drop_drop, Nat.add_mul]

theorem getHighestAgentsLoop_eq {cs : List AgentCategory} {r : List ℕ} (h : r.length = cs.length) :
    (Avail cs r 0 ∧ Market.getHighestAgentsLoop cs r = .ok (some (blk cs r 0))) ∨
    (¬ Avail cs r 0 ∧ Market.getHighestAgentsLoop cs r = .ok none) := by
  induction cs generalizing r with
  | nil => left; refine ⟨by simp [Avail], ?_⟩; cases r <;> simp [Market.getHighestAgentsLoop, blk]
  | cons c cs ih =>
    cases r with
    | nil => simp at h
    | cons a r =>
      have key : Avail (c :: cs) (a :: r) 0 ↔ a ≤ c.values.length ∧ Avail cs r 0 := by
        simp only [Avail, List.length_cons, Nat.forall_lt_succ_left']
        simp
      simp only [Market.getHighestAgentsLoop, AgentCategory.size]
      by_cases hlt : c.values.length < a
      · right
        refine ⟨?_, by simp [hlt]⟩
        rw [key]; omega
      · rcases ih (r := r) (by simpa using h) with ⟨hav, he⟩ | ⟨hav, he⟩
        · left
          refine ⟨key.2 ⟨by omega, hav⟩, ?_⟩
          simp [hlt, he, bind, Except.bind, blk, seg, AgentCategory.highestAgentValues]
        · right
          refine ⟨fun hh => hav (key.1 hh).2, ?_⟩
          simp [hlt, he, bind, Except.bind]

theorem removeHighestAgentsLoop_eq {cs : List AgentCategory} {r : List ℕ} (h : r.length = cs.length)
    (hav : Avail cs r 0) : Market.removeHighestAgentsLoop cs r = .ok (dropBlocks cs r 1) := by
  induction cs generalizing r with
  | nil => cases r <;> simp [Market.removeHighestAgentsLoop, dropBlocks]
  | cons c cs ih =>
    cases r with
    | nil => simp at h
    | cons a r =>
      have h0 := hav 0 (by simp)
      have hav' : Avail cs r 0 := fun i hi => by
        have := hav (i + 1) (by simpa using hi)
        simpa using this
      have ha : a ≤ c.values.length := by simpa using h0
      simp [Market.removeHighestAgentsLoop, AgentCategory.removeHighestAgents_eq, ha, bind, Except.bind,
        ih (by simpa using h) hav', dropBlocks]

theorem avail_dropBlocks {cs : List AgentCategory} {r : List ℕ} (h : r.length = cs.length) (j : ℕ)
    (hj : ∀ i < cs.length, j * rAt r i ≤ (vAt cs i).length) :
    Avail (dropBlocks cs r j) r 0 ↔ Avail cs r j := by
  unfold Avail
  rw [dropBlocks_length h]
  refine forall_congr' fun i => forall_congr' fun hi => ?_
  rw [vAt_dropBlocks h, List.length_drop]
  have := hj i hi
  constructor <;> intro h1
  · rw [Nat.add_mul]; omega
  · rw [Nat.add_mul] at h1; omega

/-- A gain that `optimal_trade` accepts. -/
def Good (includeZero : Bool) (g : ℚ) : Prop := ¬ (g < 0 ∨ (g = 0 ∧ includeZero = false))

instance (z : Bool) (g : ℚ) : Decidable (Good z g) := by unfold Good; infer_instance

theorem optimalTradeLoop_eq {cs : List AgentCategory} {r : List ℕ} (h : r.length = cs.length) (z : Bool) :
    ∀ (n j : ℕ) (acc : List (List ℚ)), (∀ i < cs.length, j * rAt r i ≤ (vAt cs i).length) →
    ∃ k, j ≤ k ∧ k ≤ j + n ∧
      Market.optimalTradeLoop r z n ⟨dropBlocks cs r j⟩ acc
        = .ok (acc ++ (List.range' j (k - j)).map (blk cs r), ⟨dropBlocks cs r k⟩) ∧
      (∀ t, j ≤ t → t < k → Avail cs r t ∧ Good z (blk cs r t).sum) ∧
      (k < j + n → ¬ Avail cs r k ∨ ¬ Good z (blk cs r k).sum) := by
  intro n
  induction n with
  | zero =>
    intro j acc _
    refine ⟨j, le_refl _, by omega, by simp [Market.optimalTradeLoop], fun t h1 h2 => by omega, fun hh => by omega⟩
  | succ n ih =>
    intro j acc hj
    have hlen : r.length = (dropBlocks cs r j).length := by rw [dropBlocks_length h]; exact h
    simp only [Market.optimalTradeLoop, Market.getHighestAgents]
    rcases getHighestAgentsLoop_eq hlen with ⟨hav, he⟩ | ⟨hav, he⟩
    · rw [he]
      have hav' : Avail cs r j := (avail_dropBlocks h j hj).1 hav
      rw [blk_dropBlocks h]
      by_cases hg : Good z (blk cs r j).sum
      · have hrem := removeHighestAgentsLoop_eq hlen hav
        rw [dropBlocks_dropBlocks h] at hrem
        obtain ⟨k, h1, h2, h3, h4, h5⟩ := ih (j + 1) (acc ++ [blk cs r j]) (fun i hi => hav' i hi)
        refine ⟨k, by omega, by omega, ?_, ?_, fun hh => h5 (by omega)⟩
        · simp only [bind, Except.bind, add_zero, if_neg hg, Market.removeHighestAgents, hrem, h3]
          have : k - j = (k - (j + 1)) + 1 := by omega
          rw [this, List.range'_succ]
          simp
        · intro t ht1 ht2
          rcases Nat.lt_or_eq_of_le ht1 with hlt | heq
          · exact h4 t hlt ht2
          · subst heq; exact ⟨hav', hg⟩
      · refine ⟨j, le_refl _, by omega, ?_, fun t h1 h2 => by omega, fun _ => Or.inr hg⟩
        simp only [bind, Except.bind, add_zero]
        rw [if_pos (not_not.1 hg)]
        simp
    · rw [he]
      refine ⟨j, le_refl _, by omega, by simp [bind, Except.bind], fun t h1 h2 => by omega, fun _ => Or.inl ?_⟩
      rwa [avail_dropBlocks h j hj] at hav

/-- pointwise domination of two lists of numbers -/
abbrev Dom (a b : List ℚ) : Prop := List.Forall₂ (· ≥ ·) a b

theorem Dom.sum_le {a b : List ℚ} (h : Dom a b) : b.sum ≤ a.sum := by
  induction h with
  | nil => simp
  | cons h _ ih => simp only [List.sum_cons]; linarith

theorem Dom.eq_of_sum {a b : List ℚ} (h : Dom a b) (hs : a.sum = b.sum) : a = b := by
  induction h with
  | nil => rfl
  | cons h ht ih =>
    have := Dom.sum_le ht
    simp only [List.sum_cons] at hs
    rw [ih (by linarith)]
    congr 1; linarith

theorem seg_length {l : List ℚ} {r j : ℕ} (h : (j + 1) * r ≤ l.length) : (seg l r j).length = r := by
  have : j * r + r ≤ l.length := by rw [← Nat.succ_mul]; exact h
  simp [seg]; omega

theorem seg_getElem {l : List ℚ} {r j t : ℕ} (h : t < (seg l r j).length) :
    (seg l r j)[t] = l[j * r + t]'(by simp [seg] at h; omega) := by
  simp [seg]

theorem seg_dom {l : List ℚ} (hl : SortedDesc l) {r j j' : ℕ} (hj : j ≤ j') (h : (j' + 1) * r ≤ l.length) :
    Dom (seg l r j) (seg l r j') := by
  have hmul : j * r ≤ j' * r := Nat.mul_le_mul_right r hj
  have h1 : (seg l r j).length = r := seg_length (le_trans (Nat.mul_le_mul_right r (by omega)) h)
  have h2 : (seg l r j').length = r := seg_length h
  rw [Dom, List.forall₂_iff_get]
  refine ⟨by omega, fun t ht1 ht2 => ?_⟩
  simp only [List.get_eq_getElem, seg_getElem]
  apply hl.getElem_ge; omega

theorem blk_dom {cs : List AgentCategory} {r : List ℕ} (h : r.length = cs.length)
    (hs : ∀ c ∈ cs, SortedDesc c.values) {j j' : ℕ} (hj : j ≤ j') (hav : Avail cs r j') :
    Dom (blk cs r j) (blk cs r j') := by
  induction cs generalizing r with
  | nil => cases r <;> simp [blk]
  | cons c cs ih =>
    cases r with
    | nil => simp at h
    | cons a r =>
      simp only [blk]
      have h0 := hav 0 (by simp)
      refine List.rel_append (seg_dom (hs c (by simp)) hj (by simpa using h0)) ?_
      exact ih (by simpa using h) (fun c hc => hs c (by simp [hc])) (fun i hi => by
        have := hav (i + 1) (by simpa using hi); simpa using this)

theorem sortBySum_blks {cs : List AgentCategory} {r : List ℕ} (h : r.length = cs.length)
    (hs : ∀ c ∈ cs, SortedDesc c.values) {k : ℕ} (hav : ∀ t < k, Avail cs r t) :
    sortBySum ((List.range k).map (blk cs r)) = ((List.range k).map (blk cs r)).reverse := by
  set l := (List.range k).map (blk cs r) with hl
  have hperm : (sortBySum l).Perm l.reverse := (List.perm_insertionSort _ l).trans (List.reverse_perm l).symm
  have : Std.Total (fun a b : List ℚ => a.sum ≤ b.sum) := ⟨fun a b => le_total _ _⟩
  have : IsTrans (List ℚ) (fun a b : List ℚ => a.sum ≤ b.sum) := ⟨fun a b c h1 h2 => le_trans h1 h2⟩
  have hsorted : (sortBySum l).Pairwise (fun a b : List ℚ => a.sum ≤ b.sum) :=
    List.pairwise_insertionSort (fun a b : List ℚ => a.sum ≤ b.sum) l
  have hrev : l.reverse.Pairwise (fun a b : List ℚ => a.sum ≤ b.sum) := by
    rw [List.pairwise_reverse, hl, List.pairwise_map]
    refine List.Pairwise.imp_of_mem ?_ (List.pairwise_lt_range (n := k))
    intro a b ha hb hab
    exact (blk_dom h hs (le_of_lt hab) (hav b (by simpa using hb))).sum_le
  refine hperm.eq_of_pairwise ?_ hsorted hrev
  intro a b ha hb h1 h2
  have ha' : a ∈ l := (List.perm_insertionSort _ l).mem_iff.1 ha
  have hb' : b ∈ l := by simpa using hb
  rw [hl, List.mem_map] at ha' hb'
  obtain ⟨i, hi, rfl⟩ := ha'
  obtain ⟨j, hj, rfl⟩ := hb'
  have hsum : (blk cs r i).sum = (blk cs r j).sum := le_antisymm h1 h2
  rcases le_total i j with hij | hij
  · exact (blk_dom h hs hij (hav j (by simpa using hj))).eq_of_sum hsum
  · exact ((blk_dom h hs hij (hav i (by simpa using hi))).eq_of_sum hsum.symm).symm

/-- The market as the code sees it after `clone()`: every category sorted. -/
def Market.sorted (m : Market) : List AgentCategory := m.categories.map AgentCategory.clone

theorem Market.sorted_length (m : Market) : m.sorted.length = m.numCategories := by simp [sorted, numCategories]

theorem Market.sorted_sorted (m : Market) : ∀ c ∈ m.sorted, SortedDesc c.values := by
  intro c hc
  simp only [sorted, List.mem_map] at hc
  obtain ⟨c', -, rfl⟩ := hc
  exact sortDesc_sorted _

theorem Market.clone_eq {m : Market} (h : m.categories ≠ []) : m.clone = .ok ⟨m.sorted⟩ := by
  obtain ⟨cs⟩ := m
  cases cs with
  | nil => simp at h
  | cons c cs => rfl

theorem vAt_sorted (m : Market) (i : ℕ) : vAt m.sorted i = sortDesc (vAt m.categories i) := by
  by_cases h : i < m.categories.length
  · rw [vAt_eq_getElem h, vAt_eq_getElem (by simpa [Market.sorted] using h)]
    simp [Market.sorted, AgentCategory.clone, AgentCategory.init]
  · rw [vAt_of_ge (by rw [Market.sorted_length]; simpa [Market.numCategories] using h), vAt_of_ge (by simpa using h)]
    rfl

/-- `m.optimalTrade` takes the first `k` blocks. -/
structure GreedyStop (m : Market) (r : List ℕ) (maxIter : ℕ) (z : Bool) (k : ℕ) : Prop where
  le_max : k ≤ maxIter
  taken : ∀ t < k, Avail m.sorted r t ∧ Good z (blk m.sorted r t).sum
  stop : k < maxIter → ¬ Avail m.sorted r k ∨ ¬ Good z (blk m.sorted r k).sum

theorem optimalTrade_eq {m : Market} {r : List ℕ} (h : r.length = m.numCategories) (hne : m.categories ≠ [])
    (maxIter : ℕ) (z : Bool) :
    ∃ k, GreedyStop m r maxIter z k ∧
      m.optimalTrade r maxIter z
        = .ok (⟨((List.range k).map (blk m.sorted r)).reverse⟩, ⟨dropBlocks m.sorted r k⟩) := by
  have h' : r.length = m.sorted.length := by rw [m.sorted_length]; exact h
  obtain ⟨k, -, h2, h3, h4, h5⟩ := optimalTradeLoop_eq h' z maxIter 0 [] (by simp)
  refine ⟨k, ⟨by omega, fun t ht => h4 t (by omega) ht, fun hk => h5 (by omega)⟩, ?_⟩
  rw [dropBlocks_zero h'] at h3
  unfold Market.optimalTrade
  simp only [h, ne_eq, not_true_eq_false, if_false, Market.clone_eq hne, bind, Except.bind, h3]
  simp only [List.nil_append, Nat.sub_zero, ← List.range_eq_range']
  rw [sortBySum_blks h' m.sorted_sorted (fun t ht => (h4 t (by omega) ht).1)]

theorem optimalTrade_ok_inv {m : Market} {r : List ℕ} {maxIter : ℕ} {z : Bool} {res}
    (h : m.optimalTrade r maxIter z = .ok res) : r.length = m.numCategories ∧ m.categories ≠ [] := by
  unfold Market.optimalTrade at h
  by_cases hl : r.length = m.numCategories
  · refine ⟨hl, ?_⟩
    intro hnil
    simp [hl, Market.clone, hnil, Market.init, bind, Except.bind] at h
  · simp [hl] at h

theorem blk_sum {cs : List AgentCategory} {r : List ℕ} (h : r.length = cs.length) (j : ℕ) :
    (blk cs r j).sum = ∑ i ∈ Finset.range cs.length, (seg (vAt cs i) (rAt r i) j).sum := by
  induction cs generalizing r with
  | nil => cases r <;> simp [blk]
  | cons c cs ih =>
    cases r with
    | nil => simp at h
    | cons a r =>
      rw [List.length_cons, Finset.sum_range_succ']
      simp [blk, ih (by simpa using h), add_comm]

theorem seg_sums (l : List ℚ) (r n : ℕ) :
    ∑ j ∈ Finset.range n, (seg l r j).sum = (l.take (n * r)).sum := by
  induction n with
  | zero => simp
  | succ n ih =>
    rw [Finset.sum_range_succ, ih, Nat.succ_mul, List.take_add, List.sum_append]; rfl

end Auctions
