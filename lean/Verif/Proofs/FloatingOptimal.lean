import Verif.Proofs.FloatingRun
import Verif.Props.Markets

set_option autoImplicit false

/-! # The optimal trade with rounded arithmetic on arbitrary reports -/

namespace Auctions.Floating

open Auctions.Spec Auctions.Ascending

/-- A deal that the rounded program accepts. -/
def FlGood (fl : ℚ → ℚ) (z : Bool) (ps : List ℚ) : Prop := Good z (flSum fl ps)

theorem flOptimalLoop_eq (fl : ℚ → ℚ) {cs : List AgentCategory} {r : List ℕ} (h : r.length = cs.length) (z : Bool) :
    ∀ (n j : ℕ) (acc : List (List ℚ)), (∀ i < cs.length, j * rAt r i ≤ (vAt cs i).length) →
    ∃ k, j ≤ k ∧ k ≤ j + n ∧
      optimalTradeLoop fl r z n ⟨dropBlocks cs r j⟩ acc
        = .ok (acc ++ (List.range' j (k - j)).map (blk cs r), ⟨dropBlocks cs r k⟩) ∧
      (∀ t, j ≤ t → t < k → Avail cs r t ∧ FlGood fl z (blk cs r t)) ∧
      (k < j + n → ¬ Avail cs r k ∨ ¬ FlGood fl z (blk cs r k)) := by
  intro n
  induction n with
  | zero =>
    intro j acc _
    refine ⟨j, le_refl _, by omega, by simp [optimalTradeLoop], fun t h1 h2 => by omega, fun hh => by omega⟩
  | succ n ih =>
    intro j acc hj
    have hlen : r.length = (dropBlocks cs r j).length := by rw [dropBlocks_length h]; exact h
    simp only [optimalTradeLoop, Market.getHighestAgents]
    rcases getHighestAgentsLoop_eq hlen with ⟨hav, he⟩ | ⟨hav, he⟩
    · rw [he]
      have hav' : Avail cs r j := (avail_dropBlocks h j hj).1 hav
      rw [blk_dropBlocks h]
      by_cases hg : FlGood fl z (blk cs r j)
      · have hrem := removeHighestAgentsLoop_eq hlen hav
        rw [dropBlocks_dropBlocks h] at hrem
        obtain ⟨k, h1, h2, h3, h4, h5⟩ := ih (j + 1) (acc ++ [blk cs r j]) (fun i hi => hav' i hi)
        refine ⟨k, by omega, by omega, ?_, ?_, fun hh => h5 (by omega)⟩
        · have hg' : ¬ (flSum fl (blk cs r j) < 0 ∨ (flSum fl (blk cs r j) = 0 ∧ z = false)) := hg
          simp only [bind, Except.bind, add_zero, if_neg hg', Market.removeHighestAgents, hrem, h3]
          have : k - j = (k - (j + 1)) + 1 := by omega
          rw [this, List.range'_succ]
          simp
        · intro t ht1 ht2
          rcases Nat.lt_or_eq_of_le ht1 with hlt | heq
          · exact h4 t hlt ht2
          · subst heq; exact ⟨hav', hg⟩
      · refine ⟨j, le_refl _, by omega, ?_, fun t h1 h2 => by omega, fun _ => Or.inr hg⟩
        simp only [bind, Except.bind, add_zero]
        rw [if_pos (not_not.1 hg)]
        simp
    · rw [he]
      refine ⟨j, le_refl _, by omega, by simp [bind, Except.bind], fun t h1 h2 => by omega, fun _ => Or.inl ?_⟩
      rwa [avail_dropBlocks h j hj] at hav

/-- What the rounded program returns: the first `k` blocks in some order. -/
structure FlStop (fl : ℚ → ℚ) (m : Market) (r : List ℕ) (N : ℕ) (z : Bool) (k : ℕ) : Prop where
  taken : ∀ t < k, Avail m.sorted r t ∧ FlGood fl z (blk m.sorted r t)
  stop : m.numAgents ≤ N → (∃ x ∈ r, 0 < x) → ¬ Avail m.sorted r k ∨ ¬ FlGood fl z (blk m.sorted r k)

theorem flOptimal_inv {fl : ℚ → ℚ} {m : Market} {r : List ℕ} {N : ℕ} {z : Bool} {x : TradeWithMaterialBalance × Market} (h : optimalTrade fl m r N z = .ok x) :
    r.length = m.numCategories ∧ m.categories ≠ [] := by
  by_cases hl : r.length = m.numCategories
  swap
  · simp [optimalTrade, hl] at h
  refine ⟨hl, fun hc => ?_⟩
  simp [optimalTrade, hl, Market.clone, hc, Market.init, bind, Except.bind] at h

theorem flOptimal_eq {fl : ℚ → ℚ} {m : Market} {r : List ℕ} {N : ℕ} {z : Bool} {o : TradeWithMaterialBalance} {rem : Market} (ht : optimalTrade fl m r N z = .ok (o, rem)) :
    ∃ (k : ℕ) (idx : List ℕ), FlStop fl m r N z k ∧ idx.Perm (List.range k) ∧ o.procurementSets = idx.map (blk m.sorted r) ∧ rem = ⟨dropBlocks m.sorted r k⟩ := by
  obtain ⟨h, hne⟩ := flOptimal_inv ht
  have h' : r.length = m.sorted.length := by rw [m.sorted_length]; exact h
  obtain ⟨k, -, h2, h3, h4, h5⟩ := flOptimalLoop_eq fl h' z N 0 [] (by simp)
  rw [dropBlocks_zero h'] at h3
  unfold optimalTrade at ht
  simp only [h, ne_eq, not_true_eq_false, if_false, Market.clone_eq hne, bind, Except.bind, h3] at ht
  simp only [List.nil_append, Nat.sub_zero, ← List.range_eq_range', Except.ok.injEq, Prod.mk.injEq] at ht
  obtain ⟨rfl, rfl⟩ := ht
  refine ⟨k, (List.range k).insertionSort (fun i j => flSum fl (blk m.sorted r i) ≤ flSum fl (blk m.sorted r j)), ⟨fun t ht => h4 t (by omega) ht, fun hn hr => ?_⟩,
    List.perm_insertionSort _ _, ?_, rfl⟩
  · rcases Nat.lt_or_ge k N with hlt | hge
    · exact h5 (by omega)
    · left
      intro hav
      obtain ⟨x, hx, hx0⟩ := hr
      obtain ⟨i, hi, rfl⟩ := List.getElem_of_mem hx
      have h1 := hav i (by rw [m.sorted_length]; omega)
      rw [rAt_eq_getElem hi, vAt_sorted, sortDesc_length] at h1
      have h2 := length_vAt_le_numAgents m i
      have : k + 1 ≤ (k + 1) * r[i] := Nat.le_mul_of_pos_right _ hx0
      omega
  · exact (List.map_insertionSort _ _ (blk m.sorted r) (List.range k) (fun a _ b _ => Iff.rfl)).symm

/-! ### Rounded sums -/

/-- A rounded sum of numbers that are themselves near to others. -/
theorem flSum_near {fl : ℚ → ℚ} {A u δ B : ℚ} (hu : 0 ≤ u) (hδ : 0 ≤ δ) (hB : 0 ≤ B) (hn : NearTo fl A u) {l e : List ℚ} (h : List.Forall₂ (fun x y : ℚ => |x - y| ≤ δ ∧ |y| ≤ B) l e) {s s' E C : ℚ}
    (hs : |s| ≤ C) (hs' : |s' - s| ≤ E) (hA : C + l.length * B + E + l.length * (δ + u) ≤ A) :
    |l.foldl (fun s x => fl (s + x)) s' - (s + e.sum)| ≤ E + l.length * (δ + u) := by
  induction h generalizing s s' E C with
  | nil => simpa using hs'
  | @cons x y l e hxy _ ih =>
    obtain ⟨h1, h2⟩ := hxy
    simp only [List.foldl_cons, List.sum_cons, List.length_cons, Nat.cast_add, Nat.cast_one] at hA ⊢
    have hl0 : (0 : ℚ) ≤ (l.length : ℚ) := by positivity
    have hC := (abs_nonneg s).trans hs
    have hE := (abs_nonneg _).trans hs'
    have e1 : (0 : ℚ) ≤ l.length * B := mul_nonneg hl0 hB
    have e2 : (0 : ℚ) ≤ l.length * (δ + u) := mul_nonneg hl0 (by linarith)
    have h3 : |s' + x - (s + y)| ≤ E + δ := by
      have : s' + x - (s + y) = (s' - s) + (x - y) := by ring
      rw [this]
      exact (abs_add_le _ _).trans (add_le_add hs' h1)
    have h4 : |s + y| ≤ C + B := (abs_add_le _ _).trans (add_le_add hs h2)
    have h5 : |s' + x| ≤ A := by
      have : s' + x = (s + y) + (s' + x - (s + y)) := by ring
      rw [this]
      refine (abs_add_le _ _).trans ?_
      nlinarith
    have h6 : |fl (s' + x) - (s + y)| ≤ E + δ + u := by
      have : fl (s' + x) - (s + y) = (fl (s' + x) - (s' + x)) + (s' + x - (s + y)) := by ring
      rw [this]
      refine (abs_add_le _ _).trans ?_
      have := hn _ h5
      linarith
    have h7 := ih h4 h6 (by nlinarith)
    rw [add_assoc] at h7
    refine h7.trans (le_of_eq ?_)
    ring

theorem blk_length {cs : List AgentCategory} {r : List ℕ} (h : r.length = cs.length) {j : ℕ} (hav : Avail cs r j) : (blk cs r j).length = r.sum := by
  rw [← blkDeal_flatten, List.length_flatten]
  rw [show (blkDeal cs r j).map List.length = r from blkDeal_follows h hav]

theorem blk_mem {cs : List AgentCategory} {r : List ℕ} {j : ℕ} {v : ℚ} (hv : v ∈ blk cs r j) : ∃ i, v ∈ vAt cs i := by
  induction cs generalizing r with
  | nil => cases r <;> simp [blk] at hv
  | cons c cs ih =>
    cases r with
    | nil => simp [blk] at hv
    | cons a r =>
      simp only [blk, List.mem_append] at hv
      rcases hv with hv | hv
      · exact ⟨0, by rw [vAt_cons_zero]; exact List.mem_of_mem_drop (List.mem_of_mem_take hv)⟩
      · obtain ⟨i, hi⟩ := ih hv
        exact ⟨i + 1, by rw [vAt_cons_succ]; exact hi⟩

section
variable {fl : ℚ → ℚ} (hf : Rounding fl) {m : Market} {r : List ℕ} {M k : ℕ} (h : FloatReports m r M k) (hR : r.sum ≤ 2 ^ k) (hl : r.length = m.numCategories)
include hf h hR hl

/-- The computed gain of a block is near to its gain. -/
theorem flSum_blk {j : ℕ} (hav : Avail m.sorted r j) : |flSum fl (blk m.sorted r j) - (blk m.sorted r j).sum| ≤ r.sum / 2 ^ k ∧ |(blk m.sorted r j).sum| ≤ r.sum * M := by
  have hl' : r.length = m.sorted.length := by rw [m.sorted_length]; exact hl
  have hlen := blk_length hl' hav
  have hb : ∀ v ∈ blk m.sorted r j, |v| ≤ (M : ℚ) := by
    intro v hv
    obtain ⟨i, hi⟩ := blk_mem hv
    exact (report_bound h i v hi).2
  have hu : (0 : ℚ) ≤ 1 / 2 ^ k := by positivity
  have hn := fl_nearTo hf (M := M) (r := r) h.digits
  have hk : (r.sum : ℚ) * (1 / 2 ^ k) ≤ 1 := by
    rw [mul_one_div, div_le_one (by positivity)]
    exact_mod_cast hR
  constructor
  · have := flSum_near (δ := 0) (B := M) hu le_rfl (by positivity) hn (l := blk m.sorted r j) (e := blk m.sorted r j)
      (List.forall₂_same.2 fun v hv => ⟨by simp, hb v hv⟩) (s := 0) (s' := 0) (E := 0) (C := 0) (by simp) (by simp) (by rw [hlen]; nlinarith)
    rw [hlen, zero_add, zero_add, zero_add, mul_one_div] at this
    exact this
  · have := recipeSum_bound (M := (M : ℚ)) (by positivity) (r := List.replicate r.sum 1) hb
    have e : recipeSum (List.replicate r.sum 1) (blk m.sorted r j) = (blk m.sorted r j).sum := by
      rw [← hlen]
      generalize blk m.sorted r j = l
      induction l with
      | nil => simp [recipeSum]
      | cons x l ih => simp only [recipeSum, List.length_cons, List.replicate_succ, List.zipWith_cons_cons, List.sum_cons] at ih ⊢; rw [ih]; simp
    rw [e] at this
    simpa [mul_comm] using this

/-- The sum of any number of blocks is not much more than that of the chosen ones. -/
theorem FlStop.sum_le {N : ℕ} {z : Bool} {j : ℕ} (hs : FlStop fl m r N z j) (hN : m.numAgents ≤ N) (hpos : ∃ x ∈ r, 0 < x) {n : ℕ} (hn : ∀ t < n, Avail m.sorted r t) :
    ∑ i ∈ Finset.range n, (blk m.sorted r i).sum ≤ (∑ i ∈ Finset.range j, (blk m.sorted r i).sum) + |(n : ℚ) - j| * (r.sum / 2 ^ k) := by
  have hstop := hs.stop hN hpos
  rcases le_total n j with hnj | hnj
  · have e : ∑ i ∈ Finset.range j, (blk m.sorted r i).sum = (∑ i ∈ Finset.range n, (blk m.sorted r i).sum) + ∑ i ∈ Finset.Ico n j, (blk m.sorted r i).sum :=
      (Finset.sum_range_add_sum_Ico _ hnj).symm
    have h1 : ∀ i ∈ Finset.Ico n j, -(r.sum / 2 ^ k : ℚ) ≤ (blk m.sorted r i).sum := by
      intro i hi
      obtain ⟨hav, hg⟩ := hs.taken i (Finset.mem_Ico.1 hi).2
      obtain ⟨h2, -⟩ := flSum_blk hf h hR hl hav
      have h3 : 0 ≤ flSum fl (blk m.sorted r i) := by
        unfold FlGood Good at hg; push Not at hg; exact hg.1
      have := (abs_le.1 h2).2
      linarith
    have h2 := Finset.card_nsmul_le_sum _ _ _ h1
    rw [Nat.card_Ico, nsmul_eq_mul, Nat.cast_sub hnj] at h2
    have h3 : (n : ℚ) ≤ j := by exact_mod_cast hnj
    rw [abs_of_nonpos (by linarith), e]
    linarith
  · have e : ∑ i ∈ Finset.range n, (blk m.sorted r i).sum = (∑ i ∈ Finset.range j, (blk m.sorted r i).sum) + ∑ i ∈ Finset.Ico j n, (blk m.sorted r i).sum :=
      (Finset.sum_range_add_sum_Ico _ hnj).symm
    have h1 : ∀ i ∈ Finset.Ico j n, (blk m.sorted r i).sum ≤ (r.sum / 2 ^ k : ℚ) := by
      intro i hi
      obtain ⟨hi1, hi2⟩ := Finset.mem_Ico.1 hi
      have havj : Avail m.sorted r j := hn j (by omega)
      obtain ⟨h2, -⟩ := flSum_blk hf h hR hl havj
      have h3 : flSum fl (blk m.sorted r j) ≤ 0 := by
        rcases hstop with h4 | h4
        · exact absurd havj h4
        · rcases not_not.1 h4 with h5 | h5
          · exact h5.le
          · exact h5.1.le
      have h4 := blk_antitone hl hi1 (hn i hi2)
      have := (abs_le.1 h2).1
      linarith
    have h2 := Finset.sum_le_card_nsmul _ _ _ h1
    rw [Nat.card_Ico, nsmul_eq_mul, Nat.cast_sub hnj] at h2
    have h3 : (j : ℚ) ≤ n := by exact_mod_cast hnj
    rw [abs_of_nonneg (by linarith), e]
    linarith

end

theorem gain_perm {cs : List AgentCategory} {r : List ℕ} {k : ℕ} {idx : List ℕ} (h : idx.Perm (List.range k)) {o : TradeWithMaterialBalance} (ho : o.procurementSets = idx.map (blk cs r)) :
    o.gainFromTrade = ∑ j ∈ Finset.range k, (blk cs r j).sum ∧ o.numOfDeals = k := by
  constructor
  · rw [← gain_blks]
    unfold TradeWithMaterialBalance.gainFromTrade
    rw [ho]
    exact (((h.map (blk cs r)).trans (List.reverse_perm _).symm).map List.sum).sum_eq
  · unfold TradeWithMaterialBalance.numOfDeals
    rw [ho, List.length_map, h.length_eq, List.length_range]

end Auctions.Floating
