import Verif.Proofs.FloatingOptimal
import Verif.Proofs.FloatingMcAfee
import Verif.Props.FloatingOptimal

set_option autoImplicit false

/-! # Helper lemmas: McAfee's protocol with rounding: the possible outcomes -/

namespace Auctions.Floating

open Auctions Auctions.Spec Auctions.Props Auctions.McAfee

/-- Categories with the agents of the given ranks. -/
def pick (cs : List AgentCategory) (l : List ℕ) : List AgentCategory := cs.map (fun c => { c with values := sortDesc (l.map (fun j => c.values.getD j 0)) })

theorem pick_nil (m : Market) : m.emptyAgentCategories = pick m.sorted [] := by
  simp only [Market.emptyAgentCategories, pick, Market.sorted, List.map_map]
  apply List.map_congr_left
  intro c _
  simp [AgentCategory.clone, AgentCategory.init, sortDesc]

theorem appendEach_pick {cs : List AgentCategory} {j : ℕ} (hk : ∀ c ∈ cs, j < c.values.length) {r : List ℕ} (hr : r = List.replicate cs.length 1) (acc : List ℕ) :
    appendEach (pick cs acc) (blk cs r j) = .ok (pick cs (acc ++ [j])) := by
  induction cs generalizing r with
  | nil => subst hr; rfl
  | cons c cs ih =>
    rw [List.length_cons, List.replicate_succ] at hr
    subst hr
    have hlt : j < c.values.length := hk c (by simp)
    have hseg : seg c.values 1 j = [c.values.getD j 0] := by
      simp [seg, List.take_one_drop_eq_of_lt_length hlt, hlt]
    have h2 := ih (fun c hc => hk c (by simp [hc])) rfl
    have h1 : sortDesc (sortDesc (acc.map (fun j => c.values.getD j 0)) ++ [c.values.getD j 0]) = sortDesc ((acc ++ [j]).map (fun j => c.values.getD j 0)) := by
      refine eq_of_perm_of_sorted ((sortDesc_perm _).trans ?_) (sortDesc_sorted _) (sortDesc_sorted _)
      rw [List.map_append]
      exact ((sortDesc_perm _).append_right _).trans (sortDesc_perm _).symm
    simp only [pick, List.map_cons, blk, hseg, List.cons_append, List.nil_append, appendEach]
    rw [show cs.map (fun c => { c with values := sortDesc (acc.map (fun j => c.values.getD j 0)) }) = pick cs acc from rfl, h2]
    simp only [bind, Except.bind, AgentCategory.append, h1]
    rfl

theorem appendAll_pick {cs : List AgentCategory} {r : List ℕ} (hr : r = List.replicate cs.length 1) (l : List ℕ) (hk : ∀ j ∈ l, ∀ c ∈ cs, j < c.values.length) (acc : List ℕ) :
    appendAll (pick cs acc) (l.map (blk cs r)) = .ok (pick cs (acc ++ l)) := by
  induction l generalizing acc with
  | nil => simp [appendAll]
  | cons j l ih =>
    simp only [List.map_cons, appendAll, bind, Except.bind, appendEach_pick (hk j (by simp)) hr]
    rw [ih (fun i hi => hk i (by simp [hi]))]
    simp

theorem foldl_min_same (n d : ℕ) : (List.replicate n d).foldl min d = d := by
  induction n with
  | zero => rfl
  | succ n ih => rw [List.replicate_succ, List.foldl_cons, min_self, ih]

theorem init_pick (fl : ℚ → ℚ) {cs : List AgentCategory} {r : List ℕ} (hr : r = List.replicate cs.length 1) (hc : cs ≠ []) (l : List ℕ) (p : Option (List ℚ)) :
    initTrade fl (pick cs l) r p = .ok ⟨pick cs l, r, p, ⌊fl ((l.length : ℚ) / (1 : ℕ))⌋.toNat⟩ := by
  have key : ∀ cs : List AgentCategory, potentialDeals fl (pick cs l) (List.replicate cs.length 1) = List.replicate cs.length ⌊fl ((l.length : ℚ) / (1 : ℕ))⌋.toNat := by
    intro cs
    induction cs with
    | nil => rfl
    | cons c cs ih =>
      rw [List.length_cons, List.replicate_succ, List.replicate_succ, ← ih]
      simp only [pick, List.map_cons, potentialDeals, AgentCategory.size, (sortDesc_perm _).length_eq, List.length_map]
      simp
  unfold initTrade
  rw [hr, key]
  cases cs with
  | nil => exact absurd rfl hc
  | cons c cs =>
    rw [List.length_cons, List.replicate_succ]
    simp only [pyMinNat, bind, Except.bind, foldl_min_same]

/-- Possible outcomes of McAfee's protocol when the deals of ranks `idx` are (nearly) optimal: the agents of ranks `l` trade, at the prices `p`. -/
inductive FlResult (fl : ℚ → ℚ) (m : Market) (r : List ℕ) (h : Bool) : List ℕ → List ℕ → List ℚ → Prop
  | none : FlResult fl m r h [] [] (List.replicate m.numCategories 0)
  | full {i : ℕ} {rest : List ℕ} (ps : List ℚ) : h = true → isPriceGoodForPs (fl (flSum fl (ps.map (fun x => |x|)) / ps.length)) (blk m.sorted r i) = true →
      FlResult fl m r h (i :: rest) (i :: rest)
        ((List.range m.numCategories).map (fun n => fl (fl (flSum fl (ps.map (fun x => |x|)) / ps.length) * (if (blk m.sorted r i).getD n 0 < 0 then -1 else 1))))
  | reduced {i : ℕ} {rest : List ℕ} : FlResult fl m r h (i :: rest) rest (blk m.sorted r i)

theorem flHeuristicPrices_eq {fl : ℚ → ℚ} {c : ℚ} {last : List ℚ} {n : ℕ} (hl : last.length = n) :
    heuristicPrices fl c last n = .ok ((List.range n).map (fun i => fl (c * (if last.getD i 0 < 0 then -1 else 1)))) := by
  unfold heuristicPrices
  have : ∀ l : List ℕ, (∀ i ∈ l, i < last.length) → l.mapM (fun i => do
      let x ← pyGet last i
      (.ok (fl (c * (if x < 0 then -1 else 1))) : Py ℚ)) = .ok (l.map (fun i => fl (c * (if last.getD i 0 < 0 then -1 else 1)))) := by
    intro l hl
    induction l with
    | nil => rfl
    | cons i l ih =>
      have hi := hl i (by simp)
      rw [List.mapM_cons, ih (fun j hj => hl j (by simp [hj]))]
      simp [pyGet, hi, bind, Except.bind, pure, Except.pure]
  exact this _ (by simp [hl])

theorem flMcAfee_eq (fl : ℚ → ℚ) {m : Market} {r : List ℕ} (hr : r = List.replicate m.numCategories 1) (hcat : m.categories ≠ []) (h : Bool) :
    ∃ k idx l p, FlStop fl m r 2000000 true k ∧ idx.Perm (List.range k) ∧
      optimalTrade fl m r = .ok (⟨idx.map (blk m.sorted r)⟩, ⟨dropBlocks m.sorted r k⟩) ∧ FlResult fl m r h idx l p ∧ (h = false → idx ≠ [] → l = idx.tail) ∧
      mcafeeTradeReduction fl m r h = .ok ⟨pick m.sorted l, r, some p, ⌊fl ((l.length : ℚ) / (1 : ℕ))⌋.toNat⟩ := by
  have hl : r.length = m.numCategories := by rw [hr]; simp
  have hr' : r = List.replicate m.sorted.length 1 := by rw [m.sorted_length]; exact hr
  have hcs : m.sorted ≠ [] := by
    intro h0
    have := m.sorted_length
    rw [h0] at this
    exact hcat (List.length_eq_zero_iff.1 this.symm)
  obtain ⟨⟨⟨o⟩, rem⟩, he⟩ := optimalTrade_ok fl hl hcat 2000000 true
  obtain ⟨k, idx, hk, hperm, ho, rfl⟩ := flOptimal_eq he
  dsimp only at ho
  subst ho
  have hrA : ∀ i < m.sorted.length, rAt r i = 1 := by intro i hi; rw [hr']; simp [rAt, hi]
  have hin : ∀ j ∈ idx, ∀ c ∈ m.sorted, j < c.values.length := by
    intro j hj c hc
    obtain ⟨i, hi, rfl⟩ := List.getElem_of_mem hc
    have := (hk.taken j (List.mem_range.1 (hperm.mem_iff.1 hj))).1 i hi
    rw [hrA i hi, vAt_eq_getElem hi] at this
    omega
  have hany : (r.any (fun x => x ≠ 1)) = false := by
    rw [hr, List.any_eq_false]
    intro x hx
    simp [List.mem_replicate] at hx
    simp [hx.2]
  obtain ⟨ps, hps, -⟩ := candidate_eq hr hcat k
  have hpl : ps.length = m.numCategories := by
    have h1 := highest_length (cs := (padEmpty ⟨dropBlocks m.sorted r k⟩).categories) (n := m.numCategories) (by rw [padEmpty_length, dropBlocks_length (show r.length = m.sorted.length by rw [hl, m.sorted_length]), m.sorted_length])
      (ps := ps) (by rw [← hr]; exact hps)
    exact h1
  have hn0 : (ps.length : ℚ) ≠ 0 := by
    rw [hpl]
    have : m.numCategories ≠ 0 := by simp [Market.numCategories, hcat]
    exact_mod_cast this
  have hcand : priceCandidate fl (some ps) = .ok (fl (flSum fl (ps.map (fun x => |x|)) / ps.length)) := by
    simp only [priceCandidate, flDiv, if_neg hn0]
  set c := fl (flSum fl (ps.map (fun x => |x|)) / ps.length) with hc
  have hfront : mcafeeTradeReduction fl m r h = (match idx.map (blk m.sorted r) with
    | [] => initTrade fl m.emptyAgentCategories r (some (List.replicate m.numCategories 0))
    | lastPositive :: others =>
      if h ∧ isPriceGoodForPs (if h then c else 0) lastPositive then do
        let prices ← heuristicPrices fl (if h then c else 0) lastPositive m.numCategories
        let traders' ← appendAll m.emptyAgentCategories (lastPositive :: others)
        initTrade fl traders' r (some prices)
      else do
        let traders' ← appendAll m.emptyAgentCategories others
        initTrade fl traders' r (some lastPositive)) := by
    unfold mcafeeTradeReduction
    simp only [hl, ne_eq, not_true_eq_false, if_false, hany, Bool.false_eq_true, he, bind, Except.bind, hps]
    cases h
    · simp
      rfl
    · simp [hcand]
      rfl
  cases idx with
  | nil =>
    refine ⟨k, _, [], _, hk, hperm, he, FlResult.none, fun _ h0 => absurd rfl h0, ?_⟩
    rw [hfront, pick_nil]
    exact init_pick fl hr' hcs [] _
  | cons i rest =>
    rw [hfront]
    simp only [List.map_cons]
    by_cases hg : h = true ∧ isPriceGoodForPs c (blk m.sorted r i) = true
    · refine ⟨k, _, i :: rest, _, hk, hperm, he, FlResult.full ps hg.1 hg.2, fun h0 => by rw [hg.1] at h0; simp at h0, ?_⟩
      simp only [hg.1, if_true, hg.2, and_self]
      have hbl : (blk m.sorted r i).length = m.numCategories := by
        rw [blk_ones_length hr' (hk.taken i (List.mem_range.1 (hperm.mem_iff.1 (by simp)))).1, m.sorted_length]
      rw [flHeuristicPrices_eq hbl, ← List.map_cons, pick_nil, appendAll_pick hr' (i :: rest) hin []]
      simp only [bind, Except.bind]
      exact init_pick fl hr' hcs (i :: rest) _
    · refine ⟨k, _, rest, _, hk, hperm, he, FlResult.reduced, fun _ _ => rfl, ?_⟩
      have hcond : ¬ (h = true ∧ isPriceGoodForPs (if h = true then c else 0) (blk m.sorted r i) = true) := by
        rintro ⟨h1, h2⟩
        rw [if_pos h1] at h2
        exact hg ⟨h1, h2⟩
      rw [if_neg hcond, pick_nil, appendAll_pick hr' rest (fun j hj => hin j (by simp [hj])) []]
      simp only [bind, Except.bind]
      exact init_pick fl hr' hcs rest _

theorem flMcAfee_inv {fl : ℚ → ℚ} {m : Market} {r : List ℕ} {h : Bool} {t : TradeWithSinglePrice} (ht : mcafeeTradeReduction fl m r h = .ok t) :
    r = List.replicate m.numCategories 1 ∧ m.categories ≠ [] := by
  by_cases hl : r.length = m.numCategories
  swap
  · simp [mcafeeTradeReduction, hl] at ht
  by_cases ha : r.any (fun x => x ≠ 1) = true
  · simp only [mcafeeTradeReduction, hl, ha] at ht
    simp at ht
  · have hr := recipe_ones (r := r) (by simpa using ha)
    refine ⟨by rw [← hl]; exact hr, ?_⟩
    intro hnil
    simp only [mcafeeTradeReduction, hl, ha] at ht
    simp [optimalTrade, hl, Market.clone, hnil, Market.init, bind, Except.bind] at ht

end Auctions.Floating
