import Verif.Props.Floating
import Verif.Proofs.AscendingOutcome

set_option autoImplicit false

/-! # The ascending auction with rounded arithmetic on arbitrary reports -/

namespace Auctions.Floating

open Auctions.Spec Auctions.Ascending

/-! ### The optimal trade never raises an error -/

theorem optimalTradeLoop_ok (fl : ℚ → ℚ) {r : List ℕ} (z : Bool) (n : ℕ) {cs : List AgentCategory} (h : r.length = cs.length) (trade : List (List ℚ)) :
    ∃ x, optimalTradeLoop fl r z n ⟨cs⟩ trade = .ok x := by
  induction n generalizing cs trade with
  | zero => exact ⟨_, rfl⟩
  | succ n ih =>
    unfold optimalTradeLoop
    simp only [Market.getHighestAgents, Market.removeHighestAgents]
    rcases getHighestAgentsLoop_eq h with ⟨hav, he⟩ | ⟨hav, he⟩
    · simp only [he, bind, Except.bind]
      split_ifs with hg
      · exact ⟨_, rfl⟩
      · rw [removeHighestAgentsLoop_eq h hav]
        exact ih (by rw [dropBlocks_length h]; exact h) _
    · simp only [he, bind, Except.bind]
      exact ⟨_, rfl⟩

theorem optimalTrade_ok (fl : ℚ → ℚ) {m : Market} {r : List ℕ} (h : r.length = m.numCategories) (hne : m.categories ≠ []) (n : ℕ) (z : Bool) :
    ∃ x, optimalTrade fl m r n z = .ok x := by
  obtain ⟨x, hx⟩ := optimalTradeLoop_ok fl z n (cs := m.sorted) (by rw [m.sorted_length]; exact h) []
  unfold optimalTrade
  simp only [h, ne_eq, not_true_eq_false, if_false, Market.clone_eq hne, bind, Except.bind, hx]
  exact ⟨_, rfl⟩

/-! ### The clock loop -/

/-- The category chosen by the clock loop. -/
def flMain (fl : ℚ → ℚ) (r : List ℕ) (rel : List ℕ) (s : ℕ → ℕ) : Py ℕ := pyMaxBy (fun i => fl ((s i : ℚ) / (rAt r i : ℚ))) rel

/-- The computed sum of the prices of the other categories. -/
def flOthers (fl : ℚ → ℚ) (cs : List AgentCategory) (r : List ℕ) (s : ℕ → ℕ) (c : ℕ) : ℚ :=
  fl (flDot fl (mkPrices cs s) r - fl (rAt r c * clock (vAt cs c) (s c)))

/-- The computed sum of the prices if category `c` goes up to its lowest agent. -/
def flNewSum (fl : ℚ → ℚ) (cs : List AgentCategory) (r : List ℕ) (s : ℕ → ℕ) (c : ℕ) : ℚ :=
  fl (flOthers fl cs r s c + fl (rAt r c * clock (vAt cs c) (s c - 1)))

/-- The computed balancing price. -/
def flBalPrice (fl : ℚ → ℚ) (cs : List AgentCategory) (r : List ℕ) (s : ℕ → ℕ) (c : ℕ) : ℚ :=
  fl (fl (0 - flOthers fl cs r s c) / rAt r c)

/-- One iteration of the clock loop, for any rounding. -/
theorem flLoop_step (fl : ℚ → ℚ) {cs : List AgentCategory} {r : List ℕ} (h : r.length = cs.length) {s : ℕ → ℕ}
    (hs : ∀ i < cs.length, s i ≤ (vAt cs i).length) {c : ℕ} (hc : flMain fl r (rel cs r) s = .ok c)
    (hcm : c ∈ rel cs r) (st : Option PriceStatus) (fuel : ℕ) :
    ascendingLoop fl r (rel cs r) (fuel + 1) (mkMarket cs s) ⟨r, mkPrices cs s, st⟩ =
      if s c = 0 then .ok (some (mkMarket cs s, ⟨r, mkPrices cs s, st⟩))
      else if 0 ≤ flNewSum fl cs r s c then
        .ok (some (mkMarket cs s, ⟨r, (mkPrices cs s).set c (flBalPrice fl cs r s c), some .stoppedAtZeroSum⟩))
      else ascendingLoop fl r (rel cs r) fuel (mkMarket cs (Function.update s c (s c - 1)))
        ⟨r, mkPrices cs (Function.update s c (s c - 1)), some .stoppedAtAgentValue⟩ := by
  obtain ⟨hcl, hcp⟩ := relevant_mem.1 hcm
  have hmain : pyMaxBy (fractionalPotentialPs fl (mkMarket cs s) r) (rel cs r) = .ok c := by
    rw [← hc]
    refine pyMaxBy_congr fun i hi => ?_
    obtain ⟨hil, -⟩ := relevant_mem.1 hi
    simp only [fractionalPotentialPs, recipeAt_eq, sizeAt_mkMarket hil (hs i hil)]
  have hsc := hs c hcl
  simp only [ascendingLoop, hmain, bind, Except.bind, pyGet_ok (mkMarket_get hcl), AgentCategory.size, List.length_take,
    min_eq_left hsc]
  by_cases h0 : s c = 0
  · simp [h0]
  · simp only [h0, if_false]
    have hlt : s c - 1 < (vAt cs c).length := by omega
    have hlow : AgentCategory.lowestAgentValue { cs[c] with values := (vAt cs c).take (s c) }
        = .ok ((vAt cs c)[s c - 1]) := by
      unfold AgentCategory.lowestAgentValue
      have : ((vAt cs c).take (s c)).getLast? = some ((vAt cs c)[s c - 1]) := by
        rw [List.getLast?_eq_getElem?, List.length_take, min_eq_left hsc, List.getElem?_take_of_lt (by omega),
          List.getElem?_eq_getElem hlt]
      simp [this]
    have hclock : clock (vAt cs c) (s c - 1) = (vAt cs c)[s c - 1] := by simp [clock, hlt]
    have hrem : AgentCategory.removeLowestAgent { cs[c] with values := (vAt cs c).take (s c) }
        = .ok { cs[c] with values := (vAt cs c).take (s c - 1) } := by
      unfold AgentCategory.removeLowestAgent
      have hd : ((vAt cs c).take (s c)).dropLast = (vAt cs c).take (s c - 1) := by
        rw [List.dropLast_eq_take, List.length_take, List.take_take]
        congr 1; omega
      cases hv : (vAt cs c).take (s c) with
      | nil =>
        have : ((vAt cs c).take (s c)).length = 0 := by rw [hv]; rfl
        rw [List.length_take] at this; omega
      | cons x xs => simp only [← hv, hd]
    have hrg : r[c]? = some (rAt r c) := by
      rw [rAt_eq_getElem (by omega), List.getElem?_eq_getElem (by omega)]
    rw [hlow]
    simp only [increasePriceUpToBalance, priceSumWithoutCategory, pyGet_ok hrg, pyGet_ok (mkPrices_get hcl), bind, Except.bind]
    have hsum : fl (fl (flDot fl (mkPrices cs s) r - fl (rAt r c * clock (vAt cs c) (s c))) + fl (rAt r c * (vAt cs c)[s c - 1])) = flNewSum fl cs r s c := by
      rw [← hclock]; rfl
    rw [hsum]
    have hrc : (rAt r c : ℚ) ≠ 0 := by exact_mod_cast hcp.ne'
    by_cases hge : 0 ≤ flNewSum fl cs r s c
    · simp only [ge_iff_le, hge, if_true, flDiv, hrc, if_false]
      rfl
    · simp only [ge_iff_le, hge, if_false, hrem]
      rw [if_neg (by simp)]
      rw [mkPrices_update, hclock, ← mkMarket_update hcl]

/-- The size vectors that the clock loop visits, with the number of iterations. -/
inductive FlPath (fl : ℚ → ℚ) (cs : List AgentCategory) (r : List ℕ) : ℕ → (ℕ → ℕ) → Prop
  | start : FlPath fl cs r 0 (fun i => (vAt cs i).length)
  | step {n s c} : FlPath fl cs r n s → flMain fl r (rel cs r) s = .ok c → s c ≠ 0 →
      flNewSum fl cs r s c < 0 → FlPath fl cs r (n + 1) (Function.update s c (s c - 1))

theorem flMain_spec (fl : ℚ → ℚ) {cs : List AgentCategory} {r : List ℕ} (hne : rel cs r ≠ []) (s : ℕ → ℕ) :
    ∃ c, flMain fl r (rel cs r) s = .ok c ∧ c ∈ rel cs r := by
  obtain ⟨c, h1, h2, -⟩ := pyMaxBy_spec (fun i => fl ((s i : ℚ) / (rAt r i : ℚ))) hne
  exact ⟨c, h1, h2⟩

theorem flMain_mem {fl : ℚ → ℚ} {cs : List AgentCategory} {r : List ℕ} (hne : rel cs r ≠ []) {s : ℕ → ℕ} {c : ℕ} (h : flMain fl r (rel cs r) s = .ok c) : c ∈ rel cs r := by
  obtain ⟨c', h1, h2⟩ := flMain_spec fl hne s
  rw [h] at h1
  obtain rfl := Except.ok.inj h1
  exact h2

theorem FlPath.inv {fl : ℚ → ℚ} {cs : List AgentCategory} {r : List ℕ} (hne : rel cs r ≠ []) {n : ℕ} {s : ℕ → ℕ} (hp : FlPath fl cs r n s) :
    (∀ i, s i ≤ (vAt cs i).length) ∧ (∑ i ∈ Finset.range cs.length, s i) + n = ∑ i ∈ Finset.range cs.length, (vAt cs i).length := by
  induction hp with
  | start => exact ⟨fun i => le_refl _, by simp⟩
  | @step n s c hp hc h0 hneg ih =>
    obtain ⟨hle, hcount⟩ := ih
    obtain ⟨hcl, -⟩ := relevant_mem.1 (flMain_mem hne hc)
    refine ⟨fun i => (update_le i).trans (hle i), ?_⟩
    rw [← hcount, Finset.sum_update_of_mem (Finset.mem_range.2 hcl)]
    rw [← Finset.add_sum_erase _ s (Finset.mem_range.2 hcl), Finset.sdiff_singleton_eq_erase]
    omega

/-- How the clock loop ends. -/
def FlEnding (fl : ℚ → ℚ) (cs : List AgentCategory) (r : List ℕ) (s : ℕ → ℕ) (p : List ℚ) : Prop :=
  ∃ c, flMain fl r (rel cs r) s = .ok c ∧
    ((s c = 0 ∧ p = mkPrices cs s) ∨
     (s c ≠ 0 ∧ 0 ≤ flNewSum fl cs r s c ∧ p = (mkPrices cs s).set c (flBalPrice fl cs r s c)))

theorem flLoop_result {fl : ℚ → ℚ} {cs : List AgentCategory} {r : List ℕ} (h : r.length = cs.length) (hne : rel cs r ≠ [])
    (fuel : ℕ) {n : ℕ} {s : ℕ → ℕ} (hp : FlPath fl cs r n s) (st : Option PriceStatus) :
    (ascendingLoop fl r (rel cs r) fuel (mkMarket cs s) ⟨r, mkPrices cs s, st⟩ = .ok none ∧
      fuel + n ≤ ∑ i ∈ Finset.range cs.length, (vAt cs i).length) ∨
    ∃ n' s' p st', FlPath fl cs r n' s' ∧ FlEnding fl cs r s' p ∧
      ascendingLoop fl r (rel cs r) fuel (mkMarket cs s) ⟨r, mkPrices cs s, st⟩ = .ok (some (mkMarket cs s', ⟨r, p, st'⟩)) := by
  induction fuel generalizing n s st with
  | zero =>
    left
    refine ⟨rfl, ?_⟩
    have := (hp.inv hne).2
    omega
  | succ fuel ih =>
    obtain ⟨c, hc, hcm⟩ := flMain_spec fl hne s
    have hstep := flLoop_step fl h (fun i _ => (hp.inv hne).1 i) hc hcm st fuel
    by_cases h0 : s c = 0
    · rw [if_pos h0] at hstep
      exact Or.inr ⟨n, s, _, st, hp, ⟨c, hc, Or.inl ⟨h0, rfl⟩⟩, hstep⟩
    · rw [if_neg h0] at hstep
      by_cases hge : 0 ≤ flNewSum fl cs r s c
      · rw [if_pos hge] at hstep
        exact Or.inr ⟨n, s, _, _, hp, ⟨c, hc, Or.inr ⟨h0, hge, rfl⟩⟩, hstep⟩
      · rw [if_neg hge] at hstep
        rcases ih (hp.step hc h0 (not_le.1 hge)) (some .stoppedAtAgentValue) with ⟨h1, h2⟩ | ⟨n', s', p, st', h1, h2, h3⟩
        · exact Or.inl ⟨hstep.trans h1, by omega⟩
        · exact Or.inr ⟨n', s', p, st', h1, h2, hstep.trans h3⟩

theorem flPotentialDeals_ne {fl : ℚ → ℚ} {cs : List AgentCategory} {r : List ℕ} (h : r.length = cs.length) (hpos : ∃ x ∈ r, 0 < x) : potentialDeals fl cs r ≠ [] := by
  induction cs generalizing r with
  | nil =>
    cases r with
    | nil => simp at hpos
    | cons a r => simp at h
  | cons c cs ih =>
    cases r with
    | nil => simp at h
    | cons a r =>
      unfold potentialDeals
      split_ifs with ha
      · simp
      · refine ih (by simpa using h) ?_
        obtain ⟨x, hx, hx0⟩ := hpos
        rcases List.mem_cons.1 hx with rfl | hx
        · exact absurd hx0 ha
        · exact ⟨x, hx, hx0⟩

theorem flInit_ok {fl : ℚ → ℚ} {cs : List AgentCategory} {r : List ℕ} (h : r.length = cs.length) (hpos : ∃ x ∈ r, 0 < x) (p : Option (List ℚ)) :
    ∃ d, initTrade fl cs r p = .ok ⟨cs, r, p, d⟩ := by
  unfold initTrade
  cases hd : potentialDeals fl cs r with
  | nil => exact absurd hd (flPotentialDeals_ne h hpos)
  | cons a l => exact ⟨_, rfl⟩

/-- What the auction returns. -/
def FlOutcome (fl : ℚ → ℚ) (cs : List AgentCategory) (r : List ℕ) (t : TradeWithSinglePrice) : Prop :=
  ∃ n s p d, FlPath fl cs r n s ∧ FlEnding fl cs r s p ∧ initTrade fl (mkMarket cs s).categories r (some p) = .ok t ∧
    t = ⟨(mkMarket cs s).categories, r, some p, d⟩

theorem flAuction_spec (fl : ℚ → ℚ) {m : Market} {r : List ℕ} (h : r.length = m.numCategories) (hcat : m.categories ≠ [])
    (hpos : ∃ x ∈ r, 0 < x) (fuel N : ℕ) :
    (ascendingAuction fl m r fuel N = .ok none ∧ fuel ≤ m.numAgents) ∨
      ∃ t, ascendingAuction fl m r fuel N = .ok (some t) ∧ FlOutcome fl m.sorted r t := by
  have h' : r.length = m.sorted.length := by rw [m.sorted_length]; exact h
  have hne := rel_ne_nil h hpos
  obtain ⟨x, hx⟩ := optimalTrade_ok fl h hcat N true
  have hres := flLoop_result h' hne fuel (FlPath.start (fl := fl)) none
  rw [mkMarket_full, mkPrices_full h'] at hres
  unfold ascendingAuction
  rw [rel_sorted]
  simp only [h, ne_eq, not_true_eq_false, if_false, hx, bind, Except.bind, Market.clone_eq hcat,
    AscendingPriceVector.init]
  rw [h] at hres
  rcases hres with ⟨h1, h2⟩ | ⟨n, s, p, st, h1, h2, h3⟩
  · left
    rw [h1, ← total_eq]
    exact ⟨rfl, by simpa using h2⟩
  · right
    obtain ⟨d, hd⟩ := flInit_ok (fl := fl) (cs := (mkMarket m.sorted s).categories) (by rw [mkMarket_length]; exact h') hpos (some p)
    rw [h3]
    simp only [hd]
    exact ⟨_, rfl, n, s, p, d, h1, h2, hd, rfl⟩

end Auctions.Floating
