import Verif.Spec.TreeExperiment
import Verif.Proofs.Experiment

set_option autoImplicit false

/-!
# Lemmas on the loops of `experiment_ascending_auction_recipetree_random.py`
-/

namespace Auctions.TreeExperiment

open Auctions Spec

/-- The sums after one more measurement. -/
def Sums.add (s : Sums) (x : TreeMeasurement) : Sums :=
  ⟨s.optimalCount + x.optimalDeals, s.auctionCount + x.deals, s.optimalKmin + x.kmin, s.optimalKmax + x.kmax, s.optimalGft + x.optimalGain,
    s.auctionTotalGft + x.gain, s.warnings + if x.deals + 3 ≤ x.optimalDeals then 1 else 0⟩

theorem warn_iff (a b : ℕ) : ((a : ℤ) < b - 2) ↔ a + 3 ≤ b := by omega

theorem addMarket_iff {f : List (List ℕ) → ℚ → Py (List ℚ)} {fuel : ℕ} {recipe : List PyObj} {m : Market} {s s' : Sums} :
    addMarket f fuel recipe m s = .ok (some s') ↔ ∃ x, TreeMeasured f fuel recipe m x ∧ s' = s.add x := by
  unfold addMarket TreeMeasured
  constructor
  · intro h
    rcases ho : RecipeTree.init m.numCategories recipe with e | t
    · simp [ho, bind, Except.bind] at h
    rcases ha : TreeAuction.auction f m recipe fuel with e | _ | trade
    · simp [ho, ha, bind, Except.bind] at h
    · simp [ho, ha, bind, Except.bind] at h
    simp only [ho, ha, bind, Except.bind, Except.ok.injEq, Option.some.injEq] at h
    refine ⟨_, ⟨t, trade, rfl, rfl, _, rfl, rfl⟩, ?_⟩
    rw [← h]
    simp only [Sums.add, warn_iff]
  · rintro ⟨x, ⟨t, trade, ho, ha, r, hr, rfl⟩, rfl⟩
    simp only [ho, ha, bind, Except.bind, Sums.add, warn_iff, hr]

/-- The sums of a list of measurements. -/
def Sums.addAll (s : Sums) (xs : List TreeMeasurement) : Sums := xs.foldl Sums.add s

theorem addAll_eq (s : Sums) (xs : List TreeMeasurement) :
    s.addAll xs = ⟨s.optimalCount + (xs.map (fun x => x.optimalDeals)).sum, s.auctionCount + (xs.map (fun x => x.deals)).sum,
      s.optimalKmin + (xs.map (fun x => x.kmin)).sum, s.optimalKmax + (xs.map (fun x => x.kmax)).sum,
      s.optimalGft + (xs.map (fun x => x.optimalGain)).sum, s.auctionTotalGft + (xs.map (fun x => x.gain)).sum,
      s.warnings + (xs.filter (fun x => x.deals + 3 ≤ x.optimalDeals)).length⟩ := by
  induction xs generalizing s with
  | nil => simp [Sums.addAll]
  | cons x xs ih =>
    have : s.addAll (x :: xs) = (s.add x).addAll xs := rfl
    rw [this, ih]
    simp only [Sums.add, add_assoc, List.map_cons, List.sum_cons, List.filter_cons, decide_eq_true_eq]
    congr 1
    split <;> simp
    omega

variable {f : List (List ℕ) → ℚ → Py (List ℚ)} {fuel : ℕ} {recipe : List PyObj} {k n : ℕ} {vr : List (ℚ × ℚ)} {counts values : List ℚ}

theorem iterations_iff {random : ℕ → ℕ → ℕ → ℚ} (N i : ℕ) (s s' : Sums) :
    iterations f fuel recipe k vr n counts values random N i s = .ok (some s') ↔ ∃ xs : List TreeMeasurement, xs.length = N ∧
      (∀ j (hj : j < xs.length), ∃ m, randomMarket k vr n counts values (random (i + j)) = .ok m ∧ TreeMeasured f fuel recipe m xs[j]) ∧
      s' = s.addAll xs := by
  induction N generalizing i s with
  | zero =>
    simp only [iterations, Except.ok.injEq, Option.some.injEq]
    constructor
    · rintro rfl; exact ⟨[], rfl, by simp, rfl⟩
    · rintro ⟨xs, hx, -, rfl⟩
      rw [List.length_eq_zero_iff.1 hx]; rfl
  | succ N ih =>
    unfold iterations
    constructor
    · intro h
      rcases hm : randomMarket k vr n counts values (random i) with e | m
      · simp [hm, bind, Except.bind] at h
      rcases ha : addMarket f fuel recipe m s with e | _ | s1
      · simp [hm, ha, bind, Except.bind] at h
      · simp [hm, ha, bind, Except.bind] at h
      simp only [hm, ha, bind, Except.bind] at h
      obtain ⟨xs, hx, hall, rfl⟩ := (ih _ _).1 h
      obtain ⟨x, hx1, rfl⟩ := addMarket_iff.1 ha
      refine ⟨x :: xs, by simp [hx], ?_, rfl⟩
      intro j hj
      cases j with
      | zero => exact ⟨m, hm, hx1⟩
      | succ j =>
        have := hall j (by simpa using hj)
        rw [show i + 1 + j = i + (j + 1) by omega] at this
        simpa using this
    · rintro ⟨xs, hx, hall, rfl⟩
      cases xs with
      | nil => simp at hx
      | cons x xs =>
        obtain ⟨m, hm, hx1⟩ := hall 0 (by simp)
        have ha := (addMarket_iff (s := s)).2 ⟨x, hx1, rfl⟩
        simp only [Nat.add_zero] at hm
        simp only [hm, ha, bind, Except.bind]
        refine (ih _ _).2 ⟨xs, by simpa using hx, ?_, rfl⟩
        intro j hj
        have := hall (j + 1) (by simpa using hj)
        rw [show i + 1 + j = i + (j + 1) by omega]
        simpa using this

theorem mkRow_eq {N : ℕ} (hN : N ≠ 0) (s : Sums) : mkRow N n s = .ok
    { iterations := N
      numOfAgents := n
      meanOptimalCount := (s.optimalCount : ℚ) / N
      meanOptimalKmin := (s.optimalKmin : ℚ) / N
      meanOptimalKmax := (s.optimalKmax : ℚ) / N
      gftFormula := if ((s.optimalKmin : ℚ) / N - 1) / ((s.optimalKmin : ℚ) / N + 1) > 0 then
        ((s.optimalKmin : ℚ) / N - 1) / ((s.optimalKmin : ℚ) / N + 1) * 100 else 0
      meanAuctionCount := (s.auctionCount : ℚ) / N
      countRatio := if s.optimalCount = 0 then 0 else (s.auctionCount : ℚ) / s.optimalCount * 100
      meanOptimalGft := s.optimalGft / N
      meanAuctionTotalGft := s.auctionTotalGft / N
      totalGftRatio := if s.optimalGft = 0 then 0 else s.auctionTotalGft / s.optimalGft * 100
      warnings := s.warnings } := by
  have h1 : (N : ℚ) ≠ 0 := by exact_mod_cast hN
  have h2 : (s.optimalKmin : ℚ) / N + 1 ≠ 0 := by positivity
  simp only [mkRow, pyDiv, h1, h2, if_false, bind, Except.bind]

theorem mkRow_zero (s : Sums) : mkRow 0 n s = .error .zeroDivisionError := by
  simp [mkRow, pyDiv, bind, Except.bind]

theorem mkRow_ok {N : ℕ} {s : Sums} {row : Row} (h : mkRow N n s = .ok row) : N ≠ 0 := by
  rintro rfl
  rw [mkRow_zero] at h
  cases h

theorem rows_iff {N : ℕ} {random : ℕ → ℕ → ℕ → ℕ → ℚ} (i : ℕ) (ns : List ℕ) (table : List Row) :
    rows f fuel recipe k vr counts values N random i ns = .ok (some table) ↔ ∃ h : table.length = ns.length, ∀ j (hj : j < ns.length),
      ∃ s, iterations f fuel recipe k vr ns[j] counts values (random (i + j)) N 0 ⟨0, 0, 0, 0, 0, 0, 0⟩ = .ok (some s) ∧
        mkRow N ns[j] s = .ok table[j] := by
  induction ns generalizing i table with
  | nil =>
    simp only [rows, Except.ok.injEq, Option.some.injEq]
    constructor
    · rintro rfl; exact ⟨rfl, by simp⟩
    · rintro ⟨h, -⟩; exact (List.length_eq_zero_iff.1 h).symm
  | cons n ns ih =>
    unfold rows
    constructor
    · intro h
      rcases hs : iterations f fuel recipe k vr n counts values (random i) N 0 ⟨0, 0, 0, 0, 0, 0, 0⟩ with e | _ | s
      · simp [hs, bind, Except.bind] at h
      · simp [hs, bind, Except.bind] at h
      rcases hrow : mkRow N n s with e | row
      · simp [hs, hrow, bind, Except.bind] at h
      rcases hrest : rows f fuel recipe k vr counts values N random (i + 1) ns with e | _ | rest
      · simp [hs, hrow, hrest, bind, Except.bind] at h
      · simp [hs, hrow, hrest, bind, Except.bind] at h
      simp only [hs, hrow, hrest, bind, Except.bind, Except.ok.injEq, Option.some.injEq] at h
      subst h
      obtain ⟨hl, hall⟩ := (ih _ _).1 hrest
      refine ⟨by simp [hl], fun j hj => ?_⟩
      cases j with
      | zero => exact ⟨s, hs, hrow⟩
      | succ j =>
        have := hall j (by simpa using hj)
        rw [show i + 1 + j = i + (j + 1) by omega] at this
        simpa using this
    · rintro ⟨hl, hall⟩
      cases table with
      | nil => simp at hl
      | cons row rest =>
        obtain ⟨s, hs, hrow⟩ := hall 0 (by simp)
        simp only [Nat.add_zero, List.getElem_cons_zero] at hs hrow
        have hrest := (ih (i + 1) rest).2 ⟨by simpa using hl, fun j hj => by
          have := hall (j + 1) (by simpa using hj)
          rw [show i + 1 + j = i + (j + 1) by omega]
          simpa using this⟩
        simp only [hs, hrow, hrest, bind, Except.bind]

theorem pyGet_getD {α : Type} {l : List α} {i : ℕ} (d : α) (h : i < l.length) : pyGet l i = .ok (l.getD i d) := by
  simp [pyGet, List.getElem?_eq_getElem h, List.getD_eq_getElem?_getD]

theorem randomCategories_ok {random : ℕ → ℕ → ℚ} (c left : ℕ) (h0 : 2 ≤ vr.length) (h1 : c + left ≤ counts.length)
    (h2 : c + left ≤ values.length) :
    ∃ cats, randomCategories vr n counts values random c left = .ok cats ∧ cats.length = left ∧
      ∀ j (hj : j < cats.length), cats[j] = AgentCategory.uniformlyRandom "agent" (pyInt (n * counts.getD (c + j) 0)).toNat
        ((vr.getD (if c + j = 0 then 0 else 1) 0).1 * values.getD (c + j) 0)
        ((vr.getD (if c + j = 0 then 0 else 1) 0).2 * values.getD (c + j) 0) (random (c + j)) := by
  induction left generalizing c with
  | zero => exact ⟨[], rfl, rfl, by simp⟩
  | succ left ih =>
    obtain ⟨cats, e1, e2, e3⟩ := ih (c + 1) (by omega) (by omega)
    have g1 := pyGet_getD (0 : ℚ) (show c < counts.length by omega)
    have g2 := pyGet_getD (0 : ℚ) (show c < values.length by omega)
    have g3 := pyGet_getD (0 : ℚ × ℚ) (show (if c = 0 then 0 else 1) < vr.length by split <;> omega)
    refine ⟨_, by simp only [randomCategories, g1, g2, g3, e1, bind, Except.bind]; rfl, by simp [e2], ?_⟩
    intro j hj
    cases j with
    | zero => rfl
    | succ j =>
      have := e3 j (by simpa using hj)
      rw [List.getElem_cons_succ, this, show c + 1 + j = c + (j + 1) by omega]

end Auctions.TreeExperiment
