import Verif.Spec.Experiment
import Verif.Proofs.Agents
import Verif.Proofs.TreeShape
import Mathlib.Tactic.Linarith
import Mathlib.Tactic.Positivity
import Mathlib.Tactic.FieldSimp
import Mathlib.Tactic.Push
import Mathlib.Algebra.Order.Floor.Ring

set_option autoImplicit false

/-!
# Lemmas on rounding and on the loops of `experiment.py`
-/

namespace Auctions

open Spec

theorem pyRound_cases (x : ℚ) : (pyRound x = ⌊x⌋ ∧ x - ⌊x⌋ ≤ 1 / 2) ∨ (pyRound x = ⌊x⌋ + 1 ∧ 1 / 2 ≤ x - ⌊x⌋) := by
  unfold pyRound
  split_ifs with h1 h2 h3
  · exact Or.inl ⟨rfl, h1.le⟩
  · exact Or.inr ⟨rfl, h2.le⟩
  · exact Or.inl ⟨rfl, by linarith⟩
  · exact Or.inr ⟨rfl, by linarith⟩

theorem pyRound_near (x : ℚ) : |(pyRound x : ℚ) - x| ≤ 1 / 2 := by
  have h0 := Int.floor_le x
  have h1 := Int.lt_floor_add_one x
  rw [abs_le]
  rcases pyRound_cases x with ⟨h, h2⟩ | ⟨h, h2⟩ <;> rw [h] <;> push_cast <;> constructor <;> linarith

theorem pyRound_int (z : ℤ) : pyRound (z : ℚ) = z := by
  unfold pyRound; simp

theorem pyRound_mono {x y : ℚ} (h : x ≤ y) : pyRound x ≤ pyRound y := by
  have hf := Int.floor_mono h
  rcases eq_or_lt_of_le hf with he | hl
  · unfold pyRound
    rw [← he]
    split_ifs <;> first | omega | (exfalso; linarith)
  · rcases pyRound_cases x with ⟨h1, -⟩ | ⟨h1, -⟩ <;> rcases pyRound_cases y with ⟨h2, -⟩ | ⟨h2, -⟩ <;> omega

theorem pyRound_add_even (x : ℚ) (z : ℤ) (hz : z % 2 = 0) : pyRound (x + z) = pyRound x + z := by
  unfold pyRound
  simp only [Int.floor_add_intCast, Int.cast_add, add_sub_add_right_eq_sub]
  have : (⌊x⌋ + z) % 2 = 0 ↔ ⌊x⌋ % 2 = 0 := by omega
  simp only [this]
  split_ifs <;> omega

theorem pyRound2_mono {x y : ℚ} (h : x ≤ y) : pyRound2 x ≤ pyRound2 y := by
  unfold pyRound2
  have : (pyRound (x * 100) : ℚ) ≤ (pyRound (y * 100) : ℚ) := by
    exact_mod_cast pyRound_mono (by linarith)
  linarith

theorem pyRound2_add_one (x : ℚ) : pyRound2 (x + 1) = pyRound2 x + 1 := by
  unfold pyRound2
  have : (x + 1) * 100 = x * 100 + ((100 : ℤ) : ℚ) := by push_cast; ring
  rw [this, pyRound_add_even _ _ (by norm_num)]
  push_cast
  ring

theorem pyRound2_nat (n : ℕ) : pyRound2 n = n := by
  unfold pyRound2
  have : (n : ℚ) * 100 = ((n * 100 : ℤ) : ℚ) := by push_cast; ring
  rw [this, pyRound_int]
  push_cast
  ring

theorem pyRound2_rounded (x : ℚ) : Rounded x (pyRound2 x) := by
  refine ⟨?_, pyRound (x * 100), by unfold pyRound2; ring⟩
  have h := abs_le.1 (pyRound_near (x * 100))
  unfold pyRound2
  rw [abs_le]
  constructor <;> linarith [h.1, h.2]

namespace Experiment

/-- The sums over the measurements. -/
def Sums.add (s : Sums) (x : Measurement) : Sums :=
  ⟨s.optimalCount + x.optimalDeals, s.auctionCount + x.deals, s.optimalGft + x.optimalGain, s.auctionTotalGft + x.gain,
    s.auctionMarketGft + x.marketGain⟩

theorem addMarket_iff {A : AuctionFunction} {r : List ℕ} {m : Market} {s s' : Sums} :
    addMarket A r m s = .ok (some s') ↔ ∃ x, Measured A r m x ∧ s' = s.add x := by
  unfold addMarket Measured
  constructor
  · intro h
    rcases ho : m.optimalTrade r with e | ⟨opt, rem⟩
    · simp [ho, bind, Except.bind] at h
    rcases ha : A m r with e | _ | t
    · simp [ho, ha, bind, Except.bind] at h
    · simp [ho, ha, bind, Except.bind] at h
    rcases h1 : t.gainFromTrade true with e | a
    · simp [ho, ha, h1, bind, Except.bind] at h
    rcases h2 : t.gainFromTrade false with e | b
    · simp [ho, ha, h1, h2, bind, Except.bind] at h
    simp only [ho, ha, h1, h2, bind, Except.bind, Except.ok.injEq, Option.some.injEq] at h
    exact ⟨⟨opt.numOfDeals, t.numOfDeals, opt.gainFromTrade, a, b⟩,
      ⟨opt, rem, t, rfl, rfl, rfl, rfl, rfl, h1, h2⟩, h.symm⟩
  · rintro ⟨x, ⟨opt, rem, t, ho, ha, e1, e2, e3, h1, h2⟩, rfl⟩
    simp [ho, ha, h1, h2, bind, Except.bind, Sums.add, e1, e2, e3]

/-- The sums of a list of measurements. -/
def Sums.addAll (s : Sums) (xs : List Measurement) : Sums := xs.foldl Sums.add s

theorem addAll_eq (s : Sums) (xs : List Measurement) :
    s.addAll xs = ⟨s.optimalCount + (xs.map (fun x => x.optimalDeals)).sum, s.auctionCount + (xs.map (fun x => x.deals)).sum,
      s.optimalGft + (xs.map (fun x => x.optimalGain)).sum, s.auctionTotalGft + (xs.map (fun x => x.gain)).sum,
      s.auctionMarketGft + (xs.map (fun x => x.marketGain)).sum⟩ := by
  induction xs generalizing s with
  | nil => simp [Sums.addAll]
  | cons x xs ih =>
    have : s.addAll (x :: xs) = (s.add x).addAll xs := rfl
    rw [this, ih]
    simp [Sums.add, add_assoc]

theorem iterations_iff {A : AuctionFunction} {r : List ℕ} {n : ℕ} {vr : List (ℚ × ℚ)} {random : ℕ → ℕ → ℕ → ℚ}
    (N i : ℕ) (s s' : Sums) :
    iterations A r n vr random N i s = .ok (some s') ↔ ∃ xs : List Measurement, xs.length = N ∧
      (∀ j (hj : j < xs.length), ∃ m, randomMarket r n vr (random (i + j)) = .ok m ∧ Measured A r m xs[j]) ∧
      s' = s.addAll xs := by
  induction N generalizing i s with
  | zero =>
    simp only [iterations, Except.ok.injEq, Option.some.injEq]
    constructor
    · rintro rfl; exact ⟨[], rfl, by simp, rfl⟩
    · rintro ⟨xs, hx, -, rfl⟩
      rw [List.length_eq_zero_iff.1 hx]; rfl
  | succ N ih =>
    unfold iterations
    constructor
    · intro h
      rcases hm : randomMarket r n vr (random i) with e | m
      · simp [hm, bind, Except.bind] at h
      rcases ha : addMarket A r m s with e | _ | s1
      · simp [hm, ha, bind, Except.bind] at h
      · simp [hm, ha, bind, Except.bind] at h
      simp only [hm, ha, bind, Except.bind] at h
      obtain ⟨xs, hx, hall, rfl⟩ := (ih _ _).1 h
      obtain ⟨x, hx1, rfl⟩ := addMarket_iff.1 ha
      refine ⟨x :: xs, by simp [hx], ?_, rfl⟩
      intro j hj
      cases j with
      | zero => exact ⟨m, hm, hx1⟩
      | succ j =>
        have := hall j (by simpa using hj)
        rw [show i + 1 + j = i + (j + 1) by omega] at this
        simpa using this
    · rintro ⟨xs, hx, hall, rfl⟩
      cases xs with
      | nil => simp at hx
      | cons x xs =>
        obtain ⟨m, hm, hx1⟩ := hall 0 (by simp)
        have ha := (addMarket_iff (s := s)).2 ⟨x, hx1, rfl⟩
        simp only [Nat.add_zero] at hm
        simp only [hm, ha, bind, Except.bind]
        refine (ih _ _).2 ⟨xs, by simpa using hx, ?_, rfl⟩
        intro j hj
        have := hall (j + 1) (by simpa using hj)
        rw [show i + 1 + j = i + (j + 1) by omega]
        simpa using this

theorem mkRow_ok {N n : ℕ} {s : Sums} {row : Row} (h : mkRow N n s = .ok row) :
    N ≠ 0 ∧ row =
    { iterations := N
      numOfAgents := n
      meanOptimalCount := pyRound2 ((s.optimalCount : ℚ) / N)
      meanAuctionCount := pyRound2 ((s.auctionCount : ℚ) / N)
      countRatio := if s.optimalCount = 0 then 0 else (pyInt ((s.auctionCount : ℚ) / s.optimalCount * 10000) : ℚ) / 100
      meanOptimalGft := pyRound2 (s.optimalGft / N)
      meanAuctionTotalGft := pyRound2 (s.auctionTotalGft / N)
      totalGftRatio := if s.optimalGft = 0 then 0 else pyRound2 (s.auctionTotalGft / s.optimalGft * 100)
      meanAuctionMarketGft := pyRound2 (s.auctionMarketGft / N)
      marketGftRatio := if s.optimalGft = 0 then 0 else pyRound2 (s.auctionMarketGft / s.optimalGft * 100) } := by
  by_cases hN : N = 0
  · simp [mkRow, pyDiv, hN, bind, Except.bind] at h
  · have : (N : ℚ) ≠ 0 := by exact_mod_cast hN
    simp only [mkRow, pyDiv, this, if_false, bind, Except.bind, Except.ok.injEq] at h
    exact ⟨hN, h.symm⟩

theorem mkRow_total {N n : ℕ} (hN : N ≠ 0) (s : Sums) : ∃ row, mkRow N n s = .ok row := by
  have : (N : ℚ) ≠ 0 := by exact_mod_cast hN
  simp only [mkRow, pyDiv, this, if_false, bind, Except.bind]
  exact ⟨_, rfl⟩

theorem rows_iff {A : AuctionFunction} {r : List ℕ} {vr : List (ℚ × ℚ)} {N : ℕ} {random : ℕ → ℕ → ℕ → ℕ → ℚ}
    (i : ℕ) (ns : List ℕ) (table : List Row) :
    rows A r vr N random i ns = .ok (some table) ↔ ∃ h : table.length = ns.length, ∀ j (hj : j < ns.length),
      ∃ s, iterations A r ns[j] vr (random (i + j)) N 0 ⟨0, 0, 0, 0, 0⟩ = .ok (some s) ∧ mkRow N ns[j] s = .ok table[j] := by
  induction ns generalizing i table with
  | nil =>
    simp only [rows, Except.ok.injEq, Option.some.injEq]
    constructor
    · rintro rfl; exact ⟨rfl, by simp⟩
    · rintro ⟨h, -⟩; exact (List.length_eq_zero_iff.1 h).symm
  | cons n ns ih =>
    unfold rows
    constructor
    · intro h
      rcases hs : iterations A r n vr (random i) N 0 ⟨0, 0, 0, 0, 0⟩ with e | _ | s
      · simp [hs, bind, Except.bind] at h
      · simp [hs, bind, Except.bind] at h
      rcases hrow : mkRow N n s with e | row
      · simp [hs, hrow, bind, Except.bind] at h
      rcases hrest : rows A r vr N random (i + 1) ns with e | _ | rest
      · simp [hs, hrow, hrest, bind, Except.bind] at h
      · simp [hs, hrow, hrest, bind, Except.bind] at h
      simp only [hs, hrow, hrest, bind, Except.bind, Except.ok.injEq, Option.some.injEq] at h
      subst h
      obtain ⟨hl, hall⟩ := (ih _ _).1 hrest
      refine ⟨by simp [hl], fun j hj => ?_⟩
      cases j with
      | zero => exact ⟨s, hs, hrow⟩
      | succ j =>
        have := hall j (by simpa using hj)
        rw [show i + 1 + j = i + (j + 1) by omega] at this
        simpa using this
    · rintro ⟨hl, hall⟩
      cases table with
      | nil => simp at hl
      | cons row rest =>
        obtain ⟨s, hs, hrow⟩ := hall 0 (by simp)
        simp only [Nat.add_zero, List.getElem_cons_zero] at hs hrow
        have hrest := (ih (i + 1) rest).2 ⟨by simpa using hl, fun j hj => by
          have := hall (j + 1) (by simpa using hj)
          rw [show i + 1 + j = i + (j + 1) by omega]
          simpa using this⟩
        simp [hs, hrow, hrest, bind, Except.bind]

theorem randomCategories_ok {n : ℕ} {vr : List (ℚ × ℚ)} {random : ℕ → ℕ → ℚ} (c : ℕ) (r : List ℕ) (h : c + r.length ≤ vr.length) :
    ∃ cats, randomCategories n vr random c r = .ok cats ∧ cats.length = r.length ∧
      ∀ j (hj : j < cats.length), cats[j] = AgentCategory.uniformlyRandom "agent" (n * r.getD j 0)
        (vr.getD (c + j) 0).1 (vr.getD (c + j) 0).2 (random (c + j)) := by
  induction r generalizing c with
  | nil => exact ⟨[], rfl, rfl, by simp⟩
  | cons x r ih =>
    simp only [List.length_cons] at h
    obtain ⟨cats, h1, h2, h3⟩ := ih (c + 1) (by omega)
    have hg : pyGet vr c = .ok (vr.getD c 0) := by
      simp [pyGet, List.getElem?_eq_getElem (show c < vr.length by omega), List.getD_eq_getElem?_getD]
    refine ⟨_, by simp only [randomCategories, hg, h1, bind, Except.bind]; rfl, by simp [h2], ?_⟩
    intro j hj
    cases j with
    | zero => simp
    | succ j =>
      have := h3 j (by simpa using hj)
      rw [show c + 1 + j = c + (j + 1) by omega] at this
      simpa using this

theorem uniformlyRandom_size (name : String) (n : ℕ) (lo hi : ℚ) (random : ℕ → ℚ) :
    (AgentCategory.uniformlyRandom name n lo hi random).size = n := by
  simp [AgentCategory.uniformlyRandom, AgentCategory.size, AgentCategory.init, sortDesc]

theorem uniformlyRandom_mem {name : String} {n : ℕ} {lo hi : ℚ} {random : ℕ → ℚ} (hr : ∀ j, 0 ≤ random j ∧ random j ≤ 1)
    (hle : lo ≤ hi) {v : ℚ} (hv : v ∈ (AgentCategory.uniformlyRandom name n lo hi random).values) :
    (∃ z : ℤ, v = z) ∧ (pyRound lo : ℚ) ≤ v ∧ v ≤ (pyRound hi : ℚ) ∧ lo - 1 / 2 ≤ v ∧ v ≤ hi + 1 / 2 := by
  have hv' : v ∈ (List.range n).map fun j => (pyRound (lo + (hi - lo) * random j) : ℚ) :=
    (List.perm_insertionSort _ _).mem_iff.1 hv
  obtain ⟨j, -, rfl⟩ := List.mem_map.1 hv'
  have h1 : lo ≤ lo + (hi - lo) * random j := by
    have := mul_nonneg (sub_nonneg.2 hle) (hr j).1; linarith
  have h2 : lo + (hi - lo) * random j ≤ hi := by
    have := mul_le_mul_of_nonneg_left (hr j).2 (sub_nonneg.2 hle); linarith
  have h3 := abs_le.1 (pyRound_near (lo + (hi - lo) * random j))
  refine ⟨⟨_, rfl⟩, by exact_mod_cast pyRound_mono h1, by exact_mod_cast pyRound_mono h2, ?_, ?_⟩
  · linarith [h3.1]
  · linarith [h3.2]

end Experiment

end Auctions
