import Verif.Spec.ShuffledStock
import Verif.Props.StockSizes

set_option autoImplicit false

/-!
# Lemmas on the comparison on shuffled prices
-/

namespace Auctions.ShuffledStock

open Auctions Spec Props
open Auctions.Experiment (AuctionFunction)
open Auctions.StockSizes (Measures)

/-- All entries multiplied with `k`. -/
def Results.scale (s : Results) (k : ℚ) : Results :=
  { s with
    optimalCount := s.optimalCount * k
    optimalCountWithZero := s.optimalCountWithZero * k
    optimalGft := s.optimalGft * k
    auctions := s.auctions.map fun c => ⟨c.count * k, c.countRatio * k, c.gft * k, c.gftRatio * k⟩ }

theorem scale_add (s : Results) (k : ℚ) : (s.scale k).add s = s.scale (k + 1) := by
  unfold Results.scale Results.add
  have : List.zipWith Columns.add (s.auctions.map fun c => (⟨c.count * k, c.countRatio * k, c.gft * k, c.gftRatio * k⟩ : Columns)) s.auctions =
      s.auctions.map fun c => ⟨c.count * (k + 1), c.countRatio * (k + 1), c.gft * (k + 1), c.gftRatio * (k + 1)⟩ := by
    induction s.auctions with
    | nil => rfl
    | cons a l ih =>
      simp only [List.map_cons, List.zipWith_cons_cons, ih, Columns.add]
      congr 2 <;> ring
  simp only [this]
  congr 1 <;> ring

theorem scale_one (s : Results) : s.scale 1 = s := by
  unfold Results.scale
  simp

theorem scale_divide (s : Results) (k d : ℚ) : (s.scale k).divide d = s.divide (d / k) := by
  unfold Results.scale Results.divide
  simp only [List.map_map, div_div_eq_mul_div]
  congr 1

/-- What is summed up in `k` iterations. -/
def sumOf (R : Results) (k : ℕ) : Option Results := if k = 0 then none else some (R.scale k)

theorem sumUp_sumOf (R : Results) (k : ℕ) : some (sumUp (sumOf R k) R) = sumOf R (k + 1) := by
  unfold sumOf
  by_cases h : k = 0
  · subst h
    simp [sumUp, scale_one]
  · simp only [h, if_false, sumUp, Nat.add_eq_zero_iff, and_false, Option.some.injEq, scale_add]
    push_cast
    rfl

/-- One measurement of size `n`. -/
structure Raw (auctions : List AuctionFunction) (r : List ℕ) (names : List String) (i : ℕ) (prices : List ℚ) (L n : ℕ) (buyer : ℕ) (m : Market) (name : String)
    (x : Measures) : Prop where
  most : possible prices r = .ok L
  first : pyGet r 0 = .ok buyer
  market : Market.init (categories r.sum buyer (min n L) prices 0 r) = .ok m
  measured : StockSizes.measure auctions r names i m = .ok (some (name, x))

/-- The entries of one measurement of size `n`. -/
def RawFor (auctions : List AuctionFunction) (r : List ℕ) (names : List String) (i : ℕ) (prices : List ℚ) (L n : ℕ) (R : Results) : Prop :=
  ∃ buyer m name x, Raw auctions r names i prices L n buyer m name x ∧ R = ofMeasures name (min n L) x

variable {auctions : List AuctionFunction} {r : List ℕ} {names : List String} {i : ℕ} {prices : List ℚ} {L n : ℕ}

theorem rawFor_unique {R R' : Results} (h : RawFor auctions r names i prices L n R) (h' : RawFor auctions r names i prices L n R') : R = R' := by
  obtain ⟨b, m, name, x, ⟨a1, a2, a3, a4⟩, rfl⟩ := h
  obtain ⟨b', m', name', x', ⟨c1, c2, c3, c4⟩, rfl⟩ := h'
  rw [a2] at c2
  obtain rfl := Except.ok.inj c2
  rw [a3] at c3
  obtain rfl := Except.ok.inj c3
  rw [a4] at c4
  obtain ⟨rfl, rfl⟩ := Prod.mk.inj (Option.some.inj (Except.ok.inj c4))
  rfl

theorem iterate_fits {buyer : ℕ} {m : Market} {name : String} {x : Measures} (h : Raw auctions r names i prices L n buyer m name x) (hn : n ≤ L)
    (left k : ℕ) (last : Bool) :
    iterate auctions r names i prices n left last (sumOf (ofMeasures name (min n L) x) k) =
      .ok (some (if left = 0 then last else true, sumOf (ofMeasures name (min n L) x) (k + left), left * StockSizes.warnings x)) := by
  induction left generalizing k last with
  | zero => simp [iterate]
  | succ left ih =>
    rw [iterate]
    have hc : ¬ (last = true ∧ min n L < n) := by rintro ⟨-, h⟩; omega
    have h3 := ih (k + 1) true
    rw [← sumUp_sumOf] at h3
    simp only [h.most, h.first, h.market, h.measured, hc, bind, Except.bind, if_false, h3]
    congr 3
    · simp
    · congr 1
      · congr 1; ring
      · ring

theorem iterate_large {buyer : ℕ} {m : Market} {name : String} {x : Measures} (h : Raw auctions r names i prices L n buyer m name x) (hn : L < n) (left : ℕ) :
    iterate auctions r names i prices n (left + 1) false none =
      .ok (some (true, sumOf (ofMeasures name (min n L) x) 1, StockSizes.warnings x)) := by
  rw [iterate]
  have hlt : min n L < n := by omega
  have h3 : iterate auctions r names i prices n left true (some (sumUp none (ofMeasures name (min n L) x))) =
      .ok (some (true, some (sumUp none (ofMeasures name (min n L) x)), 0)) := by
    cases left with
    | zero => rfl
    | succ left =>
      rw [iterate]
      simp only [h.most, bind, Except.bind, hlt, and_self, if_true]
  simp only [h.most, h.first, h.market, h.measured, bind, Except.bind, Bool.false_eq_true, false_and, if_false, h3]
  simp [sumOf, sumUp, scale_one]

theorem iterate_stop (hm : possible prices r = .ok L) (hn : L < n) (left : ℕ) (tot : Option Results) :
    iterate auctions r names i prices n left true tot = .ok (some (true, tot, 0)) := by
  cases left with
  | zero => rfl
  | succ left =>
    rw [iterate]
    have hlt : min n L < n := by omega
    simp only [hm, bind, Except.bind, hlt, and_self, if_true]

theorem iterate_raw {left : ℕ} {last : Bool} {tot : Option Results} {q : Bool × Option Results × ℕ}
    (h : iterate auctions r names i prices n (left + 1) last tot = .ok (some q)) :
    ∃ L, possible prices r = .ok L ∧ (¬ (last = true ∧ L < n) → ∃ buyer m name x, Raw auctions r names i prices L n buyer m name x) := by
  rw [iterate] at h
  obtain ⟨L, hL, h⟩ := bind_ok_iff.1 h
  refine ⟨L, hL, fun hc => ?_⟩
  dsimp only at h
  have hc' : ¬ (last = true ∧ min n L < n) := by rintro ⟨h1, h2⟩; exact hc ⟨h1, by omega⟩
  rw [if_neg hc'] at h
  obtain ⟨b, hb, h⟩ := bind_ok_iff.1 h
  obtain ⟨m, hm, h⟩ := bind_ok_iff.1 h
  obtain ⟨o, ho, h⟩ := bind_ok_iff.1 h
  cases o with
  | none => simp at h
  | some p => exact ⟨b, m, p.1, p.2, hL, hb, hm, ho⟩

/-! ## The sizes -/

/-- The entries of `total_results` after all sizes. -/
def Summed (auctions : List AuctionFunction) (r : List ℕ) (names : List String) (i : ℕ) (prices : List ℚ) (L N : ℕ) (total : ℕ → Option Results) (ns : List ℕ) : Prop :=
  ∀ n ∈ ns, if n ≤ L then ∃ R, RawFor auctions r names i prices L n R ∧ total n = some (R.scale N) else total n = none

theorem sizes_last {N : ℕ} (hN : 0 < N) (ns : List ℕ) (hnd : ns.Nodup) {total total' : ℕ → Option Results} (h0 : ∀ n ∈ ns, total n = none) {w : ℕ}
    (hL : possible prices r = .ok L)
    (h : sizes auctions r names N i prices true total ns = .ok (some (total', w))) :
    Summed auctions r names i prices L N total' ns ∧ ∀ k, k ∉ ns → total' k = total k := by
  induction ns generalizing total w with
  | nil =>
    simp only [sizes, Except.ok.injEq, Option.some.injEq, Prod.mk.injEq] at h
    obtain ⟨rfl, -⟩ := h
    exact ⟨by simp [Summed], fun _ _ => rfl⟩
  | cons n ns ih =>
    obtain ⟨hn1, hn2⟩ := List.nodup_cons.1 hnd
    rw [sizes] at h
    obtain ⟨o, ho, h⟩ := bind_ok_iff.1 h
    cases o with
    | none => simp at h
    | some q =>
      obtain ⟨last', x, w1⟩ := q
      obtain ⟨o2, ho2, h⟩ := bind_ok_iff.1 h
      cases o2 with
      | none => simp at h
      | some q2 =>
        obtain ⟨t2, w2⟩ := q2
        simp only [Except.ok.injEq, Option.some.injEq, Prod.mk.injEq] at h
        obtain ⟨rfl, -⟩ := h
        rw [h0 n (by simp)] at ho
        obtain ⟨N', rfl⟩ : ∃ N', N = N' + 1 := ⟨N - 1, by omega⟩
        obtain ⟨L', hL', hraw⟩ := iterate_raw ho
        rw [hL] at hL'
        obtain rfl := Except.ok.inj hL'
        have key : last' = true ∧ (if n ≤ L then ∃ R, RawFor auctions r names i prices L n R ∧ x = some (R.scale (N' + 1 : ℕ)) else x = none) := by
          by_cases hn : n ≤ L
          · obtain ⟨b, m, name, y, hy⟩ := hraw (by rintro ⟨-, h⟩; omega)
            have h3 := iterate_fits hy hn (N' + 1) 0 true
            rw [show sumOf (ofMeasures name (min n L) y) 0 = none from rfl, ho] at h3
            simp only [Except.ok.injEq, Option.some.injEq, Prod.mk.injEq, Nat.add_eq_zero_iff, one_ne_zero, and_false, if_false] at h3
            obtain ⟨rfl, rfl, -⟩ := h3
            refine ⟨rfl, ?_⟩
            rw [if_pos hn]
            exact ⟨_, ⟨b, m, name, y, hy, rfl⟩, by simp [sumOf]⟩
          · rw [iterate_stop hL (by omega)] at ho
            simp only [Except.ok.injEq, Option.some.injEq, Prod.mk.injEq] at ho
            obtain ⟨rfl, rfl, -⟩ := ho
            rw [if_neg hn]
            exact ⟨rfl, rfl⟩
        obtain ⟨rfl, hx⟩ := key
        obtain ⟨g1, g2⟩ := ih hn2 (total := update total n x) (by
          intro k hk
          have : k ≠ n := by rintro rfl; exact hn1 hk
          simp only [update, this, if_false]
          exact h0 k (by simp [hk])) ho2
        refine ⟨?_, ?_⟩
        · intro k hk
          rcases List.mem_cons.1 hk with rfl | hk
          · rw [g2 k hn1]
            simp only [update, if_true]
            exact hx
          · exact g1 k hk
        · intro k hk
          rw [g2 k (by simp only [List.mem_cons, not_or] at hk; exact hk.2)]
          have : k ≠ n := by rintro rfl; simp at hk
          simp only [update, this, if_false]

theorem sizes_first {N : ℕ} (hN : 0 < N) {n0 : ℕ} {ns : List ℕ} (hnd : (n0 :: ns).Nodup) {total' : ℕ → Option Results} {w : ℕ}
    (h : sizes auctions r names N i prices false (fun _ => none) (n0 :: ns) = .ok (some (total', w))) :
    ∃ L, possible prices r = .ok L ∧ (∃ R, RawFor auctions r names i prices L n0 R ∧ total' n0 = some (R.scale (if n0 ≤ L then N else 1 : ℕ))) ∧
      Summed auctions r names i prices L N total' ns := by
  obtain ⟨hn1, hn2⟩ := List.nodup_cons.1 hnd
  rw [sizes] at h
  obtain ⟨o, ho, h⟩ := bind_ok_iff.1 h
  cases o with
  | none => simp at h
  | some q =>
    obtain ⟨last', x, w1⟩ := q
    obtain ⟨o2, ho2, h⟩ := bind_ok_iff.1 h
    cases o2 with
    | none => simp at h
    | some q2 =>
      obtain ⟨t2, w2⟩ := q2
      simp only [Except.ok.injEq, Option.some.injEq, Prod.mk.injEq] at h
      obtain ⟨rfl, -⟩ := h
      obtain ⟨N', rfl⟩ : ∃ N', N = N' + 1 := ⟨N - 1, by omega⟩
      obtain ⟨L, hL, hraw⟩ := iterate_raw ho
      obtain ⟨b, m, name, y, hy⟩ := hraw (by simp)
      refine ⟨L, hL, ?_⟩
      have key : last' = true ∧ x = some ((ofMeasures name (min n0 L) y).scale (if n0 ≤ L then N' + 1 else 1 : ℕ)) := by
        by_cases hn : n0 ≤ L
        · have h3 := iterate_fits hy hn (N' + 1) 0 false
          rw [show sumOf (ofMeasures name (min n0 L) y) 0 = none from rfl, ho] at h3
          simp only [Except.ok.injEq, Option.some.injEq, Prod.mk.injEq, Nat.add_eq_zero_iff, one_ne_zero, and_false, if_false] at h3
          obtain ⟨rfl, rfl, -⟩ := h3
          exact ⟨rfl, by simp [sumOf, hn]⟩
        · have h3 := iterate_large hy (by omega) N'
          rw [ho] at h3
          simp only [Except.ok.injEq, Option.some.injEq, Prod.mk.injEq] at h3
          obtain ⟨rfl, rfl, -⟩ := h3
          exact ⟨rfl, by simp [sumOf, hn]⟩
      obtain ⟨rfl, rfl⟩ := key
      obtain ⟨g1, g2⟩ := sizes_last hN ns hn2 (by
        intro k hk
        have : k ≠ n0 := by rintro rfl; exact hn1 hk
        simp only [update, this, if_false]) hL ho2
      refine ⟨⟨_, ⟨b, m, name, y, hy, rfl⟩, ?_⟩, g1⟩
      rw [g2 n0 hn1]
      simp only [update, if_true]

/-- When everything that is needed can be measured without a warning, the sizes are measured. -/
theorem sizes_last_defined {N : ℕ} (ns : List ℕ) (hnd : ns.Nodup) {total : ℕ → Option Results} (h0 : ∀ n ∈ ns, total n = none) (hL : possible prices r = .ok L)
    (hraw : ∀ n ∈ ns, n ≤ L → ∃ buyer m name x, Raw auctions r names i prices L n buyer m name x) :
    ∃ total' w, sizes auctions r names N i prices true total ns = .ok (some (total', w)) ∧
      ((∀ n ∈ ns, n ≤ L → ∀ buyer m name x, Raw auctions r names i prices L n buyer m name x → StockSizes.warnings x = 0) → w = 0) := by
  induction ns generalizing total with
  | nil => exact ⟨total, 0, rfl, fun _ => rfl⟩
  | cons n ns ih =>
    obtain ⟨hn1, hn2⟩ := List.nodup_cons.1 hnd
    rw [sizes, h0 n (by simp)]
    have hup : ∀ x, ∀ k ∈ ns, update total n x k = none := by
      intro x k hk
      have : k ≠ n := by rintro rfl; exact hn1 hk
      simp only [update, this, if_false]
      exact h0 k (by simp [hk])
    by_cases hn : n ≤ L
    · obtain ⟨b, m, name, y, hy⟩ := hraw n (by simp) hn
      have h3 := iterate_fits hy hn N 0 true
      rw [show sumOf (ofMeasures name (min n L) y) 0 = none from rfl] at h3
      have e : (if N = 0 then true else true) = true := by split_ifs <;> rfl
      rw [e] at h3
      obtain ⟨t2, w2, h4, h5⟩ := ih hn2 (hup (sumOf (ofMeasures name (min n L) y) (0 + N))) (fun k hk => hraw k (by simp [hk]))
      simp only [h3, bind, Except.bind, h4]
      refine ⟨_, _, rfl, fun hw => ?_⟩
      rw [h5 fun k hk => hw k (by simp [hk]), hw n (by simp) hn _ _ _ _ hy]
      simp
    · rw [iterate_stop hL (by omega)]
      obtain ⟨t2, w2, h4, h5⟩ := ih hn2 (hup none) (fun k hk => hraw k (by simp [hk]))
      simp only [bind, Except.bind, h4]
      refine ⟨_, _, rfl, fun hw => ?_⟩
      rw [h5 fun k hk => hw k (by simp [hk])]

theorem sizes_defined {N : ℕ} (hN : 0 < N) (ns : List ℕ) (hnd : ns.Nodup) (hL : possible prices r = .ok L)
    (hraw : ∀ nd ∈ rowsFor N L ns, ∃ buyer m name x, Raw auctions r names i prices L nd.1 buyer m name x) :
    ∃ total' w, sizes auctions r names N i prices false (fun _ => none) ns = .ok (some (total', w)) ∧
      ((∀ nd ∈ rowsFor N L ns, ∀ buyer m name x, Raw auctions r names i prices L nd.1 buyer m name x → StockSizes.warnings x = 0) → w = 0) := by
  cases ns with
  | nil => exact ⟨_, 0, rfl, fun _ => rfl⟩
  | cons n ns =>
    obtain ⟨hn1, hn2⟩ := List.nodup_cons.1 hnd
    have hin : ∀ k ∈ ns, k ≤ L → (k, 1) ∈ rowsFor N L (n :: ns) := by
      intro k hk hkL
      simp only [rowsFor, List.mem_cons, List.mem_map, List.mem_filter, decide_eq_true_eq]
      exact Or.inr ⟨k, ⟨hk, hkL⟩, rfl⟩
    obtain ⟨b, m, name, y, hy⟩ := hraw (n, if n ≤ L then 1 else N) (by simp [rowsFor])
    obtain ⟨N', rfl⟩ : ∃ N', N = N' + 1 := ⟨N - 1, by omega⟩
    have key : ∃ k, iterate auctions r names i prices n (N' + 1) false none = .ok (some (true, sumOf (ofMeasures name (min n L) y) k, k * StockSizes.warnings y)) := by
      by_cases hn : n ≤ L
      · have h3 := iterate_fits hy hn (N' + 1) 0 false
        rw [show sumOf (ofMeasures name (min n L) y) 0 = none from rfl] at h3
        simp only [Nat.add_eq_zero_iff, one_ne_zero, and_false, if_false, Nat.zero_add] at h3
        exact ⟨_, h3⟩
      · have h3 := iterate_large hy (by omega) N'
        exact ⟨1, by rw [h3, Nat.one_mul]⟩
    obtain ⟨k, h3⟩ := key
    rw [sizes]
    obtain ⟨t2, w2, h4, h5⟩ := sizes_last_defined (N := N' + 1) ns hn2 (total := update (fun _ => none) n (sumOf (ofMeasures name (min n L) y) k)) (by
      intro k hk
      have : k ≠ n := by rintro rfl; exact hn1 hk
      simp only [update, this, if_false]) hL (fun k hk hkL => hraw (k, 1) (hin k hk hkL))
    simp only [h3, bind, Except.bind, h4]
    refine ⟨_, _, rfl, fun hw => ?_⟩
    rw [h5 fun k hk hkL => hw (k, 1) (hin k hk hkL), hw (n, if n ≤ L then 1 else N' + 1) (by simp [rowsFor]) _ _ _ _ hy]
    simp

/-! ## The rows -/

/-- The sizes with their rows. -/
def pairsOf (N : ℕ) (total : ℕ → Option Results) (ns : List ℕ) : List (ℕ × Results) :=
  ns.filterMap fun n => (total n).map fun x => (n, x.divide N)

/-- Adding a row to the averages. -/
def addRow (average : ℕ → Option Results) (p : ℕ × Results) : ℕ → Option Results := update average p.1 (some (sumUp (average p.1) p.2))

theorem pairsOf_congr {N : ℕ} {total total' : ℕ → Option Results} {ns : List ℕ} (h : ∀ n ∈ ns, total n = total' n) : pairsOf N total ns = pairsOf N total' ns := by
  unfold pairsOf
  apply List.filterMap_congr
  intro n hn
  rw [h n hn]

theorem stockRows_eq {N : ℕ} (ns : List ℕ) (hnd : ns.Nodup) (total average : ℕ → Option Results) :
    stockRows N total average ns = ((pairsOf N total ns).map Prod.snd, (pairsOf N total ns).foldl addRow average) := by
  induction ns generalizing total average with
  | nil => rfl
  | cons n ns ih =>
    obtain ⟨hn1, hn2⟩ := List.nodup_cons.1 hnd
    rw [stockRows]
    cases ht : total n with
    | none =>
      rw [show pairsOf N total (n :: ns) = pairsOf N total ns by simp [pairsOf, ht]]
      exact ih hn2 total average
    | some x =>
      rw [show pairsOf N total (n :: ns) = (n, x.divide N) :: pairsOf N total ns by simp [pairsOf, ht]]
      have e : pairsOf N (update total n (some (x.divide N))) ns = pairsOf N total ns := by
        apply pairsOf_congr
        intro k hk
        have : k ≠ n := by rintro rfl; exact hn1 hk
        simp only [update, this, if_false]
      dsimp only
      rw [ih hn2, e]
      rfl

theorem averageRows_eq {S : ℕ} (ns : List ℕ) (hnd : ns.Nodup) (average : ℕ → Option Results) :
    averageRows S average ns = ns.filterMap fun n => (average n).map (·.average S) := by
  induction ns generalizing average with
  | nil => rfl
  | cons n ns ih =>
    obtain ⟨hn1, hn2⟩ := List.nodup_cons.1 hnd
    rw [averageRows]
    cases ht : average n with
    | none => simp only [List.filterMap_cons, ht, Option.map_none]; exact ih hn2 average
    | some x =>
      simp only [List.filterMap_cons, ht, Option.map_some]
      congr 1
      rw [ih hn2]
      apply List.filterMap_congr
      intro k hk
      have : k ≠ n := by rintro rfl; exact hn1 hk
      simp only [update, this, if_false]

theorem divide_scale_self (R : Results) {N : ℕ} (hN : 0 < N) : (R.scale N).divide N = R.divide (1 : ℕ) := by
  have : (N : ℚ) ≠ 0 := by exact_mod_cast hN.ne'
  rw [scale_divide, div_self this, Nat.cast_one]

/-- The rows of a stock. -/
theorem pairs_of_sizes {N : ℕ} (hN : 0 < N) {ns : List ℕ} (hnd : ns.Nodup) {total : ℕ → Option Results} {w : ℕ}
    (h : sizes auctions r names N i prices false (fun _ => none) ns = .ok (some (total, w))) (L : ℕ) (hL : possible prices r = .ok L ∨ ns = []) :
    List.Forall₂ (fun nd p => p.1 = nd.1 ∧ ∃ R, RawFor auctions r names i prices L nd.1 R ∧ p.2 = R.divide (nd.2 : ℕ)) (rowsFor N L ns) (pairsOf N total ns) := by
  cases ns with
  | nil => exact .nil
  | cons n0 ns =>
    obtain ⟨L', hL', ⟨R, hR, ht⟩, hsum⟩ := sizes_first hN hnd h
    have hLL : L' = L := by
      rcases hL with hL | hL
      · rw [hL] at hL'; exact (Except.ok.inj hL').symm
      · simp at hL
    subst hLL
    have e : pairsOf N total (n0 :: ns) = (n0, (R.scale (if n0 ≤ L' then N else 1 : ℕ)).divide N) :: pairsOf N total ns := by simp [pairsOf, ht]
    rw [e, rowsFor]
    refine .cons ⟨rfl, R, hR, ?_⟩ ?_
    · by_cases hn : n0 ≤ L'
      · simp only [hn, if_true]
        exact divide_scale_self R hN
      · simp only [hn, if_false, Nat.cast_one, scale_one]
    · clear e hnd h ht hR hL
      induction ns with
      | nil => exact .nil
      | cons n ns ih =>
        have h1 := hsum n (by simp)
        have h2 := ih (fun k hk => hsum k (by simp [hk]))
        by_cases hn : n ≤ L'
        · rw [if_pos hn] at h1
          obtain ⟨R', hR', ht'⟩ := h1
          rw [show pairsOf N total (n :: ns) = (n, (R'.scale N).divide N) :: pairsOf N total ns by simp [pairsOf, ht']]
          simp only [List.filter_cons, hn, decide_true, if_true, List.map_cons]
          exact .cons ⟨rfl, R', hR', divide_scale_self R' hN⟩ h2
        · rw [if_neg hn] at h1
          rw [show pairsOf N total (n :: ns) = pairsOf N total ns by simp [pairsOf, h1]]
          simp only [List.filter_cons, hn, decide_false, Bool.false_eq_true, if_false]
          exact h2

/-- The parts of the table, with the sizes. -/
def Parts (auctions : List AuctionFunction) (r : List ℕ) (names : List String) (N : ℕ) (ns : List ℕ) : ℕ → List (List ℚ) → List (List (ℕ × Results)) → Prop
  | _, [], parts => parts = []
  | i, prices :: rest, parts => ∃ part parts', parts = part :: parts' ∧ (ns ≠ [] → r.sum ≠ 0) ∧
    List.Forall₂ (fun nd p => p.1 = nd.1 ∧ ∃ R, RawFor auctions r names i prices (prices.length / r.sum) nd.1 R ∧ p.2 = R.divide (nd.2 : ℕ))
      (rowsFor N (prices.length / r.sum) ns) part ∧ Parts auctions r names N ns (i + 1) rest parts'

theorem possible_eq (h : r.sum ≠ 0) : possible prices r = .ok (prices.length / r.sum) := by
  unfold possible
  rw [if_neg h]

theorem sizes_sum {N : ℕ} (hN : 0 < N) {n0 : ℕ} {ns : List ℕ} {tot : ℕ → Option Results} {q : (ℕ → Option Results) × ℕ} {last : Bool}
    (h : sizes auctions r names N i prices last tot (n0 :: ns) = .ok (some q)) : r.sum ≠ 0 := by
  intro hz
  obtain ⟨N', rfl⟩ : ∃ N', N = N' + 1 := ⟨N - 1, by omega⟩
  rw [sizes, iterate] at h
  simp [possible, hz, bind, Except.bind] at h

theorem stocks_parts {N : ℕ} (hN : 0 < N) {ns : List ℕ} (hnd : ns.Nodup) (stk : List (List ℚ)) {i : ℕ} {average average' : ℕ → Option Results} {rows : List Results} {w : ℕ}
    (h : stocks auctions r names N ns i average stk = .ok (some (rows, average', w))) :
    ∃ parts, Parts auctions r names N ns i stk parts ∧ rows = parts.flatten.map Prod.snd ∧ average' = parts.flatten.foldl addRow average := by
  induction stk generalizing i average rows w with
  | nil =>
    simp only [stocks, Except.ok.injEq, Option.some.injEq, Prod.mk.injEq] at h
    obtain ⟨rfl, rfl, -⟩ := h
    exact ⟨[], rfl, rfl, rfl⟩
  | cons prices rest ih =>
    rw [stocks] at h
    obtain ⟨o, ho, h⟩ := bind_ok_iff.1 h
    cases o with
    | none => simp at h
    | some q =>
      obtain ⟨total, w1⟩ := q
      dsimp only at h
      rw [stockRows_eq ns hnd] at h
      dsimp only at h
      obtain ⟨o2, ho2, h⟩ := bind_ok_iff.1 h
      cases o2 with
      | none => simp at h
      | some q2 =>
        obtain ⟨rows', av, w2⟩ := q2
        simp only [Except.ok.injEq, Option.some.injEq, Prod.mk.injEq] at h
        obtain ⟨rfl, rfl, -⟩ := h
        obtain ⟨parts, h1, h2, h3⟩ := ih ho2
        have hs : ns ≠ [] → r.sum ≠ 0 := by
          intro hne
          cases ns with
          | nil => exact absurd rfl hne
          | cons a l => exact sizes_sum hN ho
        refine ⟨pairsOf N total ns :: parts, ⟨_, _, rfl, hs, pairs_of_sizes hN hnd ho _ ?_, h1⟩, ?_, ?_⟩
        · by_cases hne : ns = []
          · exact Or.inr hne
          · exact Or.inl (possible_eq (hs hne))
        · rw [h2]; simp
        · rw [h3]; simp

theorem stocks_defined {N : ℕ} (hN : 0 < N) {ns : List ℕ} (hnd : ns.Nodup) (hsum : r.sum ≠ 0) (stk : List (List ℚ)) {i : ℕ} {average : ℕ → Option Results}
    (hraw : ∀ j (hj : j < stk.length), ∀ nd ∈ rowsFor N (stk[j].length / r.sum) ns, ∃ buyer m name x,
      Raw auctions r names (i + j) stk[j] (stk[j].length / r.sum) nd.1 buyer m name x) :
    ∃ rows average' w, stocks auctions r names N ns i average stk = .ok (some (rows, average', w)) ∧
      ((∀ j (hj : j < stk.length), ∀ nd ∈ rowsFor N (stk[j].length / r.sum) ns, ∀ buyer m name x,
        Raw auctions r names (i + j) stk[j] (stk[j].length / r.sum) nd.1 buyer m name x → StockSizes.warnings x = 0) → w = 0) := by
  induction stk generalizing i average with
  | nil => exact ⟨_, _, _, rfl, fun _ => rfl⟩
  | cons prices rest ih =>
    have hr0 := hraw 0 (by simp)
    simp only [List.getElem_cons_zero, Nat.add_zero] at hr0
    obtain ⟨total, w1, h1, h2⟩ := sizes_defined hN ns hnd (possible_eq hsum) hr0
    rw [stocks]
    have hrest : ∀ j (hj : j < rest.length), ∀ nd ∈ rowsFor N (rest[j].length / r.sum) ns, ∃ buyer m name x,
        Raw auctions r names (i + 1 + j) rest[j] (rest[j].length / r.sum) nd.1 buyer m name x := by
      intro j hj
      have := hraw (j + 1) (by simpa using hj)
      simp only [List.getElem_cons_succ] at this
      rwa [show i + (j + 1) = i + 1 + j by ring] at this
    obtain ⟨rows, av, w2, h3, h4⟩ := ih (i := i + 1) (average := (pairsOf N total ns).foldl addRow average) hrest
    simp only [h1, bind, Except.bind, stockRows_eq ns hnd, h3]
    refine ⟨_, _, _, rfl, fun hw => ?_⟩
    have e1 := h2 (by
      have := hw 0 (by simp)
      simpa only [List.getElem_cons_zero, Nat.add_zero] using this)
    have e2 := h4 (by
      intro j hj
      have := hw (j + 1) (by simpa using hj)
      simp only [List.getElem_cons_succ] at this
      rwa [show i + (j + 1) = i + 1 + j by ring] at this)
    omega

end Auctions.ShuffledStock
