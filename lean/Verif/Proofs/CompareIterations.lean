import Verif.Spec.CompareIterations
import Verif.Proofs.Experiment
import Verif.Proofs.TreeExperiment
import Verif.Proofs.TreeShape
import Verif.Proofs.Agents
import Mathlib.Data.List.Flatten

set_option autoImplicit false

/-!
# Lemmas on the loops of `stock/experiment_compare_iterations_autions.py`
-/

namespace Auctions.CompareIterations

open Auctions Spec Experiment

/-! ### One market -/

/-- The entries for an auction. -/
def toColumns (x : Contest) (y : Achieved) : AuctionColumns :=
  { count := y.deals
    countRatio := percentage x.optimalDeals y.deals x.optimalDealsWithZero
    totalGft := y.gain
    totalGftRatio := percentage x.optimalGain y.gain x.optimalGainWithZero
    marketGft := y.marketGain
    marketGftRatio := percentage x.optimalGain y.marketGain x.optimalGainWithZero
    withoutZeroCountRatio := percentage x.optimalDeals y.deals x.optimalDeals
    withoutZeroTotalGft := y.gain
    withoutZeroTotalGftRatio := percentage x.optimalGain y.gain x.optimalGain }

/-- The list `results` for a contest. -/
def toResults (name : String) (r : List ℕ) (n : ℕ) (x : Contest) : Results :=
  { stockName := name
    numPossibleTrades := n
    optimalCount := x.optimalDeals
    gftRatioFormula := promised r x.optimalDeals
    optimalCountWithZero := x.optimalDealsWithZero
    optimalGft := x.optimalGain
    optimalGftWithZero := x.optimalGainWithZero
    auctions := x.achieved.map (toColumns x) }

theorem formula_eq (r : List ℕ) (k : ℕ) : formula r k = promised r k := by
  unfold formula promised
  have e : (∀ x ∈ r, x = 1) ↔ r = List.replicate r.length 1 := List.eq_replicate_length.symm
  by_cases h : 1 < k
  · have h' : ¬ k ≤ 1 := by omega
    by_cases h1 : ∀ x ∈ r, x = 1
    · rw [if_pos h, if_neg h', if_pos h1, if_pos (e.1 h1)]; ring
    · rw [if_pos h, if_neg h', if_neg h1, if_neg (fun h2 => h1 (e.2 h2))]; ring
  · rw [if_neg h, if_pos (show k ≤ 1 by omega)]

theorem ratio_ok {g x y z : ℚ} (h : ratio g x y = .ok z) : z = percentage g x y := by
  unfold ratio at h
  unfold percentage
  split_ifs at h ⊢ with h0
  · exact (Except.ok.inj h).symm
  · unfold pyDiv at h
    split_ifs at h with h1
    · cases h
    · exact (Except.ok.inj h).symm

theorem ratio_eq {g x y : ℚ} (h : g ≠ 0 → y ≠ 0) : ratio g x y = .ok (percentage g x y) := by
  unfold ratio percentage
  by_cases h0 : g = 0
  · simp [h0]
  · simp [h0, pyDiv, h h0, Except.map]

/-- The auction function returned a trade on the market, with these numbers. -/
def Did (r : List ℕ) (m : Market) (A : AuctionFunction) (y : Achieved) : Prop :=
  ∃ t, A m r = .ok (some t) ∧ y.deals = t.numOfDeals ∧ t.gainFromTrade true = .ok y.gain ∧ t.gainFromTrade false = .ok y.marketGain

theorem auctionColumns_ok {x : Contest} {trade : TradeWithSinglePrice} {c : AuctionColumns}
    (h : auctionColumns x.optimalDeals x.optimalDealsWithZero x.optimalGain x.optimalGainWithZero trade = .ok c) :
    ∃ y : Achieved, y.deals = trade.numOfDeals ∧ trade.gainFromTrade true = .ok y.gain ∧ trade.gainFromTrade false = .ok y.marketGain ∧
      c = toColumns x y := by
  unfold auctionColumns at h
  obtain ⟨g, hg, h⟩ := bind_ok_iff.1 h
  obtain ⟨gm, hgm, h⟩ := bind_ok_iff.1 h
  obtain ⟨a1, h1, h⟩ := bind_ok_iff.1 h
  obtain ⟨a2, h2, h⟩ := bind_ok_iff.1 h
  obtain ⟨a3, h3, h⟩ := bind_ok_iff.1 h
  obtain ⟨a4, h4, h⟩ := bind_ok_iff.1 h
  obtain ⟨a5, h5, h⟩ := bind_ok_iff.1 h
  refine ⟨⟨trade.numOfDeals, g, gm⟩, rfl, hg, hgm, ?_⟩
  rw [← Except.ok.inj h, ratio_ok h1, ratio_ok h2, ratio_ok h3, ratio_ok h4, ratio_ok h5]
  rfl

theorem runAuctions_ok {r : List ℕ} {m : Market} {x : Contest} {auctions : List (Bool × AuctionFunction)} {cs : List AuctionColumns}
    (h : runAuctions r m x.optimalDeals x.optimalDealsWithZero x.optimalGain x.optimalGainWithZero auctions = .ok (some cs)) :
    ∃ ys, List.Forall₂ (fun a y => Did r m a.2 y) auctions ys ∧ cs = ys.map (toColumns x) := by
  induction auctions generalizing cs with
  | nil =>
    simp only [runAuctions, Except.ok.injEq, Option.some.injEq] at h
    subst h
    exact ⟨[], .nil, rfl⟩
  | cons a as ih =>
    obtain ⟨b, A⟩ := a
    rw [runAuctions] at h
    obtain ⟨o, ho, h⟩ := bind_ok_iff.1 h
    cases o with
    | none => simp at h
    | some trade =>
      obtain ⟨c, hc, h⟩ := bind_ok_iff.1 h
      obtain ⟨o', ho', h⟩ := bind_ok_iff.1 h
      cases o' with
      | none => simp at h
      | some others =>
        obtain ⟨y, h1, h2, h3, rfl⟩ := auctionColumns_ok hc
        obtain ⟨ys, h4, rfl⟩ := ih ho'
        simp only [Except.ok.injEq, Option.some.injEq] at h
        exact ⟨y :: ys, .cons ⟨trade, ho, h1, h2, h3⟩ h4, by rw [← h]; rfl⟩

theorem runAuctions_defined {r : List ℕ} {m : Market} {x : Contest} (hk : x.optimalDeals ≠ 0 → x.optimalDealsWithZero ≠ 0)
    (hg : x.optimalGain ≠ 0 → x.optimalGainWithZero ≠ 0) {auctions : List (Bool × AuctionFunction)} {ys : List Achieved}
    (h : List.Forall₂ (fun a y => Did r m a.2 y) auctions ys) :
    runAuctions r m x.optimalDeals x.optimalDealsWithZero x.optimalGain x.optimalGainWithZero auctions = .ok (some (ys.map (toColumns x))) := by
  induction h with
  | nil => rfl
  | @cons a y as ys h _ ih =>
    obtain ⟨b, A⟩ := a
    obtain ⟨t, h1, h2, h3, h4⟩ := h
    have hk' : (x.optimalDeals : ℚ) ≠ 0 → (x.optimalDealsWithZero : ℚ) ≠ 0 := by exact_mod_cast hk
    have h1' : A m r = .ok (some t) := h1
    have e : auctionColumns x.optimalDeals x.optimalDealsWithZero x.optimalGain x.optimalGainWithZero t = .ok (toColumns x y) := by
      simp only [auctionColumns, h3, h4, bind, Except.bind, ratio_eq hk', ratio_eq hg, ratio_eq (fun h => h), toColumns, h2]
    simp only [runAuctions, h1', bind, Except.bind, e, ih, List.map_cons]

/-- How many notes the code files for values of one kind. -/
theorem differenceFound_eq (p : ℚ → ℚ → Bool) {v : ℚ} (hv : 0 ≤ v) (vs : List ℚ) : differenceFound p v vs = vs.any (p v) := by
  induction vs with
  | nil => rfl
  | cons w ws ih =>
    rw [differenceFound, if_neg (by linarith), ih]
    by_cases h : p v w <;> simp [h]

theorem writes_eq {b : Bool} {vs : List ℚ} (h : ∀ v ∈ vs, 0 ≤ v) : writes b vs = notes b vs := by
  cases vs with
  | nil => simp [writes, notes, differenceFound]
  | cons v vs =>
    have hv := h v (by simp)
    have e : ∀ p, differenceFound p (-1) (v :: vs) = vs.any (p v) := by
      intro p
      rw [differenceFound, if_pos (by norm_num), differenceFound_eq p hv]
    unfold writes notes
    rw [e, e]
    simp only [List.any_eq_true, decide_eq_true_eq, ne_eq, gt_iff_lt]
    congr 1
    apply if_congr _ rfl rfl
    simp only [eq_comm]

theorem gftValues_eq (auctions : List (Bool × AuctionFunction)) (x : Contest) (ys : List Achieved) :
    gftValues auctions (ys.map (toColumns x)) = ((auctions.zip ys).filter (fun a => a.1.1)).flatMap (fun a => [a.2.gain, a.2.gain]) := by
  unfold gftValues
  induction auctions generalizing ys with
  | nil => simp
  | cons a as ih =>
    cases ys with
    | nil => simp
    | cons y ys =>
      simp only [List.map_cons, List.zip_cons_cons, List.flatMap_cons, List.filter_cons]
      rw [ih]
      by_cases h : a.1 <;> simp [h, toColumns]

theorem kValues_eq (auctions : List (Bool × AuctionFunction)) (x : Contest) (ys : List Achieved) :
    kValues auctions (ys.map (toColumns x)) = (((auctions.zip ys).filter (fun a => a.1.1)).map Prod.snd).map (fun a => (a.deals : ℚ)) := by
  unfold kValues
  induction auctions generalizing ys with
  | nil => simp
  | cons a as ih =>
    cases ys with
    | nil => simp
    | cons y ys =>
      simp only [List.map_cons, List.zip_cons_cons, List.flatMap_cons, List.filter_cons]
      rw [ih]
      by_cases h : a.1 <;> simp [h, toColumns]

theorem notes_twice {α : Type} (b : Bool) (g : α → ℚ) (l : List α) : notes b (l.flatMap fun a => [g a, g a]) = notes b (l.map g) := by
  cases l with
  | nil => rfl
  | cons a l =>
    simp only [List.flatMap_cons, List.cons_append, List.nil_append, List.map_cons, notes]
    have e1 : (∃ w ∈ g a :: l.flatMap (fun a => [g a, g a]), w ≠ g a) ↔ ∃ w ∈ l.map g, w ≠ g a := by
      simp
    have e2 : (∃ w ∈ g a :: l.flatMap (fun a => [g a, g a]), w < g a) ↔ ∃ w ∈ l.map g, w < g a := by
      simp
    congr 1
    · exact if_congr (and_congr Iff.rfl e1) rfl rfl
    · exact if_congr e2 rfl rfl

theorem kWrites_eq (b : Bool) (auctions : List (Bool × AuctionFunction)) (x : Contest) :
    writes b (kValues auctions (x.achieved.map (toColumns x))) = dealNotes b auctions x := by
  rw [kValues_eq, writes_eq, dealNotes]
  · rfl
  · intro v hv
    obtain ⟨a, -, rfl⟩ := List.mem_map.1 hv
    positivity

theorem gftWrites_eq (b : Bool) (auctions : List (Bool × AuctionFunction)) (x : Contest) (h : ∀ y ∈ marked auctions x, 0 ≤ y.gain) :
    writes b (gftValues auctions (x.achieved.map (toColumns x))) = gainNotes b auctions x := by
  rw [gftValues_eq, writes_eq, notes_twice, gainNotes, marked, List.map_map]
  · rfl
  · intro v hv
    obtain ⟨a, ha, hv⟩ := List.mem_flatMap.1 hv
    have := h a.2 (List.mem_map.2 ⟨a, ha, rfl⟩)
    simp only [List.mem_cons, List.not_mem_nil, or_false, or_self] at hv
    rw [hv]; exact this

theorem addMarket_some {auctions : List (Bool × AuctionFunction)} {r : List ℕ} {names : List String} {b : Bool} {i n : ℕ} {m : Market} {s s' : State}
    (h : addMarket auctions r names b i n m s = .ok (some s')) :
    ∃ x name, Contested auctions r m x ∧ s' = s.add n (toResults name r n x)
      (writes b (gftValues auctions (x.achieved.map (toColumns x)))) (dealNotes b auctions x) := by
  unfold addMarket at h
  obtain ⟨⟨opt, rem⟩, h1, h⟩ := bind_ok_iff.1 h
  obtain ⟨⟨opt0, rem0⟩, h2, h⟩ := bind_ok_iff.1 h
  obtain ⟨name, h3, h⟩ := bind_ok_iff.1 h
  obtain ⟨o, h4, h⟩ := bind_ok_iff.1 h
  cases o with
  | none => simp at h
  | some cs =>
    obtain ⟨ys, h5, h6⟩ := runAuctions_ok (x := ⟨opt.numOfDeals, opt0.numOfDeals, opt.gainFromTrade, opt0.gainFromTrade, []⟩) h4
    have h6' : cs = ys.map (toColumns ⟨opt.numOfDeals, opt0.numOfDeals, opt.gainFromTrade, opt0.gainFromTrade, ys⟩) := h6
    refine ⟨⟨opt.numOfDeals, opt0.numOfDeals, opt.gainFromTrade, opt0.gainFromTrade, ys⟩, name,
      ⟨opt, rem, opt0, rem0, h1, h2, rfl, rfl, rfl, rfl, h5⟩, ?_⟩
    simp only [Except.ok.injEq, Option.some.injEq] at h
    rw [← h, ← kWrites_eq, ← h6']
    rw [formula_eq, toResults, ← h6']

theorem addMarket_defined {auctions : List (Bool × AuctionFunction)} {r : List ℕ} {names : List String} {b : Bool} {i n : ℕ} {m : Market} {s : State}
    {x : Contest} (hx : Contested auctions r m x) (hk : x.optimalDeals ≠ 0 → x.optimalDealsWithZero ≠ 0)
    (hg : x.optimalGain ≠ 0 → x.optimalGainWithZero ≠ 0) (hi : i < names.length) :
    ∃ s', addMarket auctions r names b i n m s = .ok (some s') := by
  obtain ⟨opt, rem, opt0, rem0, h1, h2, h3, h4, h5, h6, h7⟩ := hx
  have h8 := runAuctions_defined hk hg h7
  have h9 : pyGet names i = .ok names[i] := by simp [pyGet, hi]
  rw [h3, h4, h5, h6] at h8
  simp only [addMarket, h1, h2, h9, h8, bind, Except.bind]
  exact ⟨_, rfl⟩

/-! ### The sums -/

/-- The sum of a column over contests. -/
def total (f : Contest → ℚ) (xs : List Contest) : ℚ := (xs.map f).sum

theorem total_append (g : Contest → ℚ) (xs ys : List Contest) : total g (xs ++ ys) = total g xs + total g ys := by
  simp [total]

theorem total_one (g : Contest → ℚ) (x : Contest) : total g [x] = g x := by simp [total]

/-- What auction `j` achieved. -/
def nth (j : ℕ) (x : Contest) : Achieved := x.achieved.getD j ⟨0, 0, 0⟩

/-- The sums of the entries for auction `j`. -/
def sumColumns (xs : List Contest) (j : ℕ) : AuctionColumns :=
  { count := total (fun x => (nth j x).deals) xs
    countRatio := total (fun x => percentage x.optimalDeals (nth j x).deals x.optimalDealsWithZero) xs
    totalGft := total (fun x => (nth j x).gain) xs
    totalGftRatio := total (fun x => percentage x.optimalGain (nth j x).gain x.optimalGainWithZero) xs
    marketGft := total (fun x => (nth j x).marketGain) xs
    marketGftRatio := total (fun x => percentage x.optimalGain (nth j x).marketGain x.optimalGainWithZero) xs
    withoutZeroCountRatio := total (fun x => percentage x.optimalDeals (nth j x).deals x.optimalDeals) xs
    withoutZeroTotalGft := total (fun x => (nth j x).gain) xs
    withoutZeroTotalGftRatio := total (fun x => percentage x.optimalGain (nth j x).gain x.optimalGain) xs }

/-- The sums of the entries. -/
def sumResults (name : String) (r : List ℕ) (n A : ℕ) (xs : List Contest) : Results :=
  { stockName := name
    numPossibleTrades := n
    optimalCount := total (fun x => x.optimalDeals) xs
    gftRatioFormula := total (fun x => promised r x.optimalDeals) xs
    optimalCountWithZero := total (fun x => x.optimalDealsWithZero) xs
    optimalGft := total (fun x => x.optimalGain) xs
    optimalGftWithZero := total (fun x => x.optimalGainWithZero) xs
    auctions := (List.range A).map (sumColumns xs) }

/-- The entry of `total_results` for size `n` holds the sums over the contests `xs` of `A` auctions. -/
def Holds (r : List ℕ) (n A : ℕ) (o : Option Results) (xs : List Contest) : Prop :=
  (xs = [] ∧ o = none) ∨ (xs ≠ [] ∧ ∃ name, o = some (sumResults name r n A xs))

theorem map_toColumns {x : Contest} {A : ℕ} (hA : x.achieved.length = A) : x.achieved.map (toColumns x) = (List.range A).map (sumColumns [x]) := by
  apply List.ext_getElem
  · simp [hA]
  · intro j h1 h2
    have hj : j < x.achieved.length := by simpa using h1
    have e : nth j x = x.achieved[j] := by
      simp [nth, List.getD_eq_getElem?_getD, hj]
    simp only [List.getElem_map, List.getElem_range, sumColumns, total_one, toColumns, e]

theorem toResults_eq {name : String} {r : List ℕ} {n A : ℕ} {x : Contest} (hA : x.achieved.length = A) :
    toResults name r n x = sumResults name r n A [x] := by
  simp only [toResults, sumResults, total_one, map_toColumns hA]

theorem sumColumns_add (xs ys : List Contest) (j : ℕ) : (sumColumns xs j).add (sumColumns ys j) = sumColumns (xs ++ ys) j := by
  simp only [sumColumns, AuctionColumns.add, total_append]

theorem sumResults_add {name name' : String} {r : List ℕ} {n A : ℕ} (xs ys : List Contest) :
    (sumResults name r n A xs).add (sumResults name' r n A ys) = sumResults name r n A (xs ++ ys) := by
  simp only [sumResults, Results.add, total_append]
  congr 1
  rw [List.zipWith_map, List.zipWith_self]
  simp only [sumColumns_add]

theorem Holds.add {r : List ℕ} {n A : ℕ} {s : State} {xs : List Contest} (h : Holds r n A (s.results n) xs) (name : String)
    {x : Contest} (hA : x.achieved.length = A) (g k : ℕ) : Holds r n A ((s.add n (toResults name r n x) g k).results n) (xs ++ [x]) := by
  right
  refine ⟨by simp, ?_⟩
  rcases h with ⟨rfl, h⟩ | ⟨-, name', h⟩
  · exact ⟨name, by simp [State.add, h, toResults_eq hA]⟩
  · refine ⟨name', ?_⟩
    simp only [State.add, h, if_true, toResults_eq hA, sumResults_add]

theorem add_ne {s : State} {n k : ℕ} (h : k ≠ n) (r : Results) (g w : ℕ) : (s.add n r g w).results k = s.results k := by
  simp [State.add, h]

theorem Contested.length {auctions : List (Bool × AuctionFunction)} {r : List ℕ} {m : Market} {x : Contest} (h : Contested auctions r m x) :
    x.achieved.length = auctions.length := by
  obtain ⟨_, _, _, _, _, _, _, _, _, _, h⟩ := h
  exact h.length_eq.symm

/-! ### The list of prices -/

theorem doubledLoop_some {target : ℕ} (fuel : ℕ) {prices p' : List ℚ} (h : doubledLoop target fuel prices = some p') :
    ∃ e, p' = (List.replicate (2 ^ e) prices).flatten ∧ target ≤ p'.length ∧ (e ≠ 0 → 2 ^ (e - 1) * prices.length < target) := by
  induction fuel generalizing prices with
  | zero =>
    simp only [doubledLoop] at h
    split_ifs at h with h0
    exact ⟨0, by simpa using (Option.some.inj h).symm, by rw [← Option.some.inj h]; omega, by simp⟩
  | succ fuel ih =>
    simp only [doubledLoop] at h
    split_ifs at h with h0
    · obtain ⟨e, rfl, h2, h3⟩ := ih h
      have e1 : (List.replicate (2 ^ (e + 1)) prices).flatten = (List.replicate (2 ^ e) (prices ++ prices)).flatten := by
        have : ∀ k, (List.replicate (k * 2) prices).flatten = (List.replicate k (prices ++ prices)).flatten := by
          intro k
          induction k with
          | zero => simp
          | succ k ih =>
            rw [List.replicate_succ, List.flatten_cons, ← ih, Nat.succ_mul, Nat.add_comm, List.replicate_add]; simp [List.replicate_succ]
        rw [pow_succ, this]
      refine ⟨e + 1, e1.symm, h2, fun _ => ?_⟩
      rcases Nat.eq_zero_or_pos e with rfl | he
      · simpa using h0
      · have := h3 (by omega)
        rw [List.length_append] at this
        rw [Nat.add_sub_cancel, show e = e - 1 + 1 by omega, pow_succ, Nat.mul_assoc, Nat.two_mul]
        exact this
    · exact ⟨0, by simpa using (Option.some.inj h).symm, by rw [← Option.some.inj h]; omega, by simp⟩

theorem doubledLoop_defined {target : ℕ} (fuel : ℕ) {prices : List ℚ} (h : target ≤ fuel + prices.length) (h0 : prices ≠ [] ∨ target = 0) :
    ∃ p', doubledLoop target fuel prices = some p' := by
  induction fuel generalizing prices with
  | zero => exact ⟨prices, by simp only [doubledLoop]; rw [if_neg (by omega)]⟩
  | succ fuel ih =>
    simp only [doubledLoop]
    split_ifs with h1
    · have hne : prices ≠ [] := by
        rcases h0 with h0 | h0
        · exact h0
        · omega
      have := List.length_pos_iff.2 hne
      exact ih (by simp; omega) (.inl (by simp [hne]))
    · exact ⟨_, rfl⟩

theorem doubledLoop_nil {target : ℕ} (h : 0 < target) (fuel : ℕ) : doubledLoop target fuel [] = none := by
  induction fuel with
  | zero => simp [doubledLoop, h]
  | succ fuel ih => simp [doubledLoop, h, ih]

/-- What the list of prices is while the stock is used, if it was `original` at first and `sizes` have been used. -/
def ListOf (original : List ℚ) (target : ℕ → ℕ) (sizes : List ℕ) (prices : List ℚ) : Prop :=
  ∃ e, prices.Perm (List.replicate (2 ^ e) original).flatten ∧ (e ≠ 0 → ∃ n' ∈ sizes, 2 ^ (e - 1) * original.length < target n')

theorem flatten_perm {a b : List ℚ} (h : a.Perm b) (k : ℕ) : (List.replicate k a).flatten.Perm (List.replicate k b).flatten := by
  induction k with
  | zero => simp
  | succ k ih => simp only [List.replicate_succ, List.flatten_cons]; exact h.append ih

theorem flatten_flatten (l : List ℚ) (a b : ℕ) : (List.replicate a (List.replicate b l).flatten).flatten = (List.replicate (a * b) l).flatten := by
  induction a with
  | zero => simp
  | succ a ih => rw [List.replicate_succ, List.flatten_cons, ih, Nat.succ_mul, Nat.add_comm (a * b) b, ← List.replicate_append_replicate, List.flatten_append]

theorem ListOf.step {original : List ℚ} {target : ℕ → ℕ} {sizes : List ℕ} {prices p' : List ℚ} {n : ℕ} (h : ListOf original target sizes prices)
    (hn : n ∈ sizes) (hd : doubled (target n) prices = some p') {q : List ℚ} (hq : q.Perm p') :
    ListOf original target sizes q ∧ target n ≤ q.length := by
  obtain ⟨e, h1, h2⟩ := h
  obtain ⟨f, h3, h4, h5⟩ := doubledLoop_some _ hd
  refine ⟨⟨f + e, ?_, ?_⟩, by rw [hq.length_eq]; exact h4⟩
  · rw [h3] at hq
    refine hq.trans ((flatten_perm h1 _).trans ?_)
    rw [flatten_flatten, ← pow_add]
  · intro hne
    rcases Nat.eq_zero_or_pos f with rfl | hf
    · simpa using h2 (by simpa using hne)
    · refine ⟨n, hn, ?_⟩
      have h6 := h5 (by omega)
      have h7 : prices.length = 2 ^ e * original.length := by
        rw [h1.length_eq]; simp
      rw [h7, ← Nat.mul_assoc, ← pow_add] at h6
      rw [show f + e - 1 = f - 1 + e by omega]
      exact h6

theorem ListOf.mono {original : List ℚ} {target : ℕ → ℕ} {sizes sizes' : List ℕ} {prices : List ℚ} (h : ListOf original target sizes prices)
    (hs : ∀ n ∈ sizes, n ∈ sizes') : ListOf original target sizes' prices := by
  obtain ⟨e, h1, h2⟩ := h
  exact ⟨e, h1, fun hne => let ⟨n, a, b⟩ := h2 hne; ⟨n, hs n a, b⟩⟩

/-! ### The loops -/

/-- The market that an iteration for size `n` uses, when the list of prices is `prices`. -/
def MarketOf (c : Setting) (n : ℕ) (prices : List ℚ) (random : ℕ → ℕ → ℚ) (m : Market) : Prop :=
  Market.init (if c.runWithStockPrices then stockCategories n c.sign prices 0 c.recipe else randomCategories n c.sign random 0 c.recipe) = .ok m

/-- How a market for size `n` may come about. -/
def Origin (c : Setting) (original : List ℚ) (used : List ℕ) (n : ℕ) (random : ℕ → ℕ → ℚ) (m : Market) : Prop :=
  ∃ prices, MarketOf c n prices random m ∧
    (c.runWithStockPrices = true → ListOf original (fun n => n * c.recipe.sum) used prices ∧ n * c.recipe.sum ≤ prices.length)

/-- The number of notes on gains that are filed for a contest. -/
def gftNotes (c : Setting) (x : Contest) : ℕ := writes c.reportDiff (gftValues c.auctions (x.achieved.map (toColumns x)))

theorem iterations_some {c : Setting} {i n : ℕ} {shuffle : ℕ → List ℚ → List ℚ} {random : ℕ → ℕ → ℕ → ℚ} (hsh : ∀ it l, (shuffle it l).Perm l)
    {original : List ℚ} {used : List ℕ} (hn : n ∈ used) (left it : ℕ) {prices p' : List ℚ} {s s' : State}
    (hl : ListOf original (fun n => n * c.recipe.sum) used prices)
    (h : iterations c i n shuffle random left it prices s = .ok (some (p', s'))) :
    ListOf original (fun n => n * c.recipe.sum) used p' ∧
    ∃ X : ℕ → Contest,
      (∀ l < left, ∃ m, Origin c original used n (random (it + l)) m ∧ Contested c.auctions c.recipe m (X l)) ∧
      (∀ xs, Holds c.recipe n c.auctions.length (s.results n) xs →
        Holds c.recipe n c.auctions.length (s'.results n) (xs ++ (List.range left).map X)) ∧
      (∀ k ≠ n, s'.results k = s.results k) ∧
      s'.gftWrites = s.gftWrites + ((List.range left).map fun l => gftNotes c (X l)).sum ∧
      s'.kWrites = s.kWrites + ((List.range left).map fun l => dealNotes c.reportDiff c.auctions (X l)).sum := by
  induction left generalizing it prices s with
  | zero =>
    simp only [iterations, Except.ok.injEq, Option.some.injEq, Prod.mk.injEq] at h
    obtain ⟨rfl, rfl⟩ := h
    exact ⟨hl, fun _ => ⟨0, 0, 0, 0, []⟩, by simp, by simp, by simp, by simp, by simp⟩
  | succ left ih =>
    rw [iterations] at h
    split at h
    · simp at h
    · next q hq =>
      obtain ⟨m, hm, h⟩ := bind_ok_iff.1 h
      obtain ⟨o, ha, h⟩ := bind_ok_iff.1 h
      cases o with
      | none => simp at h
      | some s1 =>
        have hl' : ListOf original (fun n => n * c.recipe.sum) used q ∧ (c.runWithStockPrices = true → n * c.recipe.sum ≤ q.length) := by
          by_cases hc : c.runWithStockPrices = true
          · rw [if_pos hc] at hq
            obtain ⟨d, hd, rfl⟩ := Option.map_eq_some_iff.1 hq
            have := hl.step hn hd (hsh it d)
            exact ⟨this.1, fun _ => this.2⟩
          · rw [if_neg hc] at hq
            rw [← Option.some.inj hq]
            exact ⟨hl, fun h => absurd h hc⟩
        obtain ⟨x, name, hx, rfl⟩ := addMarket_some ha
        obtain ⟨h0, X, h1, h2, h3, h4, h5⟩ := ih (it + 1) hl'.1 h
        refine ⟨h0, fun l => match l with | 0 => x | l + 1 => X l, ?_, ?_, ?_, ?_, ?_⟩
        · intro l hl
          cases l with
          | zero => exact ⟨m, ⟨q, hm, fun hc => ⟨hl'.1, hl'.2 hc⟩⟩, hx⟩
          | succ l =>
            obtain ⟨m', a, b⟩ := h1 l (by omega)
            exact ⟨m', by rw [show it + (l + 1) = it + 1 + l by omega]; exact a, b⟩
        · intro xs hxs
          have := h2 _ (hxs.add name (Contested.length hx) _ _)
          rw [List.range_succ_eq_map, List.map_cons, List.map_map]
          simpa [List.append_assoc, Function.comp_def] using this
        · intro k hk
          rw [h3 k hk, add_ne hk]
        · rw [h4, List.range_succ_eq_map, List.map_cons, List.map_map, List.sum_cons]
          simp only [State.add, gftNotes, Function.comp_def, Nat.add_assoc]
        · rw [h5, List.range_succ_eq_map, List.map_cons, List.map_map, List.sum_cons]
          simp only [State.add, Function.comp_def, Nat.add_assoc]

theorem sizes_some {c : Setting} {i : ℕ} {shuffle : ℕ → ℕ → List ℚ → List ℚ} {random : ℕ → ℕ → ℕ → ℕ → ℚ} (hsh : ∀ j it l, (shuffle j it l).Perm l)
    {original : List ℚ} (before nums : List ℕ) (hd : nums.Nodup) (j : ℕ) {prices : List ℚ} {s s' : State}
    (hl : ListOf original (fun n => n * c.recipe.sum) before prices)
    (h : sizes c i shuffle random j nums prices s = .ok (some s')) :
    ∃ X : ℕ → ℕ → Contest,
      (∀ p (hp : p < nums.length), ∀ l < c.numOfIterations, ∃ m,
        Origin c original (before ++ nums.take (p + 1)) nums[p] (random (j + p) l) m ∧ Contested c.auctions c.recipe m (X p l)) ∧
      (∀ p (hp : p < nums.length) xs, Holds c.recipe nums[p] c.auctions.length (s.results nums[p]) xs →
        Holds c.recipe nums[p] c.auctions.length (s'.results nums[p]) (xs ++ (List.range c.numOfIterations).map (X p))) ∧
      (∀ n ∉ nums, s'.results n = s.results n) ∧
      s'.gftWrites = s.gftWrites + ((List.range nums.length).flatMap fun p => (List.range c.numOfIterations).map fun l => gftNotes c (X p l)).sum ∧
      s'.kWrites = s.kWrites +
        ((List.range nums.length).flatMap fun p => (List.range c.numOfIterations).map fun l => dealNotes c.reportDiff c.auctions (X p l)).sum := by
  induction nums generalizing before j prices s with
  | nil =>
    simp only [sizes, Except.ok.injEq, Option.some.injEq] at h
    subst h
    exact ⟨fun _ _ => ⟨0, 0, 0, 0, []⟩, by simp, by simp, by simp, by simp, by simp⟩
  | cons n ns ih =>
    rw [sizes] at h
    obtain ⟨o, hi, h⟩ := bind_ok_iff.1 h
    cases o with
    | none => simp at h
    | some q =>
      obtain ⟨p1, s1⟩ := q
      have hnd := List.nodup_cons.1 hd
      obtain ⟨a0, x, a1, a2, a3, a4, a5⟩ := iterations_some (hsh j) (used := before ++ [n]) (by simp) c.numOfIterations 0
        (hl.mono (by simp +contextual)) hi
      obtain ⟨X, b1, b2, b3, b4, b5⟩ := ih (before ++ [n]) hnd.2 (j + 1) a0 h
      refine ⟨fun p => match p with | 0 => x | p + 1 => X p, ?_, ?_, ?_, ?_, ?_⟩
      · intro p hp l hl
        cases p with
        | zero =>
          obtain ⟨m, m1, m2⟩ := a1 l hl
          exact ⟨m, by simpa using m1, m2⟩
        | succ p =>
          obtain ⟨m, m1, m2⟩ := b1 p (by simpa using hp) l hl
          refine ⟨m, ?_, m2⟩
          rw [show j + (p + 1) = j + 1 + p by omega, List.take_succ_cons, List.getElem_cons_succ]
          simpa using m1
      · intro p hp xs hxs
        cases p with
        | zero =>
          simp only [List.getElem_cons_zero] at hxs ⊢
          rw [b3 n hnd.1]
          exact a2 xs hxs
        | succ p =>
          have hp' : p < ns.length := by simpa using hp
          simp only [List.getElem_cons_succ] at hxs ⊢
          have hne : ns[p] ≠ n := by
            intro he
            exact hnd.1 (he ▸ List.getElem_mem hp')
          exact b2 p hp' xs (by rw [a3 _ hne]; exact hxs)
      · intro k hk
        simp only [List.mem_cons, not_or] at hk
        rw [b3 k hk.2, a3 k hk.1]
      · rw [b4, a4, List.length_cons, List.range_succ_eq_map, List.flatMap_cons, List.sum_append, List.flatMap_map, Nat.add_assoc]
      · rw [b5, a5, List.length_cons, List.range_succ_eq_map, List.flatMap_cons, List.sum_append, List.flatMap_map, Nat.add_assoc]

theorem stocks_some {c : Setting} {nums : List ℕ} (hd : nums.Nodup) {shuffle : ℕ → ℕ → ℕ → List ℚ → List ℚ} {random : ℕ → ℕ → ℕ → ℕ → ℕ → ℚ}
    (hsh : ∀ i j it l, (shuffle i j it l).Perm l) (i : ℕ) (prices : List (List ℚ)) {s s' : State}
    (h : stocks c nums shuffle random i prices s = .ok (some s')) :
    ∃ X : ℕ → ℕ → ℕ → Contest,
      (∀ a (ha : a < prices.length), ∀ p (hp : p < nums.length), ∀ l < c.numOfIterations, ∃ m,
        Origin c prices[a] (nums.take (p + 1)) nums[p] (random (i + a) p l) m ∧ Contested c.auctions c.recipe m (X a p l)) ∧
      (∀ p (hp : p < nums.length) xs, Holds c.recipe nums[p] c.auctions.length (s.results nums[p]) xs →
        Holds c.recipe nums[p] c.auctions.length (s'.results nums[p])
          (xs ++ (List.range prices.length).flatMap fun a => (List.range c.numOfIterations).map (X a p))) ∧
      s'.gftWrites = s.gftWrites + ((List.range prices.length).flatMap fun a => (List.range nums.length).flatMap fun p =>
        (List.range c.numOfIterations).map fun l => gftNotes c (X a p l)).sum ∧
      s'.kWrites = s.kWrites + ((List.range prices.length).flatMap fun a => (List.range nums.length).flatMap fun p =>
        (List.range c.numOfIterations).map fun l => dealNotes c.reportDiff c.auctions (X a p l)).sum := by
  induction prices generalizing i s with
  | nil =>
    simp only [stocks, Except.ok.injEq, Option.some.injEq] at h
    subst h
    exact ⟨fun _ _ _ => ⟨0, 0, 0, 0, []⟩, by simp, by simp, by simp, by simp⟩
  | cons price prices ih =>
    rw [stocks] at h
    obtain ⟨o, hi, h⟩ := bind_ok_iff.1 h
    cases o with
    | none => simp at h
    | some s1 =>
      obtain ⟨name, hname, h⟩ := bind_ok_iff.1 h
      obtain ⟨x, a1, a2, a3, a4, a5⟩ := sizes_some (hsh i) [] nums hd 0 (original := price) ⟨0, by simp, by simp⟩ hi
      obtain ⟨X, b1, b2, b4, b5⟩ := ih (i + 1) h
      refine ⟨fun p => match p with | 0 => x | p + 1 => X p, ?_, ?_, ?_, ?_⟩
      · intro a ha p hp l hl
        cases a with
        | zero => simpa using a1 p hp l hl
        | succ a =>
          obtain ⟨m, m1, m2⟩ := b1 a (by simpa using ha) p hp l hl
          exact ⟨m, by rw [show i + (a + 1) = i + 1 + a by omega]; exact m1, m2⟩
      · intro p hp xs hxs
        have := b2 p hp _ (a2 p hp xs hxs)
        rw [List.length_cons, List.range_succ_eq_map, List.flatMap_cons, List.flatMap_map]
        simpa [List.append_assoc] using this
      · rw [b4, a4, List.length_cons, List.range_succ_eq_map, List.flatMap_cons, List.sum_append, List.flatMap_map, Nat.add_assoc]
      · rw [b5, a5, List.length_cons, List.range_succ_eq_map, List.flatMap_cons, List.sum_append, List.flatMap_map, Nat.add_assoc]

theorem rows_some {division : ℕ} {results : ℕ → Option Results} (done nums : List ℕ) {table : List (Option Results)}
    (h : rows division results done nums = .ok table) :
    table = nums.map (fun n => (results n).map (·.average division)) ∧ ∀ n ∈ nums, results n ≠ none → nums.count n = 1 ∧ n ∉ done := by
  induction nums generalizing done table with
  | nil =>
    simp only [rows, Except.ok.injEq] at h
    subst h
    simp
  | cons n ns ih =>
    rw [rows] at h
    have key : ∀ {o : Option Results}, (rows division results (n :: done) ns).map (o :: ·) = .ok table →
        ∃ t, rows division results (n :: done) ns = .ok t ∧ table = o :: t := by
      intro o ho
      rcases hr : rows division results (n :: done) ns with e | t
      · rw [hr] at ho; cases ho
      · rw [hr] at ho; exact ⟨t, rfl, (Except.ok.inj ho).symm⟩
    rcases hn : results n with _ | x
    · rw [hn] at h
      obtain ⟨t, ht, rfl⟩ := key h
      obtain ⟨h1, h2⟩ := ih _ ht
      refine ⟨by simp [h1, hn], ?_⟩
      intro k hk hne
      have hkn : k ≠ n := by rintro rfl; exact hne hn
      have hk' : k ∈ ns := by simpa [hkn] using hk
      obtain ⟨h3, h4⟩ := h2 k hk' hne
      exact ⟨by rw [List.count_cons_of_ne (Ne.symm hkn)]; exact h3, fun h => h4 (by simp [h])⟩
    · rw [hn] at h
      dsimp only at h
      split_ifs at h with hd
      obtain ⟨t, ht, rfl⟩ := key h
      obtain ⟨h1, h2⟩ := ih _ ht
      refine ⟨by simp [h1, hn], ?_⟩
      intro k hk hne
      by_cases hkn : k = n
      · subst hkn
        refine ⟨?_, hd⟩
        have : k ∉ ns := fun hk' => (h2 k hk' hne).2 (by simp)
        rw [List.count_cons_self, List.count_eq_zero_of_not_mem this]
      · have hk' : k ∈ ns := by simpa [hkn] using hk
        obtain ⟨h3, h4⟩ := h2 k hk' hne
        exact ⟨by rw [List.count_cons_of_ne (Ne.symm hkn)]; exact h3, fun h => h4 (by simp [h])⟩

theorem rows_defined {division : ℕ} {results : ℕ → Option Results} (done nums : List ℕ) (hd : nums.Nodup) (hn : ∀ n ∈ nums, n ∉ done) :
    ∃ table, rows division results done nums = .ok table := by
  induction nums generalizing done with
  | nil => exact ⟨[], rfl⟩
  | cons n ns ih =>
    have hnd := List.nodup_cons.1 hd
    obtain ⟨t, ht⟩ := ih (n :: done) hnd.2 (by
      intro k hk hmem
      rcases List.mem_cons.1 hmem with rfl | h
      · exact hnd.1 hk
      · exact hn k (by simp [hk]) h)
    rw [rows, ht]
    cases results n with
    | none => exact ⟨_, rfl⟩
    | some x =>
      simp only [hn n (by simp), if_false]
      exact ⟨_, rfl⟩

end Auctions.CompareIterations
