import Verif.Spec.StockSizes
import Verif.Props.StockExperiment
import Verif.Props.ContestPredictions

set_option autoImplicit false

/-!
# C93: the comparison of auctions on stock prices, for several sizes of the market
-/

namespace Auctions.Props

open Auctions Spec Ascending TradeReduction
open Auctions.Experiment (AuctionFunction)
open Auctions.StockSizes (runAuctions measure slices categories Measures Columns)

theorem runAuctions_iff {r : List ℕ} {m : Market} {auctions : List AuctionFunction} {l : List (ℕ × ℚ)} :
    runAuctions r m auctions = .ok (some l) ↔
      List.Forall₂ (fun auction y => ∃ t, auction m r = .ok (some t) ∧ y.1 = t.numOfDeals ∧ t.gainFromTrade false = .ok y.2) auctions l := by
  induction auctions generalizing l with
  | nil =>
    simp only [runAuctions, Except.ok.injEq, Option.some.injEq, List.forall₂_nil_left_iff]
    exact eq_comm
  | cons a rest ih =>
    rw [runAuctions]
    constructor
    · intro h
      obtain ⟨o, ho, h⟩ := bind_ok_iff.1 h
      cases o with
      | none => simp at h
      | some t =>
        obtain ⟨g, hg, h⟩ := bind_ok_iff.1 h
        obtain ⟨o2, ho2, h⟩ := bind_ok_iff.1 h
        cases o2 with
        | none => simp at h
        | some others =>
          simp only [Except.ok.injEq, Option.some.injEq] at h
          subst h
          exact .cons ⟨t, ho, rfl, hg⟩ (ih.1 ho2)
    · intro h
      cases h with
      | cons h1 h2 =>
        obtain ⟨t, b1, b2, b3⟩ := h1
        rename_i y ys
        have h3 := ih.2 h2
        simp only [b1, b3, h3, bind, Except.bind, ← b2]

theorem pyGet_eq_ok {α : Type} {l : List α} {i : ℕ} {x : α} : pyGet l i = .ok x ↔ l[i]? = some x := by
  rw [pyGet]
  cases l[i]? <;> simp

theorem measure_iff {auctions : List AuctionFunction} {r : List ℕ} {names : List String} {i : ℕ} {m : Market} {name : String} {x : Measures} :
    measure auctions r names i m = .ok (some (name, x)) ↔ TrialOn auctions r m x ∧ names[i]? = some name := by
  rw [StockSizes.measure]
  constructor
  · intro h
    obtain ⟨⟨opt, rem⟩, ho, h⟩ := bind_ok_iff.1 h
    obtain ⟨⟨opt0, rem0⟩, ho0, h⟩ := bind_ok_iff.1 h
    obtain ⟨n, hn, h⟩ := bind_ok_iff.1 h
    obtain ⟨o, hl, h⟩ := bind_ok_iff.1 h
    cases o with
    | none => simp at h
    | some l =>
      simp only [Except.ok.injEq, Option.some.injEq, Prod.mk.injEq] at h
      obtain ⟨rfl, rfl⟩ := h
      exact ⟨⟨opt, rem, opt0, rem0, ho, ho0, rfl, rfl, rfl, runAuctions_iff.1 hl⟩, pyGet_eq_ok.1 hn⟩
  · rintro ⟨⟨opt, rem, opt0, rem0, ho, ho0, h1, h2, h3, h4⟩, hn⟩
    have h5 := runAuctions_iff.2 h4
    have h6 := pyGet_eq_ok.2 hn
    simp only [ho, ho0, h5, h6, bind, Except.bind, ← h1, ← h2, ← h3]

theorem slices_ok {n : ℕ} {r : List ℕ} (j : ℕ) (prices : List (List ℚ)) {cats : List AgentCategory} (h : slices n r j prices = .ok cats) :
    cats = prices.mapIdx fun k p => AgentCategory.init "agent" (p.take (n * r.getD (j + k) 0)) := by
  induction prices generalizing j cats with
  | nil => simp only [slices, Except.ok.injEq] at h; subst h; rfl
  | cons p ps ih =>
    rw [slices] at h
    obtain ⟨c, hc, h⟩ := bind_ok_iff.1 h
    obtain ⟨others, ho, h⟩ := bind_ok_iff.1 h
    simp only [Except.ok.injEq] at h
    subst h
    rw [ih (j + 1) ho, List.mapIdx_cons]
    have : r.getD (j + 0) 0 = c := by rw [List.getD_eq_getElem?_getD, Nat.add_zero, pyGet_eq_ok.1 hc]; rfl
    rw [this]
    congr 2
    funext k p
    rw [show j + 1 + k = j + (k + 1) by ring]

theorem slices_defined {n : ℕ} {r : List ℕ} (j : ℕ) (prices : List (List ℚ)) (h : j + prices.length ≤ r.length) : ∃ cats, slices n r j prices = .ok cats := by
  induction prices generalizing j with
  | nil => exact ⟨_, rfl⟩
  | cons p ps ih =>
    simp only [List.length_cons] at h
    obtain ⟨others, ho⟩ := ih (j + 1) (by omega)
    have hj : j < r.length := by omega
    rw [slices]
    simp only [pyGet, List.getElem?_eq_getElem hj, ho, bind, Except.bind]
    exact ⟨_, rfl⟩

theorem marketInit_ok {cats : List AgentCategory} {m : Market} (h : Market.init cats = .ok m) : m = ⟨cats⟩ := by
  unfold Market.init at h
  split at h
  · simp at h
  · exact (Except.ok.inj h).symm

theorem marketOfSize_of {r : List ℕ} {prices : List (List ℚ)} {n : ℕ} {cats : List AgentCategory} {m : Market}
    (h1 : categories (min n (prices.getD 0 []).length) (decide (min n (prices.getD 0 []).length < n)) r prices = .ok cats) (h2 : Market.init cats = .ok m) :
    MarketOfSize r prices n m := by
  rw [marketInit_ok h2]
  unfold categories at h1
  unfold MarketOfSize
  by_cases hn : n ≤ (prices.getD 0 []).length
  · rw [min_eq_left hn] at h1
    simp only [lt_irrefl, decide_false, Bool.false_eq_true, if_false] at h1
    have h3 := slices_ok 0 prices h1
    subst h3
    refine ⟨by simp [Market.numCategories], fun j hj => ?_⟩
    rw [if_pos hn]
    unfold Market.valueLists
    rw [List.getD_eq_getElem?_getD, List.getElem?_eq_getElem (by simpa using hj)]
    simp only [List.getElem_map, List.getElem_mapIdx, Option.getD_some, Nat.zero_add]
    rw [List.getD_eq_getElem?_getD (l := prices), List.getElem?_eq_getElem hj, Option.getD_some]
    exact sortDesc_perm _
  · have hlt : min n (prices.getD 0 []).length < n := by omega
    simp only [hlt, decide_true, if_true, Except.ok.injEq] at h1
    subst h1
    refine ⟨by simp [Market.numCategories], fun j hj => ?_⟩
    rw [if_neg hn]
    unfold Market.valueLists
    rw [List.getD_eq_getElem?_getD, List.getElem?_eq_getElem (by simpa using hj)]
    simp only [List.getElem_map, Option.getD_some]
    rw [List.getD_eq_getElem?_getD (l := prices), List.getElem?_eq_getElem hj, Option.getD_some]
    exact sortDesc_perm _

/-- The sizes that get a row, when a size that is too large has already got one (`last`) or not. -/
def shownFrom (last : Bool) (L : ℕ) (ns : List ℕ) : List ℕ := if last = true then ns.takeWhile (· ≤ L) else shownSizes L ns

theorem warnings_row (name : String) (n : ℕ) (x : Measures) :
    StockSizes.warnings x = ((StockSizes.mkRow name n x).auctions.filter fun c => c.count > (StockSizes.mkRow name n x).optimalCountWithZero).length := by
  unfold StockSizes.warnings StockSizes.mkRow
  simp only [List.filter_map, List.length_map]
  rfl

theorem sized_ok {auctions : List AuctionFunction} {r : List ℕ} {names : List String} {i : ℕ} {prices : List (List ℚ)} (last : Bool) (ns : List ℕ)
    {table : List StockSizes.Row} {w : ℕ} (h : StockSizes.sizes auctions r names i prices last ns = .ok (some (table, w))) :
    List.Forall₂ (fun n row => ∃ name m x, names[i]? = some name ∧ MarketOfSize r prices n m ∧ TrialOn auctions r m x ∧
      row = StockSizes.mkRow name (min n (prices.getD 0 []).length) x) (shownFrom last (prices.getD 0 []).length ns) table ∧
    w = (table.map fun row => (row.auctions.filter fun c => c.count > row.optimalCountWithZero).length).sum := by
  induction ns generalizing last table w with
  | nil =>
    simp only [StockSizes.sizes, Except.ok.injEq, Option.some.injEq, Prod.mk.injEq] at h
    obtain ⟨rfl, rfl⟩ := h
    refine ⟨?_, rfl⟩
    cases last <;> exact .nil
  | cons n ns ih =>
    rw [StockSizes.sizes] at h
    obtain ⟨first, hf, h⟩ := bind_ok_iff.1 h
    have hf' : prices.getD 0 [] = first := by rw [List.getD_eq_getElem?_getD, pyGet_eq_ok.1 hf]; rfl
    rw [← hf'] at h
    generalize hL : (prices.getD 0 []).length = L at h ih ⊢
    dsimp only at h
    split_ifs at h with hc
    · simp only [Except.ok.injEq, Option.some.injEq, Prod.mk.injEq] at h
      obtain ⟨rfl, rfl⟩ := h
      refine ⟨?_, rfl⟩
      have : ¬ n ≤ L := by omega
      simp only [shownFrom, hc.1, if_true, List.takeWhile_cons, this, decide_false]
      exact .nil
    · obtain ⟨cats, hcats, h⟩ := bind_ok_iff.1 h
      obtain ⟨m, hm, h⟩ := bind_ok_iff.1 h
      obtain ⟨o, ho, h⟩ := bind_ok_iff.1 h
      cases o with
      | none => simp at h
      | some p =>
        obtain ⟨name, x⟩ := p
        obtain ⟨o2, ho2, h⟩ := bind_ok_iff.1 h
        cases o2 with
        | none => simp at h
        | some p2 =>
          obtain ⟨table', w'⟩ := p2
          simp only [Except.ok.injEq, Option.some.injEq, Prod.mk.injEq] at h
          obtain ⟨rfl, rfl⟩ := h
          obtain ⟨g1, g2⟩ := ih _ ho2
          obtain ⟨a1, a2⟩ := measure_iff.1 ho
          refine ⟨?_, ?_⟩
          · have hrow : ∃ name' m' x', names[i]? = some name' ∧ MarketOfSize r prices n m' ∧ TrialOn auctions r m' x' ∧
                StockSizes.mkRow name (min n L) x = StockSizes.mkRow name' (min n L) x' :=
              ⟨name, m, x, a2, marketOfSize_of (by rw [hL]; exact hcats) hm, a1, rfl⟩
            by_cases hn : n ≤ L
            · have e : decide (min n L < n) = false := decide_eq_false (by omega)
              rw [e, Bool.or_false] at g1
              have : shownFrom last L (n :: ns) = n :: shownFrom last L ns := by
                cases last <;> simp [shownFrom, shownSizes, hn]
              rw [this]
              exact .cons hrow g1
            · have e : decide (min n L < n) = true := decide_eq_true (by omega)
              rw [e, Bool.or_true] at g1
              have hlast : last = false := by
                cases last with
                | false => rfl
                | true => exact absurd ⟨rfl, by omega⟩ hc
              subst hlast
              have : shownFrom false L (n :: ns) = n :: shownFrom true L ns := by
                simp [shownFrom, shownSizes, hn]
              rw [this]
              exact .cons hrow g1
          · rw [List.map_cons, List.sum_cons, ← g2, warnings_row name (min n L) x]

theorem mkRow_reports (name : String) (n : ℕ) (x : Measures) : ReportsTrial (StockSizes.mkRow name n x) name n x := by
  refine ⟨rfl, rfl, rfl, rfl, pyRound2_rounded _, ?_⟩
  unfold StockSizes.mkRow
  simp only [List.forall₂_map_left_iff]
  apply List.forall₂_same.2
  intro a _
  refine ⟨rfl, pyRound2_rounded _, ?_, ?_⟩
  · by_cases h0 : x.optimalCountWithZero = 0
    · simp [h0]
    · have hpos : (0 : ℚ) ≤ (a.1 : ℚ) / x.optimalCountWithZero * 100 := by positivity
      obtain ⟨a1, a2, -⟩ := pyInt_cut hpos
      rw [show (a.1 : ℚ) / x.optimalCountWithZero * 100 * 1000 = (a.1 : ℚ) / x.optimalCountWithZero * 100000 by ring] at a1 a2
      simp only [h0, if_false]
      exact ⟨a1, a2⟩
  · by_cases h0 : x.optimalGft = 0
    · simp [h0]
    · simp only [h0, if_false]; exact pyRound3_rounded _

theorem sized_stocks {auctions : List AuctionFunction} {r : List ℕ} {names : List String} {ns : List ℕ} (i : ℕ) (stocks : List (List (List ℚ)))
    {table : List StockSizes.Row} {w : ℕ} (h : StockSizes.stocks auctions r names ns i stocks = .ok (some (table, w))) :
    ∃ tables : List (List StockSizes.Row), table = tables.flatten ∧ ∃ hl : tables.length = stocks.length,
      (∀ j (hj : j < stocks.length), ∃ w', StockSizes.sizes auctions r names (i + j) stocks[j] false ns = .ok (some (tables[j], w'))) ∧
      w = (table.map fun row => (row.auctions.filter fun c => c.count > row.optimalCountWithZero).length).sum := by
  induction stocks generalizing i table w with
  | nil =>
    simp only [StockSizes.stocks, Except.ok.injEq, Option.some.injEq, Prod.mk.injEq] at h
    obtain ⟨rfl, rfl⟩ := h
    exact ⟨[], rfl, rfl, by simp, rfl⟩
  | cons s ss ih =>
    rw [StockSizes.stocks] at h
    obtain ⟨o, ho, h⟩ := bind_ok_iff.1 h
    cases o with
    | none => simp at h
    | some x =>
      obtain ⟨t1, w1⟩ := x
      obtain ⟨o2, ho2, h⟩ := bind_ok_iff.1 h
      cases o2 with
      | none => simp at h
      | some y =>
        obtain ⟨t2, w2⟩ := y
        simp only [Except.ok.injEq, Option.some.injEq, Prod.mk.injEq] at h
        obtain ⟨rfl, rfl⟩ := h
        obtain ⟨tables, e, hl, h1, h2⟩ := ih (i + 1) ho2
        refine ⟨t1 :: tables, by rw [e]; rfl, by simp [hl], ?_, ?_⟩
        · intro j hj
          cases j with
          | zero => exact ⟨w1, by simpa using ho⟩
          | succ j =>
            obtain ⟨w', this⟩ := h1 j (by simpa using hj)
            rw [show i + 1 + j = i + (j + 1) by ring] at this
            exact ⟨w', by simpa using this⟩
        · rw [List.map_append, List.sum_append, ← h2, (sized_ok false ns ho).2]

/-- **C93**. Whatever the prices, the sizes and the auctions: when `experiment` returns, the table consists of one part for each stock, in order; in this part there is a row
for each size, in order, up to the first size that is larger than the number of buyers, and then up to the next such size, which is left out with all that follow. Each row
reports what was measured on the market of that size. There is one warning for each entry `auction_count` that exceeds `optimal_count_with_gft_zero` in its row. -/
theorem sized_columns {auctions : List AuctionFunction} {r : List ℕ} {ns : List ℕ} {stocks : List (List (List ℚ))} {names : List String}
    {table : List StockSizes.Row} {w : ℕ} (h : StockSizes.experiment auctions r ns stocks names = .ok (some (table, w))) :
    (∃ tables : List (List StockSizes.Row), table = tables.flatten ∧ ∃ hl : tables.length = stocks.length, ∀ i (hi : i < stocks.length),
      List.Forall₂ (fun n row => ∃ name m x, names[i]? = some name ∧ MarketOfSize r stocks[i] n m ∧ TrialOn auctions r m x ∧
        ReportsTrial row name (min n (stocks[i].getD 0 []).length) x) (shownSizes (stocks[i].getD 0 []).length ns) tables[i]) ∧
    w = (table.map fun row => (row.auctions.filter fun c => c.count > row.optimalCountWithZero).length).sum := by
  obtain ⟨tables, e, hl, h1, h2⟩ := sized_stocks 0 stocks h
  refine ⟨⟨tables, e, hl, fun i hi => ?_⟩, h2⟩
  obtain ⟨w', h3⟩ := h1 i hi
  rw [Nat.zero_add] at h3
  refine (sized_ok false ns h3).1.imp ?_
  rintro n row ⟨name, m, x, b1, b2, b3, rfl⟩
  exact ⟨name, m, x, b1, b2, b3, mkRow_reports _ _ _⟩

/-! ## What theory predicts -/

/-- What holds of the measures. -/
structure TrialFine (n : ℕ) (x : Measures) : Prop where
  count_le : x.optimalCount ≤ x.optimalCountWithZero
  within : x.optimalCountWithZero ≤ n
  each : ∀ a ∈ x.auctions, Fine n ⟨x.optimalCountWithZero, a.1, x.optimalGft, a.2, a.2⟩

theorem balanced_predictable {r : List ℕ} {A : ℕ} {auction : AuctionFunction} (h : Balanced A auction) : Predictable r A auction := by
  cases h with
  | ascending fuel hf => exact .ascending fuel hf
  | reduction => exact .reduction

theorem trial_fine {auctions : List AuctionFunction} {r : List ℕ} (hall : ∀ x ∈ r, 0 < x) (hr : r ≠ []) {n A : ℕ} {m : Market}
    (hm : Usable r n A m) (hA : A ≤ 2000000) (hp : ∀ a ∈ auctions, Balanced A a) : ∃ x, TrialOn auctions r m x ∧ TrialFine n x := by
  obtain ⟨⟨c, hc⟩, hfine⟩ := contest_fine (auctions := auctions.map fun a => (false, a)) hall hr hm hA (by
    intro a ha
    obtain ⟨b, hb, rfl⟩ := List.mem_map.1 ha
    exact balanced_predictable (hp b hb))
  have hf := hfine c hc
  obtain ⟨opt, rem, opt0, rem0, h1, h2, h3, h4, h5, h6, h7⟩ := hc
  rw [List.forall₂_map_left_iff] at h7
  refine ⟨⟨c.optimalDeals, c.optimalDealsWithZero, c.optimalGain, c.achieved.map fun y => (y.deals, y.marketGain)⟩,
    ⟨opt, rem, opt0, rem0, h1, h2, h3, h4, h5, ?_⟩, hf.count_le, hf.within, ?_⟩
  · rw [List.forall₂_map_right_iff]
    exact h7.imp fun a y hay => by
      obtain ⟨t, b1, b2, b3, b4⟩ := hay
      exact ⟨t, b1, b2, b4⟩
  · intro a ha
    obtain ⟨y, hy, rfl⟩ := List.mem_map.1 ha
    have hg := hf.each y hy
    obtain ⟨auction, hau, t, b1, b2, b3, b4⟩ := forall₂_mem_right h7 hy
    obtain ⟨z, ⟨o, re, t', d1, d2, d3, d4, d5, d6, d7⟩, hz⟩ := balanced_fine hall hr hm hA (hp auction hau)
    have : y = ⟨z.deals, z.gain, z.marketGain⟩ := did_unique ⟨t, b1, b2, b3, b4⟩ ⟨t', d2, d4, d6, d7⟩
    have hy2 : y.marketGain = y.gain := by rw [this]; exact hz
    show Fine n ⟨c.optimalDealsWithZero, y.deals, c.optimalGain, y.marketGain, y.marketGain⟩
    rw [hy2] at hg ⊢
    exact hg

theorem mkRow_predicted {name : String} {n : ℕ} {x : Measures} (hx : TrialFine n x) : RowAsPredicted (StockSizes.mkRow name n x) ∧ StockSizes.warnings x = 0 := by
  have h0 : pyRound2 (0 : ℚ) = 0 := by have := pyRound2_nat 0; simpa using this
  have h30 : pyRound3 (0 : ℚ) = 0 := by have := pyRound3_nat 0; simpa using this
  have h3100 : pyRound3 (100 : ℚ) = 100 := by have := pyRound3_nat 100; simpa using this
  refine ⟨⟨hx.count_le, hx.within, fun c hc => ?_⟩, ?_⟩
  · obtain ⟨a, ha, rfl⟩ := List.mem_map.1 hc
    have hf := hx.each a ha
    have hG : 0 ≤ x.optimalGft := le_trans hf.gain_nonneg hf.gain_le
    refine ⟨hf.deals_le, hf.one, ?_, ⟨?_, pyRound2_mono hf.gain_le⟩, ?_, ?_⟩
    · show 0 ≤ (if x.optimalCountWithZero = 0 then 0 else (pyInt ((a.1 : ℚ) / x.optimalCountWithZero * 100000) : ℚ) / 1000) ∧
        (if x.optimalCountWithZero = 0 then 0 else (pyInt ((a.1 : ℚ) / x.optimalCountWithZero * 100000) : ℚ) / 1000) ≤ 100
      split_ifs with hd
      · norm_num
      · have hpos : (0 : ℚ) ≤ (a.1 : ℚ) / x.optimalCountWithZero * 100 := by positivity
        obtain ⟨a1, -, a3⟩ := pyInt_cut hpos
        rw [show (a.1 : ℚ) / x.optimalCountWithZero * 100 * 1000 = (a.1 : ℚ) / x.optimalCountWithZero * 100000 by ring] at a1 a3
        refine ⟨a3, le_trans a1 ?_⟩
        have : (a.1 : ℚ) / x.optimalCountWithZero ≤ 1 := by
          apply div_le_one_of_le₀
          · exact_mod_cast hf.deals_le
          · positivity
        linarith
    · have := pyRound2_mono hf.gain_nonneg
      rwa [h0] at this
    · show 0 ≤ (if x.optimalGft = 0 then 0 else pyRound3 (a.2 / x.optimalGft * 100)) ∧
        (if x.optimalGft = 0 then 0 else pyRound3 (a.2 / x.optimalGft * 100)) ≤ 100
      split_ifs with hz
      · norm_num
      · have hpos : 0 < x.optimalGft := lt_of_le_of_ne hG (Ne.symm hz)
        have h1 : 0 ≤ a.2 / x.optimalGft * 100 := by
          have := div_nonneg hf.gain_nonneg hG
          positivity
        have h2 : a.2 / x.optimalGft * 100 ≤ 100 := by
          have : a.2 / x.optimalGft ≤ 1 := by rw [div_le_one hpos]; exact hf.gain_le
          linarith
        have h3 := pyRound3_mono h1
        have h4 := pyRound3_mono h2
        rw [h30] at h3
        rw [h3100] at h4
        exact ⟨h3, h4⟩
    · intro h1 h2
      have hz : x.optimalGft ≠ 0 := by
        intro h
        have h1' : 0 < pyRound2 x.optimalGft := h1
        rw [h, h0] at h1'
        exact absurd h1' (lt_irrefl _)
      have hpos : 0 < x.optimalGft := lt_of_le_of_ne hG (Ne.symm hz)
      show (1 - 1 / (x.optimalCountWithZero : ℚ)) * 100 - 1 / 2000 ≤ (if x.optimalGft = 0 then 0 else pyRound3 (a.2 / x.optimalGft * 100))
      rw [if_neg hz]
      have h3 := hf.gain_ge h2
      have h4 : (1 - 1 / (x.optimalCountWithZero : ℚ)) * 100 ≤ a.2 / x.optimalGft * 100 := by
        have : 1 - 1 / (x.optimalCountWithZero : ℚ) ≤ a.2 / x.optimalGft := by rw [le_div_iff₀ hpos]; exact h3
        linarith
      have h5 := (pyRound3_rounded (a.2 / x.optimalGft * 100)).1
      rw [abs_le] at h5
      linarith [h5.1]
  · unfold StockSizes.warnings
    rw [List.length_eq_zero_iff, List.filter_eq_nil_iff]
    intro a ha
    have := (hx.each a ha).deals_le
    simp only [gt_iff_lt, decide_eq_true_eq, not_lt]
    exact this

theorem usable_size {r : List ℕ} {stock : List (List ℚ)} {n : ℕ} (hpos : ∀ x ∈ r, 0 < x) (hr : r ≠ []) (hl : stock.length = r.length)
    (hlow : ∀ l ∈ stock, ∀ v ∈ l, -MAX_VALUE ≤ v) (hhigh : ∀ l ∈ stock, ∀ v ∈ l, (r.sum : ℚ) * v < MAX_VALUE) {m : Market} (h : MarketOfSize r stock n m) :
    Usable r (min n (stock.getD 0 []).length) (stock.map List.length).sum m := by
  obtain ⟨h1, h2⟩ := h
  have hlen : 0 < r.length := List.length_pos_iff.2 hr
  have hsub : ∀ j (hj : j < m.categories.length), ∃ l ∈ stock, l = stock.getD j [] ∧ m.categories[j].values.length ≤ l.length ∧
      (∀ v ∈ m.categories[j].values, v ∈ l) := by
    intro j hj
    have hj' : j < stock.length := by unfold Market.numCategories at h1; omega
    have h3 := h2 j hj'
    have e : m.valueLists.getD j [] = m.categories[j].values := by
      simp [Market.valueLists, List.getD_eq_getElem?_getD, List.getElem?_eq_getElem hj]
    have e2 : stock.getD j [] = stock[j] := by simp [List.getD_eq_getElem?_getD, List.getElem?_eq_getElem hj']
    rw [e] at h3
    refine ⟨stock.getD j [], by rw [e2]; exact List.getElem_mem _, rfl, ?_, fun v hv => ?_⟩
    · rw [h3.length_eq]
      split_ifs
      · rw [List.length_take]; omega
      · exact le_rfl
    · have := h3.subset hv
      split_ifs at this
      · exact List.mem_of_mem_take this
      · exact this
  refine ⟨by rw [h1, hl], ⟨0, by unfold Market.numCategories at h1; omega, ?_⟩, ?_, ?_, ?_⟩
  · have hc0 : 0 < m.categories.length := by unfold Market.numCategories at h1; omega
    have h3 := h2 0 (by omega)
    have e : m.valueLists.getD 0 [] = m.categories[0].values := by
      simp [Market.valueLists, List.getD_eq_getElem?_getD, List.getElem?_eq_getElem hc0]
    rw [e] at h3
    have hr0 : 0 < r.getD 0 0 := by
      rw [List.getD_eq_getElem?_getD, List.getElem?_eq_getElem hlen]
      exact hpos _ (List.getElem_mem _)
    unfold AgentCategory.size
    rw [h3.length_eq]
    split_ifs with hn
    · rw [min_eq_left hn, List.length_take, Nat.add_mul]
      omega
    · rw [min_eq_right (by omega)]
      generalize (stock.getD 0 []).length = L
      nlinarith
  · intro c hc v hv
    obtain ⟨j, hj, rfl⟩ := List.getElem_of_mem hc
    obtain ⟨l, h3, -, -, h4⟩ := hsub j hj
    exact hlow l h3 v (h4 v hv)
  · intro c hc v hv
    obtain ⟨j, hj, rfl⟩ := List.getElem_of_mem hc
    obtain ⟨l, h3, -, -, h4⟩ := hsub j hj
    exact hhigh l h3 v (h4 v hv)
  · unfold Market.numAgents Market.valueLists
    rw [List.map_map]
    refine List.Forall₂.sum_le_sum ?_
    rw [List.forall₂_iff_get]
    refine ⟨by simp only [List.length_map]; exact h1, fun j hj hj' => ?_⟩
    simp only [List.get_eq_getElem, List.getElem_map, Function.comp_apply]
    simp only [List.length_map] at hj hj'
    obtain ⟨l, -, rfl, h4, -⟩ := hsub j hj
    rwa [List.getD_eq_getElem?_getD, List.getElem?_eq_getElem hj', Option.getD_some] at h4

theorem marketOfSize_defined {r : List ℕ} {prices : List (List ℚ)} (n : ℕ) (hr : r ≠ []) (hl : prices.length = r.length) :
    ∃ cats m, categories (min n (prices.getD 0 []).length) (decide (min n (prices.getD 0 []).length < n)) r prices = .ok cats ∧ Market.init cats = .ok m := by
  have hne : ∀ cats : List AgentCategory, cats.length = prices.length → ∃ m, Market.init cats = .ok m := by
    intro cats hc
    cases cats with
    | nil => exact absurd (List.length_eq_zero_iff.1 (by rw [← hl, ← hc]; rfl)) hr
    | cons a b => exact ⟨⟨a :: b⟩, rfl⟩
  unfold categories
  split_ifs with hd
  · obtain ⟨m, hm⟩ := hne (prices.map (AgentCategory.init "agent")) (by simp)
    exact ⟨_, m, rfl, hm⟩
  · obtain ⟨cats, hc⟩ := slices_defined (n := min n (prices.getD 0 []).length) (r := r) 0 prices (by omega)
    obtain ⟨m, hm⟩ := hne cats (by rw [slices_ok 0 prices hc]; simp)
    exact ⟨cats, m, hc, hm⟩

theorem sized_fine {auctions : List AuctionFunction} {r : List ℕ} {names : List String} {i : ℕ} {prices : List (List ℚ)} (hi : i < names.length)
    (hpos : ∀ x ∈ r, 0 < x) (hr : r ≠ []) (hl : prices.length = r.length) (hlow : ∀ l ∈ prices, ∀ v ∈ l, -MAX_VALUE ≤ v)
    (hhigh : ∀ l ∈ prices, ∀ v ∈ l, (r.sum : ℚ) * v < MAX_VALUE) {A : ℕ} (hsum : (prices.map List.length).sum ≤ A) (hA : A ≤ 2000000)
    (hp : ∀ a ∈ auctions, Balanced A a) (last : Bool) (ns : List ℕ) :
    ∃ table, StockSizes.sizes auctions r names i prices last ns = .ok (some (table, 0)) ∧ ∀ row ∈ table, RowAsPredicted row := by
  induction ns generalizing last with
  | nil => exact ⟨[], rfl, by simp⟩
  | cons n ns ih =>
    have hlen : 0 < prices.length := by rw [hl]; exact List.length_pos_iff.2 hr
    have e : prices.getD 0 [] = prices[0] := by simp [List.getD_eq_getElem?_getD, List.getElem?_eq_getElem hlen]
    obtain ⟨cats, m, h1, h2⟩ := marketOfSize_defined n hr hl
    have hu := usable_size hpos hr hl hlow hhigh (marketOfSize_of h1 h2)
    obtain ⟨x, hx, hxf⟩ := trial_fine hpos hr (n := min n (prices.getD 0 []).length) (A := A)
      ⟨hu.length, hu.size, hu.low, hu.high, le_trans hu.agents hsum⟩ hA hp
    rw [StockSizes.sizes]
    by_cases hc : last = true ∧ min n (prices[0]).length < n
    · simp only [pyGet, List.getElem?_eq_getElem hlen, bind, Except.bind, hc, and_self, if_true]
      exact ⟨[], rfl, by simp⟩
    · obtain ⟨table, h3, h4⟩ := ih (last || decide (min n (prices[0]).length < n))
      have h5 := measure_iff.2 ⟨hx, List.getElem?_eq_getElem hi⟩
      obtain ⟨h6, h7⟩ := mkRow_predicted (name := names[i]) hxf
      rw [e] at h1 h6
      simp only [pyGet, List.getElem?_eq_getElem hlen, bind, Except.bind, hc, if_false, h1, h2, h5, h3, h7]
      refine ⟨_, rfl, ?_⟩
      intro row hrow
      rcases List.mem_cons.1 hrow with rfl | hrow
      · exact h6
      · exact h4 row hrow

/-- **C93**. On sensible prices, the comparison of strongly budget balanced auctions fills the table without a warning, whatever the sizes, and all entries are as theory predicts. -/
theorem sized_as_predicted {auctions : List AuctionFunction} {r : List ℕ} {stocks : List (List (List ℚ))} {names : List String}
    (hs : SensibleStocks r stocks names) (hp : ∀ a ∈ auctions, Balanced 2000000 a) (ns : List ℕ) :
    ∃ table, StockSizes.experiment auctions r ns stocks names = .ok (some (table, 0)) ∧ ∀ row ∈ table, RowAsPredicted row := by
  have gen : ∀ (rest : List (List (List ℚ))) (i : ℕ), (∀ s ∈ rest, s ∈ stocks) → i + rest.length ≤ names.length →
      ∃ table, StockSizes.stocks auctions r names ns i rest = .ok (some (table, 0)) ∧ ∀ row ∈ table, RowAsPredicted row := by
    intro rest
    induction rest with
    | nil => intro i _ _; exact ⟨[], rfl, by simp⟩
    | cons s ss ih =>
      intro i hin hlen
      simp only [List.length_cons] at hlen
      have hsm := hin s (by simp)
      obtain ⟨t2, h1, h2⟩ := ih (i + 1) (fun x hx => hin x (by simp [hx])) (by omega)
      obtain ⟨t1, h3, h4⟩ := sized_fine (auctions := auctions) (names := names) (i := i) (by omega) hs.positive hs.recipe (hs.categories s hsm)
        (hs.low s hsm) (hs.high s hsm) (hs.agents s hsm) le_rfl hp false ns
      refine ⟨t1 ++ t2, ?_, ?_⟩
      · rw [StockSizes.stocks]
        simp only [h3, h1, bind, Except.bind]
      · intro row hrow
        rcases List.mem_append.1 hrow with h | h
        · exact h4 row h
        · exact h2 row h
  exact gen stocks 0 (fun _ h => h) (by have := hs.names; omega)

/-! ## What the table does not say -/

/-- The two auctions of the script. -/
def sbbAuctions : List AuctionFunction := [fun m r => (tradeReduction m r).map some, fun m r => auction m r 2000001]

/-- **C93**. The column `num_possible_trades` does not take the first count of the recipe into account: four buyers and two sellers, with recipe (2,1), are two
procurement-sets. For size 3 the table says 3, and for size 9 it says 4. The prices are the same in all three rows, and so is the rest of the row. -/
theorem sized_possible_trades :
    ∃ k k0 g cols, StockSizes.experiment sbbAuctions [2, 1] [2, 3, 9] [[[10, 10, 8, 8], [-1, -2]]] ["A"] =
      .ok (some ([⟨"A", 2, k, k0, g, cols⟩, ⟨"A", 3, k, k0, g, cols⟩, ⟨"A", 4, k, k0, g, cols⟩], 0)) :=
  ⟨2, 2, 33, [⟨1, 50, 37 / 2, 56061 / 1000⟩, ⟨1, 50, 1717 / 100, 2601 / 50⟩], by decide +kernel⟩

/-- Non-vacuity of C93: sizes that fit, the first one that is too large, and the end of the list at the next one. -/
example : SensibleStocks [2, 1] [[[10, 10, 8, 8], [-1, -2]]] ["A"] ∧ (∀ a ∈ sbbAuctions, Balanced 2000000 a) ∧ shownSizes 4 [2, 3, 9, 1, 7, 2] = [2, 3, 9, 1] :=
  ⟨⟨by decide, by decide, by decide, by decide +kernel, by decide +kernel, by decide +kernel, by decide +kernel⟩,
    by
      intro a ha
      simp only [sbbAuctions, List.mem_cons, List.not_mem_nil, or_false] at ha
      rcases ha with rfl | rfl
      · exact .reduction
      · exact .ascending _ (by norm_num),
    by decide⟩

end Auctions.Props
