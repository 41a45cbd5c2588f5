import Verif.Spec.StockExperiment
import Verif.Props.Experiment

set_option autoImplicit false

/-!
# C77: the experiment with stock prices
-/

namespace Auctions.Props

open Auctions Spec Ascending TradeReduction McAfee
open Auctions.Experiment (AuctionFunction)
open Auctions.StockExperiment (shares stockRow)

theorem pyRound3_mono {x y : ℚ} (h : x ≤ y) : pyRound3 x ≤ pyRound3 y := by
  unfold pyRound3
  have : (pyRound (x * 1000) : ℚ) ≤ (pyRound (y * 1000) : ℚ) := by exact_mod_cast pyRound_mono (by linarith)
  linarith

theorem pyRound3_rounded (x : ℚ) : Rounded3 x (pyRound3 x) := by
  have h := pyRound_near (x * 1000)
  rw [abs_le] at h
  refine ⟨?_, pyRound (x * 1000), by unfold pyRound3; ring⟩
  unfold pyRound3
  rw [abs_le]
  constructor <;> linarith [h.1, h.2]

theorem pyRound3_nat (n : ℕ) : pyRound3 n = n := by
  unfold pyRound3
  have : (n : ℚ) * 1000 = ((n * 1000 : ℤ) : ℚ) := by push_cast; ring
  rw [this, pyRound_int]
  push_cast
  ring

theorem foldl_min (l : List ℚ) (x : ℚ) : l.foldl min x ≤ x ∧ (∀ y ∈ l, l.foldl min x ≤ y) ∧ (l.foldl min x = x ∨ l.foldl min x ∈ l) := by
  induction l generalizing x with
  | nil => simp
  | cons a l ih =>
    obtain ⟨h1, h2, h3⟩ := ih (min x a)
    rw [List.foldl_cons]
    refine ⟨le_trans h1 (min_le_left _ _), ?_, ?_⟩
    · intro y hy
      rcases List.mem_cons.1 hy with rfl | hy
      · exact le_trans h1 (min_le_right _ _)
      · exact h2 y hy
    · rcases h3 with h3 | h3
      · rcases min_choice x a with h | h
        · left; rw [h3, h]
        · right; rw [h3, h]; simp
      · right; exact List.mem_cons_of_mem _ h3

theorem shares_ok {r : List ℕ} (j : ℕ) (prices : List (List ℚ)) {l : List ℚ} (h : shares r j prices = .ok l) :
    l.length = prices.length ∧ ∀ i (hi : i < prices.length), ∃ hi' : i < l.length, r.getD (j + i) 0 ≠ 0 ∧
      l[i] = ((prices[i].length : ℚ) / (r.getD (j + i) 0 : ℕ)) := by
  induction prices generalizing j l with
  | nil => simp only [shares, Except.ok.injEq] at h; subst h; simp
  | cons p ps ih =>
    rw [shares] at h
    obtain ⟨c, hc, h⟩ := bind_ok_iff.1 h
    obtain ⟨s, hs, h⟩ := bind_ok_iff.1 h
    obtain ⟨rest, hrest, h⟩ := bind_ok_iff.1 h
    simp only [Except.ok.injEq] at h
    subst h
    obtain ⟨h1, h2⟩ := ih (j + 1) hrest
    have hcd : r.getD j 0 = c := by
      rw [pyGet] at hc
      rcases hg : r[j]? with _ | v
      · rw [hg] at hc; simp at hc
      · rw [hg] at hc
        simp only [Except.ok.injEq] at hc
        rw [List.getD_eq_getElem?_getD, hg, ← hc]; rfl
    refine ⟨by simp [h1], fun i hi => ?_⟩
    cases i with
    | zero =>
      refine ⟨by simp, ?_⟩
      simp only [Nat.add_zero, List.getElem_cons_zero]
      rw [hcd]
      unfold pyDiv at hs
      split_ifs at hs with h0
      exact ⟨by exact_mod_cast h0, (Except.ok.inj hs).symm⟩
    | succ i =>
      obtain ⟨a, b, c⟩ := h2 i (by simpa using hi)
      refine ⟨by simpa using a, ?_⟩
      rw [show j + (i + 1) = j + 1 + i by ring]
      exact ⟨b, by simpa using c⟩

theorem possible_of_shares {r : List ℕ} {prices : List (List ℚ)} {l : List ℚ} {q : ℚ} (h : shares r 0 prices = .ok l) (hq : StockExperiment.pyMin l = .ok q) :
    Possible r prices q := by
  obtain ⟨h1, h2⟩ := shares_ok 0 prices h
  simp only [Nat.zero_add] at h2
  cases l with
  | nil => simp [StockExperiment.pyMin] at hq
  | cons a l =>
    simp only [StockExperiment.pyMin, Except.ok.injEq] at hq
    obtain ⟨g1, g2, g3⟩ := foldl_min l a
    rw [hq] at g1 g2 g3
    have hmem : ∀ y ∈ a :: l, q ≤ y := by
      intro y hy
      rcases List.mem_cons.1 hy with rfl | hy
      · exact g1
      · exact g2 y hy
    have hin : q ∈ a :: l := by
      rcases g3 with rfl | g3
      · simp
      · exact List.mem_cons_of_mem _ g3
    constructor
    · intro j hj
      obtain ⟨hj', h0, he⟩ := h2 j hj
      have h3 := hmem _ (List.getElem_mem hj')
      rw [he] at h3
      rw [List.getD_eq_getElem?_getD (l := prices), List.getElem?_eq_getElem hj, Option.getD_some]
      have hpos : (0 : ℚ) < (r.getD j 0 : ℕ) := by exact_mod_cast Nat.pos_of_ne_zero h0
      exact (le_div_iff₀ hpos).1 h3
    · obtain ⟨j, hj, he⟩ := List.getElem_of_mem hin
      have hj' : j < prices.length := by omega
      obtain ⟨hj2, h0, he2⟩ := h2 j hj'
      refine ⟨j, hj', ?_⟩
      rw [List.getD_eq_getElem?_getD (l := prices), List.getElem?_eq_getElem hj', Option.getD_some, ← he, he2]
      have hpos : ((r.getD j 0 : ℕ) : ℚ) ≠ 0 := by exact_mod_cast h0
      field_simp

/-- The cut to three decimals. -/
theorem pyInt_cut {x : ℚ} (h : 0 ≤ x) : (pyInt (x * 1000) : ℚ) / 1000 ≤ x ∧ x < (pyInt (x * 1000) : ℚ) / 1000 + 1 / 1000 ∧
    0 ≤ (pyInt (x * 1000) : ℚ) / 1000 := by
  have h0 : (0 : ℚ) ≤ x * 1000 := by positivity
  rw [pyInt, if_pos h0]
  have h1 := Int.floor_le (x * 1000)
  have h2 := Int.lt_floor_add_one (x * 1000)
  have h3 : (0 : ℤ) ≤ ⌊x * 1000⌋ := Int.floor_nonneg.2 h0
  have h4 : (0 : ℚ) ≤ ⌊x * 1000⌋ := by exact_mod_cast h3
  refine ⟨by linarith, by linarith, by positivity⟩

theorem stockRow_ok {A : AuctionFunction} {r : List ℕ} {names : List String} {i : ℕ} {prices : List (List ℚ)} {row : StockExperiment.Row} {w : Bool}
    (h : stockRow A r names i prices = .ok (some (row, w))) :
    ∃ m q x name, Market.init (prices.map (AgentCategory.init "agent")) = .ok m ∧ Measured A r m x ∧ names[i]? = some name ∧
      Possible r prices q ∧ w = decide (x.optimalDeals < x.deals) ∧ row =
      { stockName := name
        numPossibleTrades := pyRound q
        optimalCount := x.optimalDeals
        auctionCount := x.deals
        countRatio := if x.optimalDeals = 0 then 0 else (pyInt ((x.deals : ℚ) / x.optimalDeals * 100000) : ℚ) / 1000
        optimalGft := pyRound2 x.optimalGain
        auctionGft := pyRound2 x.gain
        auctionGftRatio := if x.optimalGain = 0 then 0 else pyRound3 (x.gain / x.optimalGain * 100)
        auctionMarketGft := pyRound2 x.marketGain
        marketGftRatio := if x.optimalGain = 0 then 0 else pyRound3 (x.marketGain / x.optimalGain * 100) } := by
  rw [stockRow] at h
  obtain ⟨m, hm, h⟩ := bind_ok_iff.1 h
  obtain ⟨l, hl, h⟩ := bind_ok_iff.1 h
  obtain ⟨q, hq, h⟩ := bind_ok_iff.1 h
  obtain ⟨⟨opt, rem⟩, ho, h⟩ := bind_ok_iff.1 h
  obtain ⟨t, ht, h⟩ := bind_ok_iff.1 h
  cases t with
  | none => simp at h
  | some t =>
    obtain ⟨g, hg, h⟩ := bind_ok_iff.1 h
    obtain ⟨gm, hgm, h⟩ := bind_ok_iff.1 h
    obtain ⟨name, hname, h⟩ := bind_ok_iff.1 h
    simp only [Except.ok.injEq, Option.some.injEq, Prod.mk.injEq] at h
    have hn : names[i]? = some name := by
      rw [pyGet] at hname
      rcases hg : names[i]? with _ | v
      · rw [hg] at hname; simp at hname
      · rw [hg] at hname
        simp only [Except.ok.injEq] at hname
        rw [hname]
    exact ⟨m, q, ⟨opt.numOfDeals, t.numOfDeals, opt.gainFromTrade, g, gm⟩, name, hm, ⟨opt, rem, t, ho, ht, rfl, rfl, rfl, hg, hgm⟩, hn,
      possible_of_shares hl hq, h.2.symm, h.1.symm⟩

theorem stock_rows {A : AuctionFunction} {r : List ℕ} {names : List String} (i : ℕ) (stocks : List (List (List ℚ))) {table : List StockExperiment.Row} {w : ℕ}
    (h : StockExperiment.rows A r names i stocks = .ok (some (table, w))) :
    ∃ warn : ℕ → Bool, ∃ hl : table.length = stocks.length, (∀ j (hj : j < stocks.length),
      stockRow A r names (i + j) stocks[j] = .ok (some (table[j], warn j))) ∧ w = (List.range stocks.length).countP warn := by
  induction stocks generalizing i table w with
  | nil =>
    simp only [StockExperiment.rows, Except.ok.injEq, Option.some.injEq, Prod.mk.injEq] at h
    obtain ⟨rfl, rfl⟩ := h
    exact ⟨fun _ => false, rfl, by simp, by simp⟩
  | cons s ss ih =>
    rw [StockExperiment.rows] at h
    obtain ⟨o, ho, h⟩ := bind_ok_iff.1 h
    cases o with
    | none => simp at h
    | some x =>
      obtain ⟨row, b⟩ := x
      obtain ⟨o2, ho2, h⟩ := bind_ok_iff.1 h
      cases o2 with
      | none => simp at h
      | some y =>
        obtain ⟨t2, w2⟩ := y
        simp only [Except.ok.injEq, Option.some.injEq, Prod.mk.injEq] at h
        obtain ⟨rfl, rfl⟩ := h
        obtain ⟨warn, hl, h1, h2⟩ := ih (i + 1) ho2
        refine ⟨fun j => match j with | 0 => b | j + 1 => warn j, by simp [hl], ?_, ?_⟩
        · intro j hj
          cases j with
          | zero => simpa using ho
          | succ j =>
            have := h1 j (by simpa using hj)
            rw [show i + 1 + j = i + (j + 1) by ring] at this
            simpa using this
        · rw [h2, List.length_cons, List.range_succ_eq_map, List.countP_cons, List.countP_map]
          rw [Nat.add_comm]
          rfl

/-- **C77**. Whatever the prices and the auction: when `experiment` returns, the table has a row for each stock, with its name, that reports the
measurement on the market whose categories are the price lists of the stock; and there is one warning for each stock for which the auction
does more deals than the optimal trade. -/
theorem stock_columns {A : AuctionFunction} {r : List ℕ} {stocks : List (List (List ℚ))} {names : List String} {table : List StockExperiment.Row} {w : ℕ}
    (h : StockExperiment.experiment A r stocks names = .ok (some (table, w))) :
    ∃ X : ℕ → Measurement, ∃ hl : table.length = stocks.length, (∀ j (hj : j < stocks.length), ∃ hn : j < names.length,
      (∃ m : Market, m.valueLists = stocks[j].map sortDesc ∧ Measured A r m (X j)) ∧ StockReports table[j] names[j] r stocks[j] (X j)) ∧
      w = (List.range stocks.length).countP (fun j => (X j).optimalDeals < (X j).deals) := by
  obtain ⟨warn, hl, h1, h2⟩ := stock_rows 0 stocks h
  have key : ∀ j, ∃ x : Measurement, ∀ hj : j < stocks.length, (∃ hn : j < names.length,
      (∃ m : Market, m.valueLists = stocks[j].map sortDesc ∧ Measured A r m x) ∧ StockReports table[j] names[j] r stocks[j] x) ∧
      warn j = decide (x.optimalDeals < x.deals) := by
    intro j
    by_cases hj : j < stocks.length
    · have hrow := h1 j hj
      rw [Nat.zero_add] at hrow
      obtain ⟨m, q, x, name, hm, hx, hn, hq, hw, he⟩ := stockRow_ok hrow
      have hnl : j < names.length := (List.getElem?_eq_some_iff.1 hn).1
      have hne : names[j] = name := (List.getElem?_eq_some_iff.1 hn).2
      refine ⟨x, fun _ => ⟨⟨hnl, ⟨m, ?_, hx⟩, ?_⟩, hw⟩⟩
      · unfold Market.init at hm
        split at hm
        · simp at hm
        · simp only [Except.ok.injEq] at hm
          subst hm
          simp [Market.valueLists, AgentCategory.init, Function.comp_def]
      · rw [he, hne]
        refine ⟨rfl, ⟨q, hq, pyRound_near q⟩, rfl, rfl, ?_, pyRound2_rounded _, pyRound2_rounded _, pyRound2_rounded _, ?_, ?_⟩
        · by_cases h0 : x.optimalDeals = 0
          · simp [h0]
          · have hpos : (0 : ℚ) ≤ (x.deals : ℚ) / x.optimalDeals * 100 := by positivity
            obtain ⟨a1, a2, -⟩ := pyInt_cut hpos
            rw [show (x.deals : ℚ) / x.optimalDeals * 100 * 1000 = (x.deals : ℚ) / x.optimalDeals * 100000 by ring] at a1 a2
            simp only [h0, if_false]
            exact ⟨a1, a2⟩
        · by_cases h0 : x.optimalGain = 0
          · simp [h0]
          · simp only [h0, if_false]; exact pyRound3_rounded _
        · by_cases h0 : x.optimalGain = 0
          · simp [h0]
          · simp only [h0, if_false]; exact pyRound3_rounded _
    · exact ⟨⟨0, 0, 0, 0, 0⟩, fun hj' => absurd hj' hj⟩
  choose X hX using key
  refine ⟨X, hl, fun j hj => (hX j hj).1, ?_⟩
  rw [h2]
  apply List.countP_congr
  intro j hj
  rw [(hX j (List.mem_range.1 hj)).2]

/-! ## What theory predicts -/

theorem stock_row_as_predicted {n : ℕ} {q : ℚ} {x : Measurement} {name : String} (hx : Fine n x) (hn : (n : ℚ) ≤ q) :
    StockAsPredicted
      { stockName := name
        numPossibleTrades := pyRound q
        optimalCount := x.optimalDeals
        auctionCount := x.deals
        countRatio := if x.optimalDeals = 0 then 0 else (pyInt ((x.deals : ℚ) / x.optimalDeals * 100000) : ℚ) / 1000
        optimalGft := pyRound2 x.optimalGain
        auctionGft := pyRound2 x.gain
        auctionGftRatio := if x.optimalGain = 0 then 0 else pyRound3 (x.gain / x.optimalGain * 100)
        auctionMarketGft := pyRound2 x.marketGain
        marketGftRatio := if x.optimalGain = 0 then 0 else pyRound3 (x.marketGain / x.optimalGain * 100) } := by
  have hG : 0 ≤ x.optimalGain := le_trans hx.gain_nonneg hx.gain_le
  have h0 : pyRound2 (0 : ℚ) = 0 := by have := pyRound2_nat 0; simpa using this
  have h30 : pyRound3 (0 : ℚ) = 0 := by have := pyRound3_nat 0; simpa using this
  have h3100 : pyRound3 (100 : ℚ) = 100 := by have := pyRound3_nat 100; simpa using this
  have hc : 0 ≤ (if x.optimalDeals = 0 then 0 else (pyInt ((x.deals : ℚ) / x.optimalDeals * 100000) : ℚ) / 1000) ∧
      (if x.optimalDeals = 0 then 0 else (pyInt ((x.deals : ℚ) / x.optimalDeals * 100000) : ℚ) / 1000) ≤ 100 := by
    split_ifs with hd
    · norm_num
    · have hpos : (0 : ℚ) ≤ (x.deals : ℚ) / x.optimalDeals * 100 := by positivity
      obtain ⟨a1, -, a3⟩ := pyInt_cut hpos
      rw [show (x.deals : ℚ) / x.optimalDeals * 100 * 1000 = (x.deals : ℚ) / x.optimalDeals * 100000 by ring] at a1 a3
      refine ⟨a3, le_trans a1 ?_⟩
      have : (x.deals : ℚ) / x.optimalDeals ≤ 1 := by
        apply div_le_one_of_le₀
        · exact_mod_cast hx.deals_le
        · positivity
      linarith
  refine ⟨hx.deals_le, hx.one, ?_, hc, ⟨?_, pyRound2_mono hx.gain_le⟩, ?_, ?_, pyRound2_mono hx.market_le, ?_⟩
  · have h1 : ((n : ℤ) : ℚ) ≤ q := by exact_mod_cast hn
    have h2 := pyRound_mono h1
    rw [pyRound_int] at h2
    have h3 : (x.optimalDeals : ℤ) ≤ n := by exact_mod_cast hx.within
    exact le_trans h3 h2
  · have := pyRound2_mono hx.gain_nonneg
    rwa [h0] at this
  · show 0 ≤ (if x.optimalGain = 0 then 0 else pyRound3 (x.gain / x.optimalGain * 100)) ∧
      (if x.optimalGain = 0 then 0 else pyRound3 (x.gain / x.optimalGain * 100)) ≤ 100
    split_ifs with hz
    · norm_num
    · have hpos : 0 < x.optimalGain := lt_of_le_of_ne hG (Ne.symm hz)
      have h1 : 0 ≤ x.gain / x.optimalGain * 100 := by
        have := div_nonneg hx.gain_nonneg hG
        positivity
      have h2 : x.gain / x.optimalGain * 100 ≤ 100 := by
        have : x.gain / x.optimalGain ≤ 1 := by rw [div_le_one hpos]; exact hx.gain_le
        linarith
      have h3 := pyRound3_mono h1
      have h4 := pyRound3_mono h2
      rw [h30] at h3
      rw [h3100] at h4
      exact ⟨h3, h4⟩
  · intro h1 h2
    have hz : x.optimalGain ≠ 0 := by
      intro h
      simp only [h, h0] at h1
      exact absurd h1 (lt_irrefl _)
    have hpos : 0 < x.optimalGain := lt_of_le_of_ne hG (Ne.symm hz)
    show _ ≤ (if x.optimalGain = 0 then 0 else pyRound3 (x.gain / x.optimalGain * 100))
    rw [if_neg hz]
    have h3 := hx.gain_ge h2
    have h4 : (1 - 1 / (x.optimalDeals : ℚ)) * 100 ≤ x.gain / x.optimalGain * 100 := by
      have : 1 - 1 / (x.optimalDeals : ℚ) ≤ x.gain / x.optimalGain := by rw [le_div_iff₀ hpos]; exact h3
      linarith
    have h5 := (pyRound3_rounded (x.gain / x.optimalGain * 100)).1
    rw [abs_le] at h5
    show (1 - 1 / (x.optimalDeals : ℚ)) * 100 - 1 / 2000 ≤ _
    linarith [h5.1]
  · show (if x.optimalGain = 0 then 0 else pyRound3 (x.marketGain / x.optimalGain * 100)) ≤ (if x.optimalGain = 0 then 0 else _)
    split_ifs with hz
    · exact le_refl _
    · have hpos : 0 < x.optimalGain := lt_of_le_of_ne hG (Ne.symm hz)
      apply pyRound3_mono
      have : x.marketGain / x.optimalGain ≤ x.gain / x.optimalGain := by
        rw [div_le_div_iff_of_pos_right hpos]; exact hx.market_le
      linarith

theorem shares_defined {r : List ℕ} (hpos : ∀ x ∈ r, 0 < x) (j : ℕ) (prices : List (List ℚ)) (h : j + prices.length ≤ r.length) :
    ∃ l, shares r j prices = .ok l := by
  induction prices generalizing j with
  | nil => exact ⟨[], rfl⟩
  | cons p ps ih =>
    simp only [List.length_cons] at h
    obtain ⟨l, hl⟩ := ih (j + 1) (by omega)
    have hj : j < r.length := by omega
    have h0 : ((r[j] : ℕ) : ℚ) ≠ 0 := by exact_mod_cast (hpos _ (List.getElem_mem hj)).ne'
    refine ⟨(p.length : ℚ) / (r[j] : ℕ) :: l, ?_⟩
    rw [shares]
    simp only [pyGet, List.getElem?_eq_getElem hj, pyDiv, h0, if_false, hl, bind, Except.bind]

theorem usable_stock {r : List ℕ} {stock : List (List ℚ)} {q : ℚ} (hpos : ∀ x ∈ r, 0 < x) (hr : r ≠ []) (hl : stock.length = r.length)
    (hlow : ∀ l ∈ stock, ∀ v ∈ l, -MAX_VALUE ≤ v) (hhigh : ∀ l ∈ stock, ∀ v ∈ l, (r.sum : ℚ) * v < MAX_VALUE) (hq : Possible r stock q) :
    ∃ m, Market.init (stock.map (AgentCategory.init "agent")) = .ok m ∧ Usable r ⌊q⌋.toNat (stock.map List.length).sum m ∧ ((⌊q⌋.toNat : ℕ) : ℚ) ≤ q := by
  have hne : stock.map (AgentCategory.init "agent") ≠ [] := by
    intro h
    have := congrArg List.length h
    simp only [List.length_map, List.length_nil] at this
    exact hr (List.length_eq_zero_iff.1 (by omega))
  refine ⟨⟨stock.map (AgentCategory.init "agent")⟩, ?_, ?_, ?_⟩
  · unfold Market.init
    cases h : stock.map (AgentCategory.init "agent") with
    | nil => exact absurd h hne
    | cons a b => rfl
  · have hval : ∀ c ∈ stock.map (AgentCategory.init "agent"), ∃ l ∈ stock, ∀ v ∈ c.values, v ∈ l := by
      intro c hc
      obtain ⟨l, hlm, rfl⟩ := List.mem_map.1 hc
      exact ⟨l, hlm, fun v hv => (sortDesc_perm l).subset hv⟩
    obtain ⟨hq1, j, hj, hqj⟩ := hq
    refine ⟨by simp [Market.numCategories, hl], ⟨j, by simpa using hj, ?_⟩, ?_, ?_, ?_⟩
    · have hrj : 0 < r.getD j 0 := by
        rw [List.getD_eq_getElem?_getD, List.getElem?_eq_getElem (by omega)]
        exact hpos _ (List.getElem_mem _)
      rw [List.getD_eq_getElem?_getD (l := stock), List.getElem?_eq_getElem hj, Option.getD_some] at hqj
      have hsz : (AgentCategory.init "agent" stock[j]).size = stock[j].length := (sortDesc_perm _).length_eq
      simp only [List.getElem_map, hsz]
      have h1 := Int.lt_floor_add_one q
      have h2 : (⌊q⌋ : ℚ) ≤ ((⌊q⌋.toNat : ℕ) : ℚ) := by
        have : ⌊q⌋ ≤ ((⌊q⌋.toNat : ℕ) : ℤ) := Int.self_le_toNat _
        exact_mod_cast this
      have h3 : ((stock[j].length : ℕ) : ℚ) < (((⌊q⌋.toNat + 1) * r.getD j 0 : ℕ) : ℚ) := by
        rw [← hqj]
        push_cast
        have : (0 : ℚ) < (r.getD j 0 : ℕ) := by exact_mod_cast hrj
        exact mul_lt_mul_of_pos_right (by linarith) this
      exact_mod_cast h3
    · intro c hc v hv
      obtain ⟨l, h1, h2⟩ := hval c hc
      exact hlow l h1 v (h2 v hv)
    · intro c hc v hv
      obtain ⟨l, h1, h2⟩ := hval c hc
      exact hhigh l h1 v (h2 v hv)
    · apply le_of_eq
      unfold Market.numAgents Market.valueLists
      simp only [List.map_map]
      congr 1
      apply List.map_congr_left
      intro l _
      exact (sortDesc_perm l).length_eq
  · obtain ⟨hq1, j, hj, hqj⟩ := hq
    have hrj : (0 : ℚ) < (r.getD j 0 : ℕ) := by
      have : 0 < r.getD j 0 := by
        rw [List.getD_eq_getElem?_getD, List.getElem?_eq_getElem (by omega)]
        exact hpos _ (List.getElem_mem _)
      exact_mod_cast this
    have hq0 : 0 ≤ q := by
      by_contra hc
      push Not at hc
      have h1 := mul_neg_of_neg_of_pos hc hrj
      have h2 : (0 : ℚ) ≤ ((stock.getD j []).length : ℚ) := by positivity
      linarith
    have h1 := Int.floor_nonneg.2 hq0
    have h2 := Int.floor_le q
    have h3 : ((⌊q⌋.toNat : ℕ) : ℚ) = ((⌊q⌋ : ℤ) : ℚ) := by
      have : ((⌊q⌋.toNat : ℕ) : ℤ) = ⌊q⌋ := Int.toNat_of_nonneg h1
      exact_mod_cast this
    rw [h3]
    exact h2

theorem stock_of_fine {A : AuctionFunction} {r : List ℕ} {stocks : List (List (List ℚ))} {names : List String} (hs : SensibleStocks r stocks names)
    (E : Measurement → Prop)
    (hfine : ∀ s ∈ stocks, ∀ n, ∀ m : Market, Usable r n (s.map List.length).sum m → ∃ x, Measured A r m x ∧ Fine n x ∧ E x) :
    ∃ table, StockExperiment.experiment A r stocks names = .ok (some (table, 0)) ∧ ∃ hl : table.length = stocks.length, ∀ j (hj : j < stocks.length),
      StockAsPredicted table[j] ∧ ((∀ x, E x → x.marketGain = x.gain) →
        table[j].auctionMarketGft = table[j].auctionGft ∧ table[j].marketGftRatio = table[j].auctionGftRatio) := by
  have one : ∀ s ∈ stocks, ∀ i < names.length, ∃ row, stockRow A r names i s = .ok (some (row, false)) ∧ StockAsPredicted row ∧
      ((∀ x, E x → x.marketGain = x.gain) → row.auctionMarketGft = row.auctionGft ∧ row.marketGftRatio = row.auctionGftRatio) := by
    intro s hsm i hi
    obtain ⟨l, hl⟩ := shares_defined hs.positive 0 s (by have := hs.categories s hsm; omega)
    obtain ⟨h1, -⟩ := shares_ok 0 s hl
    have hlne : l ≠ [] := by
      intro h
      rw [h] at h1
      have h2 := hs.categories s hsm
      rw [← h1] at h2
      exact hs.recipe (List.length_eq_zero_iff.1 h2.symm)
    obtain ⟨q, hq⟩ : ∃ q, StockExperiment.pyMin l = .ok q := by
      cases l with
      | nil => exact absurd rfl hlne
      | cons a l => exact ⟨_, rfl⟩
    obtain ⟨m, hm, hu, hle⟩ := usable_stock hs.positive hs.recipe (hs.categories s hsm) (hs.low s hsm) (hs.high s hsm) (possible_of_shares hl hq)
    obtain ⟨x, hx, hf, hex⟩ := hfine s hsm _ m hu
    have hxx := hx
    obtain ⟨opt, rem, t, a1, a2, a3, a4, a5, a6, a7⟩ := hxx
    have hrow : ∃ row, stockRow A r names i s = .ok (some (row, false)) := by
      have hd : decide (opt.numOfDeals < t.numOfDeals) = false := decide_eq_false (by rw [← a3, ← a4]; exact not_lt.2 hf.deals_le)
      rw [stockRow]
      simp only [hm, hl, hq, a1, a2, a6, a7, pyGet, List.getElem?_eq_getElem hi, bind, Except.bind, hd]
      exact ⟨_, rfl⟩
    obtain ⟨row, hrow⟩ := hrow
    refine ⟨row, hrow, ?_⟩
    obtain ⟨m', q', x', name, b1, b2, b3, b4, b5, b6⟩ := stockRow_ok hrow
    rw [hm] at b1
    obtain rfl := Except.ok.inj b1
    obtain rfl := measured_unique hx b2
    have hqq : q' = q := by
      have e1 := possible_of_shares hl hq
      obtain ⟨c1, j, hj, c2⟩ := e1
      obtain ⟨d1, j', hj', d2⟩ := b4
      have hrp : ∀ j < s.length, (0 : ℚ) < (r.getD j 0 : ℕ) := by
        intro j hj
        have : 0 < r.getD j 0 := by
          rw [List.getD_eq_getElem?_getD, List.getElem?_eq_getElem (by have := hs.categories s hsm; omega)]
          exact hs.positive _ (List.getElem_mem _)
        exact_mod_cast this
      have f1 := d1 j hj
      rw [← c2] at f1
      have f2 := c1 j' hj'
      rw [← d2] at f2
      exact le_antisymm (le_of_mul_le_mul_right f1 (hrp j hj)) (le_of_mul_le_mul_right f2 (hrp j' hj'))
    rw [hqq] at b6
    rw [b6]
    refine ⟨stock_row_as_predicted hf hle, fun hE => ?_⟩
    have := hE x hex
    simp only [this, and_self]
  have gen : ∀ (rest : List (List (List ℚ))) (i : ℕ), (∀ s ∈ rest, s ∈ stocks) → i + rest.length ≤ names.length →
      ∃ table, StockExperiment.rows A r names i rest = .ok (some (table, 0)) ∧ ∃ hl : table.length = rest.length, ∀ j (hj : j < rest.length),
      StockAsPredicted table[j] ∧ ((∀ x, E x → x.marketGain = x.gain) →
        table[j].auctionMarketGft = table[j].auctionGft ∧ table[j].marketGftRatio = table[j].auctionGftRatio) := by
    intro rest
    induction rest with
    | nil => intro i _ _; exact ⟨[], rfl, rfl, fun j hj => absurd hj (by simp)⟩
    | cons s ss ih =>
      intro i hin hlen
      simp only [List.length_cons] at hlen
      obtain ⟨table, h1, hl, h2⟩ := ih (i + 1) (fun x hx => hin x (by simp [hx])) (by omega)
      obtain ⟨row, h3, h4⟩ := one s (hin s (by simp)) i (by omega)
      refine ⟨row :: table, ?_, by simp [hl], ?_⟩
      · rw [StockExperiment.rows]
        simp only [h3, h1, bind, Except.bind]
        rfl
      · intro j hj
        cases j with
        | zero => simpa using h4
        | succ j => simpa using h2 j (by simpa using hj)
  exact gen stocks 0 (fun _ h => h) (by have := hs.names; omega)

/-- **C77**. The experiment on the ascending auction: whatever the prices, the table is filled without a warning, every row is as theory predicts, and the
traders get the whole gain. -/
theorem stock_ascending {r : List ℕ} {stocks : List (List (List ℚ))} {names : List String} {fuel : ℕ} (hs : SensibleStocks r stocks names)
    (hf : ∀ s ∈ stocks, (s.map List.length).sum < fuel) :
    ∃ table, StockExperiment.experiment (fun m r => auction m r fuel) r stocks names = .ok (some (table, 0)) ∧
      ∃ hl : table.length = stocks.length, ∀ j (hj : j < stocks.length), StockAsPredicted table[j] ∧
        table[j].auctionMarketGft = table[j].auctionGft ∧ table[j].marketGftRatio = table[j].auctionGftRatio := by
  obtain ⟨table, h1, hl, h2⟩ := stock_of_fine (A := fun m r => auction m r fuel) hs (fun x => x.marketGain = x.gain)
    (fun s hsm n m hm => ascending_fine hs.positive hs.recipe hm (hs.agents s hsm) (hf s hsm))
  exact ⟨table, h1, hl, fun j hj => ⟨(h2 j hj).1, (h2 j hj).2 fun _ h => h⟩⟩

/-- **C77**. The same for trade reduction by external competition. -/
theorem stock_trade_reduction {r : List ℕ} {stocks : List (List (List ℚ))} {names : List String} (hs : SensibleStocks r stocks names) :
    ∃ table, StockExperiment.experiment (fun m r => (tradeReduction m r).map some) r stocks names = .ok (some (table, 0)) ∧
      ∃ hl : table.length = stocks.length, ∀ j (hj : j < stocks.length), StockAsPredicted table[j] ∧
        table[j].auctionMarketGft = table[j].auctionGft ∧ table[j].marketGftRatio = table[j].auctionGftRatio := by
  obtain ⟨table, h1, hl, h2⟩ := stock_of_fine (A := fun m r => (tradeReduction m r).map some) hs (fun x => x.marketGain = x.gain)
    (fun s hsm n m hm => trade_reduction_fine hs.positive hs.recipe hm (hs.agents s hsm))
  exact ⟨table, h1, hl, fun j hj => ⟨(h2 j hj).1, (h2 j hj).2 fun _ h => h⟩⟩

/-- **C77**. McAfee's protocol, with two categories or without its price heuristic. -/
theorem stock_mcafee {c : ℕ} {b : Bool} (hcase : b = false ∨ c = 2) {stocks : List (List (List ℚ))} {names : List String}
    (hs : SensibleStocks (List.replicate c 1) stocks names) :
    ∃ table, StockExperiment.experiment (fun m r => (mcafeeTradeReduction m r b).map some) (List.replicate c 1) stocks names = .ok (some (table, 0)) ∧
      ∃ hl : table.length = stocks.length, ∀ j (hj : j < stocks.length), StockAsPredicted table[j] := by
  have hc : 0 < c := by
    rcases Nat.eq_zero_or_pos c with h | h
    · exact absurd (by rw [h]; rfl) hs.recipe
    · exact h
  obtain ⟨table, h1, hl, h2⟩ := stock_of_fine (A := fun m r => (mcafeeTradeReduction m r b).map some) hs (fun _ => True)
    (fun s hsm n m hm => by obtain ⟨x, h1, h2⟩ := mcafee_fine hc hcase hm; exact ⟨x, h1, h2, trivial⟩)
  exact ⟨table, h1, hl, fun j hj => (h2 j hj).1⟩

/-! ## What the table does not say -/

/-- **C77**. The claim at the top of `stock/experiment_stock.py` that `market_gft_ratio` should be at least `1 - 1/k` does not hold for McAfee's protocol: with
two buyers of value 10 and two sellers of cost 1 the optimal trade has two deals, and the traders gain nothing. -/
theorem stock_market_ratio_fails :
    StockExperiment.experiment (fun m r => (mcafeeTradeReduction m r).map some) [1, 1] [[[10, 10], [-1, -1]]] ["A"] =
      .ok (some ([⟨"A", 2, 2, 1, 50, 18, 9, 50, 0, 0⟩], 0)) := by
  decide +kernel

/-- **C77**. The column `num_possible_trades` may show more than there is: two buyers and three sellers, with recipe (1,2), is one procurement-set; the table says 2.
The exact number is a fraction, rounded to the nearest integer. -/
theorem stock_possible_trades_rounded :
    StockExperiment.experiment (fun m r => auction m r 100) [1, 2] [[[10, 10], [-1, -1, -2]]] ["A"] =
      .ok (some ([⟨"A", 2, 1, 1, 100, 8, 733 / 100, 91667 / 1000, 733 / 100, 91667 / 1000⟩], 0)) := by
  decide +kernel

/-- Non-vacuity of C77: two stocks, recipe (1,2). -/
example : SensibleStocks [1, 2] [[[10, 10], [-1, -1, -2]], [[10, 10, 9], [-1, -1, -2, -2, -3]]] ["A", "B"] :=
  ⟨by decide, by decide, by decide, by decide +kernel, by decide +kernel, by decide +kernel, by decide +kernel⟩

end Auctions.Props
