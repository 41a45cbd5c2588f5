import Verif.Proofs.TreeStockExperiment
import Verif.Props.TreeExperiment

set_option autoImplicit false

/-!
# C74, C75: the recipe-tree experiment with stock prices
-/

namespace Auctions.Props

open Auctions Spec TreeStockExperiment

section

variable {f : List (List ℕ) → ℚ → Py (List ℚ)} {fuel : ℕ} {recipe : List PyObj} {counts : List ℚ} {nums : List ℕ} {N : ℕ}
  {stocksPrices : List (List (List ℚ))} {names : List String} {shuffle : ℕ → ℕ → ℕ → List ℚ → List ℚ} {table : List TreeStockExperiment.Row} {w : ℕ}

theorem divide_eq {S N : ℕ} (hS : S ≠ 0) (hN : N ≠ 0) (x : ℚ) : divide S N x = .ok (x / S / N) := by
  have h1 : (S : ℚ) ≠ 0 := by exact_mod_cast hS
  have h2 : (N : ℚ) ≠ 0 := by exact_mod_cast hN
  simp [divide, pyDiv, h1, h2, bind, Except.bind]

theorem divide_ok {S N : ℕ} {x y : ℚ} (h : divide S N x = .ok y) : S ≠ 0 ∧ N ≠ 0 := by
  constructor
  · rintro rfl
    simp [divide, pyDiv, bind, Except.bind] at h
  · rintro rfl
    by_cases h1 : (S : ℚ) = 0
    · simp [divide, pyDiv, bind, Except.bind, h1] at h
    · simp [divide, pyDiv, bind, Except.bind, h1] at h

theorem stock_row {S N : ℕ} {o : Option Results} {xs : List TreeMeasurement} (hh : Holds o xs) {row : TreeStockExperiment.Row}
    (h : TreeStockExperiment.mkRow S N o = .ok row) : TreeStockReports row S N xs := by
  cases o with
  | none =>
    simp only [Holds] at hh
    subst hh
    simp only [TreeStockExperiment.mkRow, Except.ok.injEq] at h
    subst h
    exact ⟨by simp, by simp, by simp⟩
  | some r =>
    obtain ⟨h0, h1, h2, h3, h4, h5, h6, h7, h8⟩ := hh
    have hSN : S ≠ 0 ∧ N ≠ 0 := by
      rw [TreeStockExperiment.mkRow] at h
      obtain ⟨y, hy, -⟩ := bind_ok_iff.1 h
      exact divide_ok hy
    rw [TreeStockExperiment.mkRow] at h
    simp only [divide_eq hSN.1 hSN.2, bind, Except.bind] at h
    have hk : ∀ q : ℚ, (if q ≤ 1 then (Except.ok 0 : Py ℚ) else match pyDiv 1 q with
        | .error e => .error e
        | .ok v => .ok ((1 - v) * 100)) = .ok (if q ≤ 1 then 0 else (1 - 1 / q) * 100) := by
      intro q
      by_cases hq : q ≤ 1
      · simp [hq]
      · have : q ≠ 0 := by rintro rfl; exact hq (by norm_num)
        simp [hq, pyDiv, this]
    have hrow : row = ⟨some ⟨"Average", r.numPossibleTrades, r.optimalCount / S / N, r.optimalKmin / S / N, r.optimalKmax / S / N,
        r.optimalGft / S / N, r.auctionCount / S / N, r.countRatio / S / N, r.gft / S / N, r.gftRatio / S / N⟩,
        if r.optimalKmin / S / N ≤ 1 then 0 else (1 - 1 / (r.optimalKmin / S / N)) * 100⟩ := by
      by_cases hq : r.optimalKmin / S / N ≤ 1
      · simp only [hq, if_true] at h ⊢
        exact (Except.ok.inj h).symm
      · have h9 : r.optimalKmin / S / N ≠ 0 := by
          intro h9; rw [h9] at hq; exact hq (by norm_num)
        simp only [hq, if_false, pyDiv, h9] at h ⊢
        exact (Except.ok.inj h).symm
    subst hrow
    refine ⟨by simp [h0], fun h => absurd h h0, ?_⟩
    intro a ha
    simp only [Option.some.injEq] at ha
    subst ha
    simp only [h1, h2, h3, h4, h5, h6, h7, h8]
    exact ⟨trivial, trivial, trivial, trivial, trivial, trivial, trivial, trivial, trivial⟩

theorem firstPrices_ok {n j : ℕ} {prices : List (List ℚ)} {cats : List AgentCategory} (h0 : ∀ c ∈ counts, 0 ≤ c)
    (h : firstPrices n counts j prices = .ok cats) :
    cats = (List.range prices.length).map
      (fun k => AgentCategory.init "agent" ((prices.getD k []).take ⌊n * counts.getD (j + k) 0⌋.toNat)) := by
  induction prices generalizing j cats with
  | nil => simp only [firstPrices, Except.ok.injEq] at h; subst h; rfl
  | cons p ps ih =>
    rw [firstPrices] at h
    obtain ⟨c, hc, h⟩ := bind_ok_iff.1 h
    obtain ⟨cs, hcs, h⟩ := bind_ok_iff.1 h
    simp only [Except.ok.injEq] at h
    subst h
    rw [ih hcs, List.length_cons, List.range_succ_eq_map, List.map_cons, List.map_map]
    have hcc : counts[j]? = some c := by
      rw [pyGet] at hc
      split at hc
      · next x hx => rw [hx, Except.ok.inj hc]
      · cases hc
    have hpos : 0 ≤ (n : ℚ) * c := mul_nonneg (by positivity) (h0 c (List.mem_of_getElem? hcc))
    congr 1
    · have hfl : (0 : ℤ) ≤ ⌊(n : ℚ) * c⌋ := Int.floor_nonneg.2 hpos
      simp only [pySlice, pyInt, hpos, if_true, hfl, Nat.add_zero, List.getD_eq_getElem?_getD, hcc, Option.getD_some, List.getElem?_cons_zero]
    · apply List.map_congr_left
      intro k _
      simp only [Function.comp, List.getD_cons_succ]
      rw [show j + 1 + k = j + (k + 1) by omega]

theorem marketOf_spec {order original : List (List ℚ)} {n : ℕ} {m : Market} (h0 : ∀ c ∈ counts, 0 ≤ c)
    (hp : List.Forall₂ List.Perm order original) (h : MarketOf order counts n m) :
    StockMarket original counts n m ∧ (∀ c ∈ m.categories, SortedDesc c.values) ∧ m.categories ≠ [] := by
  have hlen := hp.length_eq
  have hinit : ∀ {cats : List AgentCategory}, Market.init cats = .ok m → m = ⟨cats⟩ ∧ cats ≠ [] := by
    intro cats h2
    cases cats with
    | nil => simp [Market.init] at h2
    | cons c cs => exact ⟨(Except.ok.inj h2).symm, by simp⟩
  unfold MarketOf at h
  rw [first_length hp] at h
  split_ifs at h with hn
  · obtain ⟨cats, h1, h2⟩ := h
    obtain ⟨rfl, hne⟩ := hinit h2
    have hc := firstPrices_ok h0 h1
    subst hc
    refine ⟨⟨order, hp, by simp [Market.numCategories, hlen], ?_⟩, ?_, hne⟩
    · intro j hj
      rw [if_pos hn]
      have : (Market.valueLists ⟨(List.range order.length).map
          (fun k => AgentCategory.init "agent" ((order.getD k []).take ⌊n * counts.getD (0 + k) 0⌋.toNat))⟩).getD j []
          = sortDesc ((order.getD j []).take ⌊n * counts.getD j 0⌋.toNat) := by
        simp [Market.valueLists, List.getD_eq_getElem?_getD, List.getElem?_map, List.getElem?_range (show j < order.length by omega),
          AgentCategory.init]
      rw [this]
      exact sortDesc_perm _
    · intro c hc
      obtain ⟨k, -, rfl⟩ := List.mem_map.1 hc
      exact sortDesc_sorted _
  · obtain ⟨rfl, hne⟩ := hinit h
    refine ⟨⟨order, hp, by simp [Market.numCategories, hlen], ?_⟩, ?_, hne⟩
    · intro j hj
      rw [if_neg hn]
      have : (Market.valueLists ⟨order.map (AgentCategory.init "agent")⟩).getD j [] = sortDesc (order.getD j []) := by
        have hj' : j < order.length := by omega
        simp [Market.valueLists, List.getD_eq_getElem?_getD, List.getElem?_eq_getElem hj', AgentCategory.init]
      rw [this]
      exact sortDesc_perm _
    · intro c hc
      obtain ⟨k, -, rfl⟩ := List.mem_map.1 hc
      exact sortDesc_sorted _

theorem valuesAt_of_sorted {m : Market} (h : ∀ c ∈ m.categories, SortedDesc c.values) :
    TreeAuction.valuesAt m.categories = fun i => sortDesc (m.valueLists.getD i []) := by
  funext i
  simp only [TreeAuction.valuesAt, Market.valueLists, List.getD_eq_getElem?_getD, List.getElem?_map]
  rcases hi : m.categories[i]? with _ | x
  · simp [sortDesc]
  · simp only [Option.map_some, Option.getD_some]
    exact (sortDesc_of_sorted (h x (List.mem_of_getElem? hi))).symm

theorem stock_low {prices : List (List ℚ)} {n : ℕ} {m : Market} (h : StockMarket prices counts n m) {b : ℚ}
    (hb : ∀ l ∈ prices, ∀ x ∈ l, b ≤ x) : ∀ l ∈ m.valueLists, ∀ x ∈ l, b ≤ x := by
  obtain ⟨order, hp, hK, hv⟩ := h
  intro l hl x hx
  obtain ⟨j, hj, rfl⟩ := List.getElem_of_mem hl
  have hjp : j < prices.length := by rw [← hK]; simpa [Market.valueLists, Market.numCategories] using hj
  have h1 := hv j hjp
  rw [List.getD_eq_getElem?_getD, List.getElem?_eq_getElem hj, Option.getD_some] at h1
  have hxo : x ∈ order.getD j [] := by
    have := h1.subset hx
    split_ifs at this
    · exact List.mem_of_mem_take this
    · exact this
  have hjo : j < order.length := by rw [hp.length_eq]; exact hjp
  rw [List.getD_eq_getElem?_getD, List.getElem?_eq_getElem hjo, Option.getD_some] at hxo
  exact hb _ (List.getElem_mem hjp) x ((List.forall₂_iff_get.1 hp).2 j hjo hjp |>.subset hxo)

/-- The measurements for the size at position `p`: those of all iterations, for all stocks for which this size is measured. -/
def stockMeasurements (stocksPrices : List (List (List ℚ))) (S N : ℕ) (nums : List ℕ) (p : ℕ) (X : ℕ → ℕ → TreeMeasurement) :
    List TreeMeasurement :=
  ((List.range S).filter (fun i => SizeMeasured ((stocksPrices.getD i []).getD 0 []).length nums p)).flatMap (fun i => (List.range N).map (X i))

theorem mapM_rows {S N : ℕ} {g : ℕ → Option Results} {l : List ℕ} {rows : List TreeStockExperiment.Row}
    (h : l.mapM (fun n => TreeStockExperiment.mkRow S N (g n)) = .ok rows) :
    ∃ hl : rows.length = l.length, ∀ p (hp : p < l.length), TreeStockExperiment.mkRow S N (g l[p]) = .ok rows[p] := by
  induction l generalizing rows with
  | nil => simp only [List.mapM_nil, pure, Except.pure, Except.ok.injEq] at h; subst h; simp
  | cons a l ih =>
    rw [List.mapM_cons, bind_ok_iff] at h
    obtain ⟨b, hb, h⟩ := h
    rw [bind_ok_iff] at h
    obtain ⟨bs, hbs, h⟩ := h
    simp only [pure, Except.pure, Except.ok.injEq] at h
    subst h
    obtain ⟨hl, hall⟩ := ih hbs
    refine ⟨by simp [hl], fun p hp => ?_⟩
    cases p with
    | zero => simpa using hb
    | succ p => simpa using hall p (by simpa using hp)

theorem stock_experiment_inv (hd : nums.Nodup) (hsh : ∀ i it j l, (shuffle i it j l).Perm l)
    (h : TreeStockExperiment.experiment f fuel recipe counts nums N stocksPrices names shuffle = .ok (some (table, w))) :
    (N ≠ 0 → names ≠ [] → names.length ≤ stocksPrices.length) ∧
    ∃ hl : table.length = nums.length, ∃ X : ℕ → ℕ → ℕ → TreeMeasurement,
      (∀ p (hp : p < nums.length), (∀ i < names.length, SizeMeasured ((stocksPrices.getD i []).getD 0 []).length nums p → ∀ it < N,
        ∃ order m, List.Forall₂ List.Perm order (stocksPrices.getD i []) ∧ MarketOf order counts nums[p] m ∧
          TreeMeasured f fuel recipe m (X i it p)) ∧
      TreeStockReports table[p] names.length N (stockMeasurements stocksPrices names.length N nums p (fun i it => X i it p))) ∧
      ((∀ p < nums.length, ∀ i < names.length,
        SizeMeasured ((stocksPrices.getD i []).getD 0 []).length nums p → ∀ it < N, (X i it p).deals ≤ (X i it p).optimalDeals) → w = 0) := by
  rw [TreeStockExperiment.experiment] at h
  obtain ⟨-, -, h⟩ := bind_ok_iff.1 h
  obtain ⟨o, hs, h⟩ := bind_ok_iff.1 h
  cases o with
  | none => simp at h
  | some s =>
    obtain ⟨rows, hr, h⟩ := bind_ok_iff.1 h
    simp only [Except.ok.injEq, Option.some.injEq, Prod.mk.injEq] at h
    obtain ⟨rfl, rfl⟩ := h
    obtain ⟨h0, X, h1, h2, h3⟩ := stocks_some hd hsh 0 names hs
    obtain ⟨hl, hall⟩ := mapM_rows hr
    refine ⟨by simpa using h0, hl, X, fun p hp => ⟨fun i hi hm it hit => h1 p hp i (Nat.zero_le _) (by omega) hm it hit, ?_⟩,
      fun hw => h3 (fun p hp a _ ha => hw p hp a (by omega))⟩
    have := h2 p hp [] rfl
    rw [List.nil_append, ← List.range_eq_range'] at this
    exact stock_row this (hall p hp)

/-- **C74**. Whatever the prices, the shuffles and the solver: when `experiment` returns (for different sizes, and counts that are not negative), the table
has a row for each size. Row `p` reports the measurements of the size at position `p`, in every iteration for every stock for which this size is
measured, each on a market of this size from the prices of the stock. The "averages" are sums divided by the number of all stocks and by the number of
iterations, also when the size is not measured for some of the stocks. -/
theorem tree_stock_columns (hd : nums.Nodup) (hsh : ∀ i it j l, (shuffle i it j l).Perm l) (h0 : ∀ c ∈ counts, 0 ≤ c)
    (h : TreeStockExperiment.experiment f fuel recipe counts nums N stocksPrices names shuffle = .ok (some (table, w))) :
    ∃ hl : table.length = nums.length, ∀ p (hp : p < nums.length), ∃ X : ℕ → ℕ → TreeMeasurement,
      (∀ i < names.length, SizeMeasured ((stocksPrices.getD i []).getD 0 []).length nums p → ∀ it < N,
        ∃ m, StockMarket (stocksPrices.getD i []) counts nums[p] m ∧ TreeMeasured f fuel recipe m (X i it)) ∧
      TreeStockReports table[p] names.length N (stockMeasurements stocksPrices names.length N nums p X) := by
  obtain ⟨-, hl, X, h1, -⟩ := stock_experiment_inv hd hsh h
  refine ⟨hl, fun p hp => ⟨fun i it => X i it p, fun i hi hm it hit => ?_, (h1 p hp).2⟩⟩
  obtain ⟨order, m, a1, a2, a3⟩ := (h1 p hp).1 i hi hm it hit
  exact ⟨m, (marketOf_spec h0 a1 a2).1, a3⟩

/-- **C74**. The columns `stockname` and `num possible trades` of a row with averages: the text "Average", and the number for the *first* stock for which the size
is measured - the size, or the number of its prices in category 0 if there are fewer. -/
theorem tree_stock_possible (hd : nums.Nodup) (hsh : ∀ i it j l, (shuffle i it j l).Perm l)
    (h : TreeStockExperiment.experiment f fuel recipe counts nums N stocksPrices names shuffle = .ok (some (table, w)))
    {p : ℕ} (hp : p < nums.length) {row : TreeStockExperiment.Row} (hrow : table[p]? = some row) {a : Results} (ha : row.average = some a) :
    a.stockName = "Average" ∧ ∃ i < names.length, SizeMeasured ((stocksPrices.getD i []).getD 0 []).length nums p ∧
      (∀ i' < i, ¬ SizeMeasured ((stocksPrices.getD i' []).getD 0 []).length nums p) ∧
      a.numPossibleTrades = min nums[p] ((stocksPrices.getD i []).getD 0 []).length := by
  rw [TreeStockExperiment.experiment] at h
  obtain ⟨-, -, h⟩ := bind_ok_iff.1 h
  obtain ⟨o, hs, h⟩ := bind_ok_iff.1 h
  cases o with
  | none => simp at h
  | some s =>
    obtain ⟨rows, hr, h⟩ := bind_ok_iff.1 h
    simp only [Except.ok.injEq, Option.some.injEq, Prod.mk.injEq] at h
    obtain ⟨rfl, rfl⟩ := h
    obtain ⟨hl, hall⟩ := mapM_rows hr
    have h1 := hall p hp
    rw [List.getElem?_eq_getElem (by omega), Option.some.injEq] at hrow
    rw [hrow] at h1
    rcases hres : s.results nums[p] with _ | r
    · rw [hres] at h1
      simp only [TreeStockExperiment.mkRow, Except.ok.injEq] at h1
      subst h1
      simp at ha
    · rw [hres] at h1
      have hSN : names.length ≠ 0 ∧ N ≠ 0 := by
        rw [TreeStockExperiment.mkRow] at h1
        obtain ⟨y, hy, -⟩ := bind_ok_iff.1 h1
        exact divide_ok hy
      have hex : a.stockName = "Average" ∧ a.numPossibleTrades = r.numPossibleTrades := by
        rw [TreeStockExperiment.mkRow] at h1
        simp only [divide_eq hSN.1 hSN.2] at h1
        iterate 8 obtain ⟨_, -, h1⟩ := bind_ok_iff.1 h1
        split_ifs at h1
        · obtain ⟨_, -, h1⟩ := bind_ok_iff.1 h1
          simp only [Except.ok.injEq] at h1
          subst h1
          simp only [Option.some.injEq] at ha
          subst ha
          exact ⟨rfl, rfl⟩
        · iterate 2 obtain ⟨_, -, h1⟩ := bind_ok_iff.1 h1
          simp only [Except.ok.injEq] at h1
          subst h1
          simp only [Option.some.injEq] at ha
          subst ha
          exact ⟨rfl, rfl⟩
      obtain ⟨i, -, h3, h4, h5, h6⟩ := (stocks_possible hd hSN.2 hsh 0 names hs hp).2 r rfl hres
      exact ⟨hex.1, i, by omega, h4, fun i' hi' => h5 i' (Nat.zero_le _) hi', by rw [hex.2, h6]⟩

variable {root : ℕ} {ch : Forest}

theorem init_written_unique {K : ℕ} {t : RecipeTree} (ht : RecipeTree.init K (written (.cons root ch .nil)) = .ok t) : t = ⟨root, ch⟩ := by
  have ht' := ht
  rw [written_cons, init_ok (by simp [written])] at ht'
  have h1 : RecipeTree.init (K + (nodes (.cons root ch .nil)).sum + 1) (written (.cons root ch .nil)) = .ok t := by
    rw [written_cons, init_ok (by simp [written])]
    exact ⟨ht'.1, fun i hi => by have := ht'.2 i hi; omega⟩
  have h2 : RecipeTree.init (K + (nodes (.cons root ch .nil)).sum + 1) (written (.cons root ch .nil)) = .ok ⟨root, ch⟩ := by
    refine init_written fun i hi => ?_
    have := List.single_le_sum (l := nodes (.cons root ch .nil)) (by simp) i hi
    omega
  rw [h1] at h2
  exact Except.ok.inj h2

theorem stock_fine (hf : PriceContract f) (hn : (nodes (.cons root ch .nil)).Nodup) {order original : List (List ℚ)} {n : ℕ} {m : Market}
    (h0 : ∀ c ∈ counts, 0 ≤ c) (hp : List.Forall₂ List.Perm order original) (hm : MarketOf order counts n m)
    (hlow : ∀ l ∈ original, ∀ x ∈ l, -MAX_VALUE ≤ x) {x : TreeMeasurement}
    (hx : TreeMeasured f fuel (written (.cons root ch .nil)) m x) : TreeFine x := by
  obtain ⟨h1, h2, -⟩ := marketOf_spec h0 hp hm
  obtain ⟨t, trade, ht, ha, r, hr, rfl⟩ := hx
  obtain rfl : t = ⟨root, ch⟩ := init_written_unique ht
  rw [valuesAt_of_sorted h2] at hr
  obtain ⟨a1, a2, a3⟩ := tree_auction_at_most_optimal_trade hf ht (by simpa [treeNodes, nodes] using hn) (stock_low h1 hlow) ha hr
  exact ⟨a1, a2, a3⟩

theorem mem_stockMeasurements {S : ℕ} {p : ℕ} {X : ℕ → ℕ → TreeMeasurement} {x : TreeMeasurement}
    (h : x ∈ stockMeasurements stocksPrices S N nums p X) :
    ∃ i < S, SizeMeasured ((stocksPrices.getD i []).getD 0 []).length nums p ∧ ∃ it < N, x = X i it := by
  obtain ⟨i, hi, hx⟩ := List.mem_flatMap.1 h
  obtain ⟨it, hit, rfl⟩ := List.mem_map.1 hx
  obtain ⟨h1, h2⟩ := List.mem_filter.1 hi
  exact ⟨i, List.mem_range.1 h1, by simpa using h2, it, List.mem_range.1 hit, rfl⟩

theorem stockMeasurements_length {S : ℕ} {p : ℕ} {X : ℕ → ℕ → TreeMeasurement} :
    (stockMeasurements stocksPrices S N nums p X).length
      = ((List.range S).filter (fun i => SizeMeasured ((stocksPrices.getD i []).getD 0 []).length nums p)).length * N := by
  simp [stockMeasurements, List.length_flatMap]

theorem total_le_length {g : TreeMeasurement → ℚ} {b : ℚ} {xs : List TreeMeasurement} (h : ∀ x ∈ xs, g x ≤ b) : total g xs ≤ b * xs.length := by
  induction xs with
  | nil => simp [total]
  | cons x xs ih =>
    have h1 := h x (by simp)
    have h2 := ih fun y hy => h y (by simp [hy])
    simp only [total, List.map_cons, List.sum_cons, List.length_cons] at *
    push_cast
    linarith

/-- **C74**. If the categories of the tree are different, and no price is below `-MAX_VALUE`: the line `Warning count!!!` is never printed, and every row is
as predicted. -/
theorem tree_stock_as_predicted (hf : PriceContract f) (hn : (nodes (.cons root ch .nil)).Nodup) (hd : nums.Nodup)
    (hsh : ∀ i it j l, (shuffle i it j l).Perm l) (h0 : ∀ c ∈ counts, 0 ≤ c)
    (hlow : ∀ stock ∈ stocksPrices, ∀ l ∈ stock, ∀ x ∈ l, -MAX_VALUE ≤ x)
    (h : TreeStockExperiment.experiment f fuel (written (.cons root ch .nil)) counts nums N stocksPrices names shuffle = .ok (some (table, w))) :
    w = 0 ∧ ∀ p (hp : p < table.length), TreeStockAsPredicted table[p]
      ((List.range names.length).filter (fun i => SizeMeasured ((stocksPrices.getD i []).getD 0 []).length nums p)).length names.length := by
  obtain ⟨hlen, hl, X, h1, hw⟩ := stock_experiment_inv hd hsh h
  have hfine : ∀ p (_ : p < nums.length), ∀ i < names.length, SizeMeasured ((stocksPrices.getD i []).getD 0 []).length nums p →
      ∀ it < N, TreeFine (X i it p) := by
    intro p hp i hi hm it hit
    obtain ⟨order, m, a1, a2, a3⟩ := (h1 p hp).1 i hi hm it hit
    refine stock_fine hf hn h0 a1 a2 ?_ a3
    have hi' : i < stocksPrices.length := by
      have := hlen (by omega) (by rintro rfl; simp at hi)
      omega
    rw [List.getD_eq_getElem?_getD, List.getElem?_eq_getElem hi', Option.getD_some]
    exact hlow _ (List.getElem_mem hi')
  refine ⟨hw fun p hp i hi hm it hit => (hfine p hp i hi hm it hit).deals_le, fun p hp => ?_⟩
  have hp' : p < nums.length := by omega
  have hr := (h1 p hp').2
  have hx : ∀ x ∈ stockMeasurements stocksPrices names.length N nums p (fun i it => X i it p), TreeFine x := by
    intro x hx
    obtain ⟨i, hi, hm, it, hit, rfl⟩ := mem_stockMeasurements hx
    exact hfine p hp' i hi hm it hit
  have hxl := stockMeasurements_length (stocksPrices := stocksPrices) (S := names.length) (N := N) (nums := nums) (p := p)
    (X := fun i it => X i it p)
  generalize stockMeasurements stocksPrices names.length N nums p (fun i it => X i it p) = xs at hr hx hxl
  generalize ((List.range names.length).filter (fun i => SizeMeasured ((stocksPrices.getD i []).getD 0 []).length nums p)).length = M at hxl ⊢
  have hS : (0 : ℚ) ≤ names.length := by positivity
  have hN : (0 : ℚ) ≤ N := by positivity
  have mono : ∀ {a b : ℚ}, a ≤ b → a / names.length / N ≤ b / names.length / N := fun hab =>
    div_le_div_of_nonneg_right (div_le_div_of_nonneg_right hab hS) hN
  have nn : ∀ {a : ℚ}, 0 ≤ a → 0 ≤ a / names.length / N := fun ha => div_nonneg (div_nonneg ha hS) hN
  have share : ∀ {g : TreeMeasurement → ℚ}, (∀ x ∈ xs, g x ≤ 100) → total g xs / names.length / N ≤ 100 * M / names.length := by
    intro g hg
    refine (mono (total_le_length hg)).trans ?_
    rw [hxl]
    by_cases hN0 : N = 0
    · subst hN0
      simp only [Nat.cast_zero, div_zero]
      positivity
    · have : (N : ℚ) ≠ 0 := by exact_mod_cast hN0
      push_cast
      rw [div_div, show (100 : ℚ) * (M * N) = 100 * M * N by ring, mul_div_mul_right _ _ this]
  have ratio : ∀ {a b : ℚ}, 0 ≤ a → a ≤ b → 0 ≤ (if b = 0 then 0 else a / b * 100) ∧ (if b = 0 then 0 else a / b * 100) ≤ 100 := by
    intro a b ha hab
    split_ifs with hb
    · exact ⟨le_refl _, by norm_num⟩
    · have hb' : 0 < b := lt_of_le_of_ne (ha.trans hab) (Ne.symm hb)
      have h1 : a / b ≤ 1 := (div_le_one hb').2 hab
      have h2 : 0 ≤ a / b := div_nonneg ha hb'.le
      exact ⟨by linarith, by linarith⟩
  have hcr : ∀ x ∈ xs, 0 ≤ (if x.optimalDeals = 0 then 0 else (x.deals : ℚ) / x.optimalDeals * 100) ∧
      (if x.optimalDeals = 0 then 0 else (x.deals : ℚ) / x.optimalDeals * 100) ≤ 100 := by
    intro x hxm
    have := ratio (a := (x.deals : ℚ)) (b := (x.optimalDeals : ℚ)) (by positivity) (by exact_mod_cast (hx x hxm).deals_le)
    simpa only [Nat.cast_eq_zero] using this
  have hgr : ∀ x ∈ xs, 0 ≤ (if x.optimalGain = 0 then 0 else x.gain / x.optimalGain * 100) ∧
      (if x.optimalGain = 0 then 0 else x.gain / x.optimalGain * 100) ≤ 100 :=
    fun x hxm => ratio (hx x hxm).gain_nonneg (hx x hxm).gain_le
  have hform : ∀ q : ℚ, 0 ≤ (if q ≤ 1 then 0 else (1 - 1 / q) * 100) ∧ (if q ≤ 1 then 0 else (1 - 1 / q) * 100) < 100 := by
    intro q
    split_ifs with hq
    · exact ⟨le_refl _, by norm_num⟩
    · push Not at hq
      have h1 : 1 / q < 1 := by rw [div_lt_one (by linarith)]; exact hq
      have h2 : 0 < 1 / q := by apply div_pos <;> linarith
      exact ⟨by linarith, by linarith⟩
  refine ⟨?_, ?_, fun a ha => ?_⟩
  · rcases hta : table[p].average with _ | a
    · rw [hr.no_formula (hr.none.1 hta)]
    · obtain ⟨-, -, -, -, -, -, -, -, c9⟩ := hr.some a hta
      rw [c9]; exact (hform _).1
  · rcases hta : table[p].average with _ | a
    · rw [hr.no_formula (hr.none.1 hta)]; norm_num
    · obtain ⟨-, -, -, -, -, -, -, -, c9⟩ := hr.some a hta
      rw [c9]; exact (hform _).2
  · obtain ⟨c1, c2, c3, c4, c5, c6, c7, c8, -⟩ := hr.some a ha
    rw [c1, c4, c5, c6, c7, c8]
    exact ⟨mono (total_le fun x hxm => by exact_mod_cast (hx x hxm).deals_le), nn (total_nonneg fun x hxm => (hx x hxm).gain_nonneg),
      mono (total_le fun x hxm => (hx x hxm).gain_le), nn (total_nonneg fun x hxm => (hcr x hxm).1), share fun x hxm => (hcr x hxm).2,
      nn (total_nonneg fun x hxm => (hgr x hxm).1), share fun x hxm => (hgr x hxm).2⟩

/-! ## No exceptions -/

theorem analyze_ok (hn : (nodes (.cons root ch .nil)).Nodup) : ∃ c, TreeCalculations.getAgentsAnalyze (written (.cons root ch .nil)) = .ok c := by
  obtain ⟨d, k, h1, h2, h3⟩ := depth_and_agents_size (f := .cons root ch .nil) (by simp)
  have hlt : ∀ i ∈ nodes (.cons root ch .nil), i < (List.replicate (k + 1) 1).length := by
    intro i hi
    have := h3.2 hi
    simp; omega
  have hh : height (.cons root ch .nil) ≤ d := by
    obtain ⟨p, hp, hl⟩ := exists_longest (f := .cons root ch .nil) (by simp)
    rw [← hl]; exact h2.2 ⟨p, hp, rfl⟩
  obtain ⟨c, g1, g2, -, -⟩ := analyze_spec hn hlt hh
  rw [List.length_replicate] at g2
  have hs := setAt_ok (l := c) (i := 0) (d - 1) (by omega)
  exact ⟨c.set 0 (d - 1), by simp only [TreeCalculations.getAgentsAnalyze, h1, g1, bind, Except.bind, hs]⟩

theorem addMarket_ok (hf : PriceContract f) (hfc : PriceComplete f) (hn : (nodes (.cons root ch .nil)).Nodup) (hch : ch ≠ .nil) {m : Market}
    (hc : m.categories ≠ []) (hK : ∀ i ∈ nodes (.cons root ch .nil), i < m.numCategories) (name : String) (n q : ℕ) (s : State) :
    ∃ o, TreeStockExperiment.addMarket f fuel (written (.cons root ch .nil)) name n q m s = .ok o := by
  have ht := init_written hK
  obtain ⟨o, ho⟩ := tree_auction_never_raises hf hfc hc ht (by simpa [treeNodes, nodes] using hn) hch fuel
  unfold TreeStockExperiment.addMarket
  cases o with
  | none => exact ⟨none, by simp only [ht, ho, bind, Except.bind]⟩
  | some trade => exact ⟨_, by simp only [ht, ho, bind, Except.bind]; rfl⟩

theorem firstPrices_defined (n j : ℕ) (prices : List (List ℚ)) (h : j + prices.length ≤ counts.length) :
    ∃ cats, firstPrices n counts j prices = .ok cats ∧ cats.length = prices.length := by
  induction prices generalizing j with
  | nil => exact ⟨[], rfl, rfl⟩
  | cons p ps ih =>
    simp only [List.length_cons] at h
    obtain ⟨cats, h1, h2⟩ := ih (j + 1) (by omega)
    exact ⟨_, by rw [firstPrices, TreeExperiment.pyGet_getD 0 (by omega), h1]; rfl, by simp [h2]⟩

theorem sizes_ok (hf : PriceContract f) (hfc : PriceComplete f) (hn : (nodes (.cons root ch .nil)).Nodup) (hch : ch ≠ .nil)
    {prices : List (List ℚ)} (hp : prices ≠ []) (hc : prices.length ≤ counts.length)
    (hK : ∀ i ∈ nodes (.cons root ch .nil), i < prices.length) (name : String) (last : Bool) (s : State) :
    ∃ o, sizes f fuel (written (.cons root ch .nil)) counts name prices nums last s = .ok o := by
  have hinit : ∀ cats : List AgentCategory, cats.length = prices.length → Market.init cats = .ok ⟨cats⟩ ∧ cats ≠ [] := by
    intro cats hl
    cases cats with
    | nil => simp at hl; exact absurd (List.length_eq_zero_iff.1 hl.symm) hp
    | cons c cs => exact ⟨rfl, by simp⟩
  have hl0 : 0 < prices.length := List.length_pos_iff.2 hp
  induction nums generalizing last s with
  | nil => exact ⟨_, rfl⟩
  | cons n ns ih =>
    rw [sizes, TreeExperiment.pyGet_getD [] hl0]
    simp only [bind, Except.bind]
    split_ifs with c1 c2
    · exact ⟨_, rfl⟩
    · obtain ⟨h1, h2⟩ := hinit (prices.map (AgentCategory.init "agent")) (by simp)
      rw [h1]
      obtain ⟨o, ho⟩ := addMarket_ok (fuel := fuel) hf hfc hn hch (m := ⟨prices.map (AgentCategory.init "agent")⟩) h2
        (by simpa [Market.numCategories] using hK) name n (min n (prices.getD 0 []).length) s
      simp only [ho]
      cases o with
      | none => exact ⟨_, rfl⟩
      | some s' => exact ih _ _
    · obtain ⟨cats, h3, h4⟩ := firstPrices_defined (counts := counts) (min n (prices.getD 0 []).length) 0 prices (by omega)
      obtain ⟨h1, h2⟩ := hinit cats h4
      simp only [h3, h1]
      obtain ⟨o, ho⟩ := addMarket_ok (fuel := fuel) hf hfc hn hch (m := ⟨cats⟩) h2
        (by simpa [Market.numCategories, h4] using hK) name n (min n (prices.getD 0 []).length) s
      simp only [ho]
      cases o with
      | none => exact ⟨_, rfl⟩
      | some s' => exact ih _ _

theorem shuffleAll_length {g : ℕ → List ℚ → List ℚ} (j : ℕ) (prices : List (List ℚ)) : (shuffleAll g j prices).length = prices.length := by
  induction prices generalizing j with
  | nil => rfl
  | cons a l ih => simp [shuffleAll, ih]

theorem iterations_ok (hf : PriceContract f) (hfc : PriceComplete f) (hn : (nodes (.cons root ch .nil)).Nodup) (hch : ch ≠ .nil)
    {prices : List (List ℚ)} (hp : prices ≠ []) (hc : prices.length ≤ counts.length)
    (hK : ∀ i ∈ nodes (.cons root ch .nil), i < prices.length) (name : String) {g : ℕ → ℕ → List ℚ → List ℚ} (left it : ℕ) (s : State) :
    ∃ o, TreeStockExperiment.iterations f fuel (written (.cons root ch .nil)) counts nums name g left it prices s = .ok o := by
  induction left generalizing it prices s with
  | zero => exact ⟨_, rfl⟩
  | succ left ih =>
    have hl := shuffleAll_length (g := g it) 0 prices
    have hp' : shuffleAll (g it) 0 prices ≠ [] := by
      intro h0
      rw [h0] at hl
      exact hp (List.length_eq_zero_iff.1 hl.symm)
    rw [TreeStockExperiment.iterations]
    obtain ⟨o, ho⟩ := sizes_ok (counts := counts) (prices := shuffleAll (g it) 0 prices) (fuel := fuel) (nums := nums) hf hfc hn hch hp' (by omega) (by rw [hl]; exact hK) name false s
    simp only [ho, bind, Except.bind]
    cases o with
    | none => exact ⟨_, rfl⟩
    | some s' => exact ih hp' (by omega) (by rw [hl]; exact hK) _ _

/-- **C74**. With a solver that finds prices whenever there are any, a tree of at least two different categories, prices for all stocks, each with at least
the categories of the tree and no more than `agent_counts`: no exception occurs. (The experiment may run forever when one of the auctions does, see
C37.) -/
theorem tree_stock_never_raises (hf : PriceContract f) (hfc : PriceComplete f) (hn : (nodes (.cons root ch .nil)).Nodup) (hch : ch ≠ .nil)
    (hs : names.length ≤ stocksPrices.length) (hc : ∀ stock ∈ stocksPrices, stock.length ≤ counts.length)
    (hK : ∀ stock ∈ stocksPrices, ∀ i ∈ nodes (.cons root ch .nil), i < stock.length) :
    ∃ o, TreeStockExperiment.experiment f fuel (written (.cons root ch .nil)) counts nums N stocksPrices names shuffle = .ok o := by
  have key : ∀ (names : List String) (i : ℕ) (s : State), i + names.length ≤ stocksPrices.length → ∃ o,
      stocks f fuel (written (.cons root ch .nil)) counts nums N stocksPrices shuffle i names s = .ok o ∧
      ∀ s', o = some s' → (N = 0 ∨ names = []) → s' = s := by
    intro names
    induction names with
    | nil => intro i s _; exact ⟨_, rfl, by simp⟩
    | cons name names ih =>
      intro i s hi
      simp only [List.length_cons] at hi
      rw [stocks]
      by_cases hN : N = 0
      · simp only [hN, if_true, TreeStockExperiment.iterations, bind, Except.bind]
        obtain ⟨o, h1, h2⟩ := ih (i + 1) s (by omega)
        rw [hN] at h1
        exact ⟨o, h1, fun s' hs' _ => h2 s' hs' (Or.inl hN)⟩
      · have hi' : i < stocksPrices.length := by omega
        rw [if_neg hN]
        have hg : pyGet stocksPrices i = .ok stocksPrices[i] := by simp [pyGet, List.getElem?_eq_getElem hi']
        have hmem := List.getElem_mem hi'
        have hroot := hK _ hmem root (by simp [nodes])
        obtain ⟨o, ho⟩ := iterations_ok (fuel := fuel) (nums := nums) hf hfc hn hch (prices := stocksPrices[i]) (by intro h0; rw [h0] at hroot; simp at hroot)
          (hc _ hmem) (hK _ hmem) name (g := shuffle i) N 0 s
        simp only [hg, ho, bind, Except.bind]
        cases o with
        | none => exact ⟨_, rfl, by simp⟩
        | some s1 =>
          obtain ⟨o, h1, -⟩ := ih (i + 1) s1 (by omega)
          exact ⟨o, h1, fun s' _ hx => by rcases hx with hx | hx; exact absurd hx hN; simp at hx⟩
  obtain ⟨c, hc'⟩ := analyze_ok hn
  obtain ⟨o, h1, h2⟩ := key names 0 ⟨fun _ => none, 0⟩ (by omega)
  rw [TreeStockExperiment.experiment]
  simp only [hc', h1, bind, Except.bind]
  cases o with
  | none => exact ⟨_, rfl⟩
  | some s =>
    have hrow : ∀ n, ∃ row, TreeStockExperiment.mkRow names.length N (s.results n) = .ok row := by
      intro n
      by_cases hx : N = 0 ∨ names = []
      · rw [h2 s rfl hx]; exact ⟨_, rfl⟩
      · push Not at hx
        rcases hr : s.results n with _ | r
        · exact ⟨_, rfl⟩
        · rw [TreeStockExperiment.mkRow]
          have hS : names.length ≠ 0 := fun h0 => hx.2 (List.length_eq_zero_iff.1 h0)
          simp only [divide_eq hS hx.1, bind, Except.bind]
          by_cases hq : r.optimalKmin / names.length / N ≤ 1
          · simp only [hq, if_true]; exact ⟨_, rfl⟩
          · have h9 : r.optimalKmin / names.length / N ≠ 0 := by
              intro h9; rw [h9] at hq; exact hq (by norm_num)
            simp only [hq, if_false, pyDiv, h9]; exact ⟨_, rfl⟩
    choose g hg using hrow
    have hm : nums.mapM (fun n => TreeStockExperiment.mkRow names.length N (s.results n)) = .ok (nums.map g) := mapM_ok fun n _ => hg n
    simp only [hm]
    exact ⟨_, rfl⟩

end

/-! ## The averages -/

def stockA : List (List ℚ) := [[700, 690, 560, 550], [-390, -400], [-380, -451]]
def stockB : List (List ℚ) := [[500], [-400], [-450]]

/-- **C74**. The "averages" depend on stocks that have not been measured. With stock A alone, the row for 4 possible trades shows that the auction does 3 of 4
deals and 26000/293 = 88.7% of the gain. Size 4 is not measured for stock B, which has a single buyer; still, with A and B the same row shows
half of everything: 44.4% of the gain, and `kmin = 1` instead of 2, so that `gftformula` drops from 50 to 0. -/
theorem tree_stock_divides_by_all_stocks :
    ¬ SizeMeasured (stockB.getD 0 []).length [1, 2, 4] 2 ∧
    (∃ r1 r2, TreeStockExperiment.experiment (fixedSolver (List.replicate 3 (-MAX_VALUE))) 100 (written twoTree) [1, 1 / 2, 1 / 2] [1, 2, 4] 1 [stockA] ["A"]
        (fun _ _ _ l => l) = .ok (some ([r1, r2, ⟨some ⟨"Average", 4, 4, 2, 2, 879, 3, 75, 780, 26000 / 293⟩, 50⟩], 0))) ∧
    (∃ r1 r2, TreeStockExperiment.experiment (fixedSolver (List.replicate 3 (-MAX_VALUE))) 100 (written twoTree) [1, 1 / 2, 1 / 2] [1, 2, 4] 1 [stockA, stockB]
        ["A", "B"] (fun _ _ _ l => l) = .ok (some ([r1, r2, ⟨some ⟨"Average", 4, 2, 1, 1, 879 / 2, 3 / 2, 75 / 2, 390, 13000 / 293⟩, 0⟩], 0))) := by
  refine ⟨by decide +kernel, ⟨⟨some ⟨"Average", 1, 0, 99999, 0, 0, 0, 0, 0, 0⟩, 9999800 / 99999⟩,
      ⟨some ⟨"Average", 2, 2, 1, 1, 620, 1, 50, 320, 1600 / 31⟩, 0⟩, by decide +kernel⟩,
    ⟨⟨some ⟨"Average", 1, 0, 99999, 0, 0, 0, 0, 0, 0⟩, 9999800 / 99999⟩,
      ⟨some ⟨"Average", 2, 3 / 2, 1, 1, 360, 1 / 2, 25, 160, 800 / 31⟩, 0⟩, by decide +kernel⟩⟩

/-- The slice `l[0:k]` of Python on `[10, 9, 8, 7]`, with the values CPython gives: a negative bound counts from the end. -/
example : pySlice [10, 9, 8, 7] 2 = [10, 9] ∧ pySlice [10, 9, 8, 7] 9 = [10, 9, 8, 7] ∧ pySlice [10, 9, 8, 7] 0 = [] ∧
    pySlice [10, 9, 8, 7] (-1) = [10, 9, 8] ∧ pySlice [10, 9, 8, 7] (-9) = [] := by decide +kernel

/-- Non-vacuity of C74: the experiment above meets the hypotheses of the theorems, with a solver that keeps its contract. -/
example : PriceContract (fixedSolver (List.replicate 3 (-MAX_VALUE))) ∧ (nodes twoTree).Nodup ∧ [1, 2, 4].Nodup ∧
    (∀ c ∈ [(1 : ℚ), 1 / 2, 1 / 2], 0 ≤ c) ∧ (∀ stock ∈ [stockA, stockB], ∀ l ∈ stock, ∀ x ∈ l, -MAX_VALUE ≤ x) ∧
    (∀ stock ∈ [stockA, stockB], stock.length ≤ [(1 : ℚ), 1 / 2, 1 / 2].length) ∧ (∀ stock ∈ [stockA, stockB], ∀ i ∈ nodes twoTree, i < stock.length) :=
  ⟨fixedSolver_contract _, by decide +kernel, by decide +kernel, by decide +kernel, by decide +kernel, by decide +kernel, by decide +kernel⟩

/-! ## C75: `get_prices_tree` -/

theorem splitInner_ok {data : List ℚ} {sign : ℚ} {values : List ℚ} {a : ℕ} (ha : a < values.length) (left i : ℕ) (h : i + left ≤ data.length) :
    splitInner data sign values a left i = .ok (((data.drop i).take left).map (fun x => sign * x * values.getD a 0), i + left) := by
  induction left generalizing i with
  | zero => simp [splitInner]
  | succ left ih =>
    have hi : i < data.length := by omega
    rw [splitInner]
    have h1 : pyGet data i = .ok data[i] := by simp [pyGet, List.getElem?_eq_getElem hi]
    simp only [h1, TreeExperiment.pyGet_getD 0 ha, ih (i + 1) (by omega), bind, Except.bind]
    rw [List.drop_eq_getElem_cons hi, List.take_succ_cons, List.map_cons, show i + 1 + left = i + (left + 1) by omega]

/-- The sign of the values of a category: the first category buys, the others sell. -/
def sideSign (j : ℕ) : ℚ := if j = 0 then 1 else -1

theorem splitLoop_ok {data : List ℚ} {S : ℚ} (hS : S ≠ 0) {values : List ℚ} (counts : List ℚ) (a i : ℕ) (ha : a + counts.length ≤ values.length)
    (h : i + (counts.map (fun c => (pyInt ((data.length : ℚ) / S * c)).toNat)).sum ≤ data.length) :
    ∃ parts split : List (List ℚ), splitLoop data S values a counts i = .ok split ∧ parts.length = counts.length ∧ split.length = counts.length ∧
      parts.flatten = (data.drop i).take (counts.map (fun c => (pyInt ((data.length : ℚ) / S * c)).toNat)).sum ∧
      ∀ k < counts.length, (parts.getD k []).length = (pyInt ((data.length : ℚ) / S * counts.getD k 0)).toNat ∧
        split.getD k [] = (parts.getD k []).map (fun x => sideSign (a + k) * x * values.getD (a + k) 0) := by
  induction counts generalizing a i with
  | nil => exact ⟨[], [], rfl, rfl, rfl, by simp, by simp⟩
  | cons c cs ih =>
    simp only [List.length_cons, List.map_cons, List.sum_cons] at ha h
    obtain ⟨parts, split, h1, h2, h2', h3, h4⟩ := ih (a + 1) (i + (pyInt ((data.length : ℚ) / S * c)).toNat) (by omega) (by omega)
    have hsg : (if a > 0 then (-1 : ℚ) else 1) = sideSign a := by
      unfold sideSign
      by_cases h0 : a = 0
      · simp [h0]
      · simp [h0, Nat.pos_of_ne_zero h0]
    refine ⟨(data.drop i).take (pyInt ((data.length : ℚ) / S * c)).toNat :: parts,
      ((data.drop i).take (pyInt ((data.length : ℚ) / S * c)).toNat).map (fun x => sideSign a * x * values.getD a 0) :: split,
      ?_, by simp [h2], ?_, ?_, ?_⟩
    · rw [splitLoop]
      simp only [pyDiv, hS, if_false, bind, Except.bind, splitInner_ok (show a < values.length by omega) _ _
        (show i + (pyInt ((data.length : ℚ) / S * c)).toNat ≤ data.length by omega), h1, hsg]
    · simp [h2']
    · rw [List.flatten_cons, h3, List.map_cons, List.sum_cons, List.take_add, List.drop_drop]
    · intro k hk
      cases k with
      | zero =>
        simp only [List.getD_cons_zero, Nat.add_zero, and_true]
        rw [List.length_take, List.length_drop]
        omega
      | succ k =>
        simp only [List.getD_cons_succ]
        have := h4 k (by simpa using hk)
        rw [show a + 1 + k = a + (k + 1) by omega] at this
        exact this

/-- **C75**. `get_prices_tree`: if the prices are at least 0, the counts at least 0 and not all 0, and there is a factor for every count, the result has a list
for every count. No price is used twice: the lists come from disjoint parts of the prices of the file (in thousandths, rounded down), and less
prices than there are categories are left over. Category `j` has a share of the prices proportional to `counts[j]`, rounded down, and its values are
the prices multiplied by its factor, with a minus sign except for category 0. -/
theorem get_prices_tree {columns : List (List ℚ)} {shuffle : List ℚ → List ℚ} {counts values : List ℚ} (hsh : ∀ l, (shuffle l).Perm l)
    (hpr : ∀ l ∈ columns, ∀ x ∈ l, 0 ≤ x) (hc : ∀ c ∈ counts, 0 ≤ c) (hs : 0 < counts.sum) (hv : counts.length ≤ values.length) :
    ∃ split parts : List (List ℚ), ∃ rest : List ℚ, getPricesTree columns shuffle counts values = .ok split ∧
      split.length = counts.length ∧ parts.length = counts.length ∧
      (parts.flatten ++ rest).Perm (columns.flatten.map (fun x => (⌊1000 * x⌋ : ℚ))) ∧ rest.length < counts.length ∧
      ∀ j < counts.length,
        (((parts.getD j []).length : ℚ) ≤ columns.flatten.length * (counts.getD j 0 / counts.sum) ∧
          columns.flatten.length * (counts.getD j 0 / counts.sum) < (parts.getD j []).length + 1) ∧
        split.getD j [] = (parts.getD j []).map (fun x => (if j = 0 then 1 else -1) * x * values.getD j 0) := by
  set data := shuffle (columns.flatten.map (fun price => (pyInt (price * 1000) : ℚ))) with hdata
  have hlen : data.length = columns.flatten.length := by rw [hdata, (hsh _).length_eq, List.length_map]
  have hperm : data.Perm (columns.flatten.map (fun x => (⌊1000 * x⌋ : ℚ))) := by
    refine (hsh _).trans (List.Perm.of_eq ?_)
    apply List.map_congr_left
    intro x hx
    obtain ⟨l, hl, hxl⟩ := List.mem_flatten.1 hx
    have h0 := hpr l hl x hxl
    have : 0 ≤ x * 1000 := by linarith
    rw [pyInt, if_pos this, mul_comm]
  have hS : counts.sum ≠ 0 := ne_of_gt hs
  have hq : 0 ≤ (data.length : ℚ) / counts.sum := div_nonneg (by positivity) hs.le
  have hk : ∀ c ∈ counts, (((pyInt ((data.length : ℚ) / counts.sum * c)).toNat : ℚ) ≤ (data.length : ℚ) / counts.sum * c ∧
      (data.length : ℚ) / counts.sum * c < ((pyInt ((data.length : ℚ) / counts.sum * c)).toNat : ℚ) + 1) := by
    intro c hcm
    have h0 : 0 ≤ (data.length : ℚ) / counts.sum * c := mul_nonneg hq (hc c hcm)
    rw [pyInt, if_pos h0]
    have h1 : ((⌊(data.length : ℚ) / counts.sum * c⌋.toNat : ℕ) : ℚ) = (⌊(data.length : ℚ) / counts.sum * c⌋ : ℚ) := by
      have := Int.toNat_of_nonneg (Int.floor_nonneg.2 h0)
      exact_mod_cast this
    rw [h1]
    exact ⟨Int.floor_le _, Int.lt_floor_add_one _⟩
  have hsum : ∀ l : List ℚ, (∀ c ∈ l, c ∈ counts) →
      (((l.map (fun c => (pyInt ((data.length : ℚ) / counts.sum * c)).toNat)).sum : ℕ) : ℚ) ≤ (data.length : ℚ) / counts.sum * l.sum ∧
      (l ≠ [] → (data.length : ℚ) / counts.sum * l.sum < (((l.map (fun c => (pyInt ((data.length : ℚ) / counts.sum * c)).toNat)).sum : ℕ) : ℚ) + l.length) := by
    intro l
    induction l with
    | nil => intro _; simp
    | cons c l ih =>
      intro hl
      obtain ⟨i1, i2⟩ := ih fun x hx => hl x (by simp [hx])
      obtain ⟨k1, k2⟩ := hk c (hl c (by simp))
      simp only [List.map_cons, List.sum_cons, List.length_cons, Nat.cast_add, mul_add, Nat.cast_one]
      refine ⟨by linarith, fun _ => ?_⟩
      by_cases h0 : l = []
      · subst h0; simp at *; linarith
      · have := i2 h0; linarith
  obtain ⟨s1, s2⟩ := hsum counts fun c hc => hc
  have e : (data.length : ℚ) / counts.sum * counts.sum = data.length := by field_simp
  rw [e] at s1 s2
  have hne : counts ≠ [] := by rintro rfl; simp at hs
  have t1 : (counts.map (fun c => (pyInt ((data.length : ℚ) / counts.sum * c)).toNat)).sum ≤ data.length := by exact_mod_cast s1
  have t2 : data.length < (counts.map (fun c => (pyInt ((data.length : ℚ) / counts.sum * c)).toNat)).sum + counts.length := by
    exact_mod_cast s2 hne
  obtain ⟨parts, split, h1, h2, h2', h3, h4⟩ := splitLoop_ok (data := data) hS (values := values) counts 0 0 (by omega) (by omega)
  refine ⟨split, parts, data.drop (counts.map (fun c => (pyInt ((data.length : ℚ) / counts.sum * c)).toNat)).sum, h1, h2', h2, ?_, ?_, ?_⟩
  · rw [h3, List.drop_zero, List.take_append_drop]; exact hperm
  · rw [List.length_drop]; omega
  · intro j hj
    obtain ⟨g1, g2⟩ := h4 j hj
    have hmem : counts.getD j 0 ∈ counts := by
      rw [List.getD_eq_getElem?_getD, List.getElem?_eq_getElem hj]
      exact List.getElem_mem _
    obtain ⟨k1, k2⟩ := hk _ hmem
    rw [← g1, hlen] at k1 k2
    have e2 : (columns.flatten.length : ℚ) / counts.sum * counts.getD j 0 = columns.flatten.length * (counts.getD j 0 / counts.sum) := by ring
    rw [e2] at k1 k2
    exact ⟨⟨k1, k2⟩, by rw [g2]; simp [sideSign]⟩

/-- **C75**. If all counts are 0 (and there are any): `ZeroDivisionError`. -/
theorem get_prices_tree_zero {columns : List (List ℚ)} {shuffle : List ℚ → List ℚ} {counts values : List ℚ} (hne : counts ≠ [])
    (hs : counts.sum = 0) : getPricesTree columns shuffle counts values = .error .zeroDivisionError := by
  cases counts with
  | nil => exact absurd rfl hne
  | cons c cs =>
    rw [getPricesTree, hs, splitLoop]
    simp [pyDiv, bind, Except.bind]

/-- Non-vacuity of C75: a file with two lines, the counts and factors of `experiment_recpietree.py`. One price (7.25) is left over. -/
example : getPricesTree [[2, 3], [5 / 2, 7 / 2], [4, 9 / 2], [8, 29 / 4]] id [1, 1 / 2, 1 / 2, 1 / 2] [2, 2, 1, 1]
    = .ok [[4000, 6000, 5000], [-7000], [-4000], [-4500]] ∧
    (∀ l ∈ [[(2 : ℚ), 3], [5 / 2, 7 / 2], [4, 9 / 2], [8, 29 / 4]], ∀ x ∈ l, 0 ≤ x) ∧ 0 < [(1 : ℚ), 1 / 2, 1 / 2, 1 / 2].sum := by
  decide +kernel

end Auctions.Props
