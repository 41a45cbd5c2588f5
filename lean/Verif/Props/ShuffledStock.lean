import Verif.Proofs.ShuffledStock

set_option autoImplicit false

/-!
# C94: the comparison of auctions on shuffled stock prices
-/

namespace Auctions.Props

open Auctions Spec
open Auctions.Experiment (AuctionFunction)
open Auctions.StockSizes (Measures)
open Auctions.ShuffledStock (Results Columns Raw RawFor Parts addRow sumUp ofMeasures cut3 pyRound1)

theorem categories_cut {s b k : ℕ} {prices : List ℚ} (rest : List ℕ) (index : ℕ) :
    (ShuffledStock.categories s b k prices index rest).length = rest.length ∧ ∀ j (hj : j < rest.length) (hj' : j < (ShuffledStock.categories s b k prices index rest).length),
      ((ShuffledStock.categories s b k prices index rest)[j]).values =
        sortDesc ((((prices.drop (index + k * (rest.take j).sum)).take (k * rest[j])).map fun price =>
          (pyInt (price * if 0 < index + k * (rest.take j).sum then -1 * (b : ℚ) else (s : ℚ) - b) : ℚ))) := by
  induction rest generalizing index with
  | nil => simp [ShuffledStock.categories]
  | cons c rest ih =>
    obtain ⟨h1, h2⟩ := ih (index + k * c)
    refine ⟨by simp [ShuffledStock.categories, h1], fun j hj hj' => ?_⟩
    cases j with
    | zero => simp [ShuffledStock.categories, AgentCategory.init]
    | succ j =>
      have := h2 j (by simpa using hj) (by rw [h1]; simpa using hj)
      simp only [ShuffledStock.categories, List.getElem_cons_succ, List.take_succ_cons, List.sum_cons]
      rw [this]
      rw [show index + k * c + k * (rest.take j).sum = index + k * (c + (rest.take j).sum) by ring]
      congr!

theorem marketFrom_of {r : List ℕ} {prices : List ℚ} {L n buyer : ℕ} {m : Market} (h0 : 0 < r.getD 0 0) (hfirst : pyGet r 0 = .ok buyer)
    (hmarket : Market.init (ShuffledStock.categories r.sum buyer (min n L) prices 0 r) = .ok m) : MarketFrom r prices (min n L) m := by
  have hb : r.getD 0 0 = buyer := by rw [List.getD_eq_getElem?_getD, pyGet_eq_ok.1 hfirst]; rfl
  have hm := marketInit_ok hmarket
  subst hm
  obtain ⟨h1, h2⟩ := categories_cut (s := r.sum) (b := buyer) (k := min n L) (prices := prices) r 0
  refine ⟨h1, fun j hj => ?_⟩
  have hj' : j < (ShuffledStock.categories r.sum buyer (min n L) prices 0 r).length := by rw [h1]; exact hj
  have h3 := h2 j hj hj'
  have e : (Market.mk (ShuffledStock.categories r.sum buyer (min n L) prices 0 r)).valueLists.getD j [] =
      ((ShuffledStock.categories r.sum buyer (min n L) prices 0 r)[j]).values := by
    simp [Market.valueLists, List.getD_eq_getElem?_getD, List.getElem?_eq_getElem hj']
  rw [e, h3, hb]
  have e2 : r.getD j 0 = r[j] := by simp [List.getD_eq_getElem?_getD, List.getElem?_eq_getElem hj]
  rw [e2]
  refine (sortDesc_perm _).trans (List.Perm.of_eq ?_)
  rw [Nat.zero_add]
  rcases Nat.eq_zero_or_pos (min n L) with hk | hk
  · rw [hk]; simp
  · cases j with
    | zero => simp
    | succ j =>
      have hpos : 0 < min n L * (r.take (j + 1)).sum := by
        apply Nat.mul_pos hk
        cases r with
        | nil => simp at hj
        | cons a l =>
          simp only [List.getD_cons_zero] at h0
          simp only [List.take_succ_cons, List.sum_cons]
          omega
      simp only [hpos, if_true, Nat.add_eq_zero_iff, one_ne_zero, and_false, if_false]
      simp

theorem raw_market {auctions : List AuctionFunction} {r : List ℕ} {names : List String} {i : ℕ} {prices : List ℚ} {L n buyer : ℕ} {m : Market} {name : String} {x : Measures}
    (h0 : 0 < r.getD 0 0) (h : Raw auctions r names i prices L n buyer m name x) : MarketFrom r prices (min n L) m := marketFrom_of h0 h.first h.market

theorem shows_divided (name : String) (k : ℕ) {d : ℕ} (hd : 0 < d) (x : Measures) : ShowsTrial ((ofMeasures name k x).divide d) name k d x := by
  have hq : (d : ℚ) ≠ 0 := by exact_mod_cast hd.ne'
  refine ⟨rfl, rfl, div_mul_cancel₀ _ hq, div_mul_cancel₀ _ hq, div_mul_cancel₀ _ hq, ?_⟩
  simp only [Results.divide, ofMeasures, List.map_map, List.forall₂_map_left_iff]
  apply List.forall₂_same.2
  intro a _
  refine ⟨div_mul_cancel₀ _ hq, div_mul_cancel₀ _ hq, ?_, ?_⟩
  · unfold percentage
    simp only [Function.comp_apply, div_mul_cancel₀ _ hq, Nat.cast_eq_zero]
  · unfold percentage
    simp only [Function.comp_apply, div_mul_cancel₀ _ hq]

theorem parts_get {auctions : List AuctionFunction} {r : List ℕ} {names : List String} {N : ℕ} {ns : List ℕ} {stk : List (List ℚ)} {i : ℕ} {parts : List (List (ℕ × Results))}
    (h : Parts auctions r names N ns i stk parts) : ∃ hl : parts.length = stk.length, ∀ j (hj : j < stk.length), (ns ≠ [] → r.sum ≠ 0) ∧
      List.Forall₂ (fun nd p => p.1 = nd.1 ∧ ∃ R, RawFor auctions r names (i + j) stk[j] (stk[j].length / r.sum) nd.1 R ∧ p.2 = R.divide (nd.2 : ℕ))
        (rowsFor N (stk[j].length / r.sum) ns) parts[j] := by
  induction stk generalizing i parts with
  | nil => simp only [Parts] at h; subst h; exact ⟨rfl, by simp⟩
  | cons prices rest ih =>
    obtain ⟨part, parts', rfl, h1, h2, h3⟩ := h
    obtain ⟨hl, h4⟩ := ih h3
    refine ⟨by simp [hl], fun j hj => ?_⟩
    cases j with
    | zero => exact ⟨h1, by simpa using h2⟩
    | succ j =>
      have := h4 j (by simpa using hj)
      rw [show i + 1 + j = i + (j + 1) by ring] at this
      simpa using this

/-! ## The averages -/

theorem foldl_addRow (pairs : List (ℕ × Results)) (average : ℕ → Option Results) (n : ℕ) :
    (pairs.foldl addRow average) n = (rowsOfSize n pairs).foldl (fun a y => some (sumUp a y)) (average n) := by
  induction pairs generalizing average with
  | nil => rfl
  | cons p pairs ih =>
    rw [List.foldl_cons, ih]
    unfold rowsOfSize
    by_cases h : p.1 = n
    · subst h
      simp [addRow, ShuffledStock.update]
    · have h' : n ≠ p.1 := fun e => h e.symm
      simp [addRow, ShuffledStock.update, h, h']

theorem foldl_sumUp {A : ℕ} (ys : List Results) (x : Results) (hx : x.auctions.length = A) (hys : ∀ y ∈ ys, y.auctions.length = A) :
    ∃ z, ys.foldl (fun a y => some (sumUp a y)) (some x) = some z ∧ z.numPossibleTrades = x.numPossibleTrades ∧
      z.optimalCount = ((x :: ys).map (·.optimalCount)).sum ∧ z.optimalCountWithZero = ((x :: ys).map (·.optimalCountWithZero)).sum ∧
      z.optimalGft = ((x :: ys).map (·.optimalGft)).sum ∧ z.auctions.length = A ∧ ∀ j (hj : j < z.auctions.length),
        z.auctions[j].count = ((x :: ys).map fun y => (y.auctions.getD j ⟨0, 0, 0, 0⟩).count).sum ∧
        z.auctions[j].countRatio = ((x :: ys).map fun y => (y.auctions.getD j ⟨0, 0, 0, 0⟩).countRatio).sum ∧
        z.auctions[j].gft = ((x :: ys).map fun y => (y.auctions.getD j ⟨0, 0, 0, 0⟩).gft).sum ∧
        z.auctions[j].gftRatio = ((x :: ys).map fun y => (y.auctions.getD j ⟨0, 0, 0, 0⟩).gftRatio).sum := by
  induction ys generalizing x with
  | nil =>
    refine ⟨x, rfl, rfl, by simp, by simp, by simp, hx, fun j hj => ?_⟩
    simp [List.getD_eq_getElem?_getD, List.getElem?_eq_getElem hj]
  | cons y ys ih =>
    have hy := hys y (by simp)
    obtain ⟨z, h1, h2, h3, h4, h5, h6, h7⟩ := ih (x.add y) (by simp [Results.add, hx, hy]) (fun w hw => hys w (by simp [hw]))
    refine ⟨z, h1, h2, ?_, ?_, ?_, h6, fun j hj => ?_⟩
    · rw [h3]; simp only [List.map_cons, List.sum_cons, Results.add]; ring
    · rw [h4]; simp only [List.map_cons, List.sum_cons, Results.add]; ring
    · rw [h5]; simp only [List.map_cons, List.sum_cons, Results.add]; ring
    · obtain ⟨a, b, c, d⟩ := h7 j hj
      have e : (x.add y).auctions.getD j ⟨0, 0, 0, 0⟩ = (x.auctions.getD j ⟨0, 0, 0, 0⟩).add (y.auctions.getD j ⟨0, 0, 0, 0⟩) := by
        have j1 : j < x.auctions.length := by omega
        have j2 : j < y.auctions.length := by omega
        simp [Results.add, List.getD_eq_getElem?_getD, List.getElem?_eq_getElem j1, List.getElem?_eq_getElem j2, List.getElem?_zipWith]
      simp only [List.map_cons, List.sum_cons, e] at a b c d ⊢
      refine ⟨?_, ?_, ?_, ?_⟩
      · rw [a]; simp only [Columns.add]; ring
      · rw [b]; simp only [Columns.add]; ring
      · rw [c]; simp only [Columns.add]; ring
      · rw [d]; simp only [Columns.add]; ring

theorem pyRound1_rounded (x : ℚ) : Rounded1 x (pyRound1 x) := by
  have h := pyRound_near (x * 10)
  rw [abs_le] at h
  refine ⟨?_, pyRound (x * 10), by unfold pyRound1; ring⟩
  unfold pyRound1
  rw [abs_le]
  constructor <;> linarith [h.1, h.2]

theorem cut3_eq (x : ℚ) : cut3 x = CompareIterations.cut 3 x := by
  unfold cut3 CompareIterations.cut
  norm_num

theorem shows_average {A S : ℕ} {rows : List Results} {z : Results} (hA : ∀ y ∈ rows, y.auctions.length = A)
    (h : rows.foldl (fun a y => some (sumUp a y)) none = some z) : ShowsAverage (z.average S) S A rows := by
  cases rows with
  | nil => simp at h
  | cons x ys =>
    obtain ⟨z', h1, h2, h3, h4, h5, h6, h7⟩ := foldl_sumUp (A := A) ys x (hA x (by simp)) (fun y hy => hA y (by simp [hy]))
    have hz : z = z' := by
      have : some z' = some z := by rw [← h1, ← h]; rfl
      exact (Option.some.inj this).symm
    subst hz
    refine ⟨rfl, by simp [Results.average, h2], ?_, ?_, ?_, by simp [Results.average, h6], ?_⟩
    · rw [← h3]; exact pyRound1_rounded _
    · rw [← h4]; exact pyRound1_rounded _
    · rw [← h5]; exact pyRound1_rounded _
    · intro j hj
      have hj' : j < z.auctions.length := by simpa [Results.average] using hj
      obtain ⟨a, b, c, d⟩ := h7 j hj'
      rw [← a, ← b, ← c, ← d]
      simp only [Results.average, List.getElem_map]
      refine ⟨pyRound1_rounded _, ?_, pyRound1_rounded _, ?_⟩
      · rw [cut3_eq]; exact cut_spec _ _
      · rw [cut3_eq]; exact cut_spec _ _

theorem foldl_none_iff (rows : List Results) : rows.foldl (fun a y => some (sumUp a y)) none = none ↔ rows = [] := by
  cases rows with
  | nil => simp
  | cons x ys =>
    simp only [List.foldl_cons, reduceCtorEq, iff_false]
    generalize sumUp none x = y
    induction ys generalizing y with
    | nil => simp
    | cons a l ih => exact ih _

/-- **C94**. Whatever the prices and the auctions: when `experiment` returns, with at least one iteration and different sizes, the table begins with a part for each stock, in order. In
this part there is a row for the first size, and for each other size for which there are enough prices; each shows a measurement on the market of that size, exactly. (Only the row of the
first size may be wrong: if there are not enough prices for it, the measures of the largest possible market are divided by the number of iterations.) The rows of averages
follow, for all sizes that occur in some part: they show the sums of the rows of that size, divided by the number of all stocks. -/
theorem shuffled_columns {auctions : List AuctionFunction} {r : List ℕ} {N : ℕ} {ns : List ℕ} {stocks : List (List ℚ)} {names : List String} {table : List Results} {w : ℕ}
    (h0 : 0 < r.getD 0 0) (hN : 0 < N) (hnd : ns.Nodup) (h : ShuffledStock.experiment auctions r N ns stocks names = .ok (some (table, w))) :
    ∃ (parts : List (List (ℕ × Results))) (averages : List Results), table = parts.flatten.map Prod.snd ++ averages ∧
      (∃ hl : parts.length = stocks.length, ∀ i (hi : i < stocks.length),
        List.Forall₂ (fun nd p => p.1 = nd.1 ∧ ∃ name m x, names[i]? = some name ∧ MarketFrom r stocks[i] (min nd.1 (stocks[i].length / r.sum)) m ∧
          TrialOn auctions r m x ∧ ShowsTrial p.2 name (min nd.1 (stocks[i].length / r.sum)) nd.2 x) (rowsFor N (stocks[i].length / r.sum) ns) parts[i]) ∧
      List.Forall₂ (fun n row => ShowsAverage row stocks.length auctions.length (rowsOfSize n parts.flatten))
        (ns.filter fun n => rowsOfSize n parts.flatten ≠ []) averages := by
  rw [ShuffledStock.experiment] at h
  obtain ⟨o, ho, h⟩ := bind_ok_iff.1 h
  cases o with
  | none => simp at h
  | some q =>
    obtain ⟨rows, average, w'⟩ := q
    simp only [Except.ok.injEq, Option.some.injEq, Prod.mk.injEq] at h
    obtain ⟨rfl, -⟩ := h
    obtain ⟨parts, hp, rfl, rfl⟩ := ShuffledStock.stocks_parts hN hnd stocks ho
    obtain ⟨hl, hparts⟩ := parts_get hp
    have hpart : ∀ i (hi : i < stocks.length),
        List.Forall₂ (fun nd p => p.1 = nd.1 ∧ ∃ name m x, names[i]? = some name ∧ MarketFrom r stocks[i] (min nd.1 (stocks[i].length / r.sum)) m ∧
          TrialOn auctions r m x ∧ ShowsTrial p.2 name (min nd.1 (stocks[i].length / r.sum)) nd.2 x) (rowsFor N (stocks[i].length / r.sum) ns) parts[i] := by
      intro i hi
      have h1 := (hparts i hi).2
      rw [Nat.zero_add] at h1
      have hd : ∀ nd ∈ rowsFor N (stocks[i].length / r.sum) ns, 0 < nd.2 := by
        intro nd hnd
        cases ns with
        | nil => simp [rowsFor] at hnd
        | cons a l =>
          simp only [rowsFor, List.mem_cons, List.mem_map] at hnd
          rcases hnd with rfl | ⟨k, -, rfl⟩
          · dsimp only; split_ifs <;> omega
          · exact Nat.one_pos
      generalize rowsFor N (stocks[i].length / r.sum) ns = l at h1 hd
      generalize parts[i] = part at h1
      induction h1 with
      | nil => exact .nil
      | cons a _ ih =>
        refine .cons ⟨a.1, ?_⟩ (ih fun nd hnd => hd nd (by simp [hnd]))
        obtain ⟨-, R, ⟨b, m, name, x, hraw, rfl⟩, e⟩ := a
        obtain ⟨c1, c2⟩ := measure_iff.1 hraw.measured
        refine ⟨name, m, x, c2, raw_market h0 hraw, c1, ?_⟩
        rw [e]
        exact shows_divided _ _ (hd _ (by simp)) _
    refine ⟨parts, _, rfl, ⟨hl, hpart⟩, ?_⟩
    have hA : ∀ n, ∀ y ∈ rowsOfSize n parts.flatten, y.auctions.length = auctions.length := by
      intro n y hy
      obtain ⟨p, hp, rfl⟩ := List.mem_map.1 hy
      obtain ⟨part, hpm, hpp⟩ := List.mem_flatten.1 (List.mem_filter.1 hp).1
      obtain ⟨i, hi, rfl⟩ := List.getElem_of_mem hpm
      obtain ⟨nd, -, -, name, m, x, -, -, ⟨_, _, _, _, -, -, -, -, -, ht⟩, hs⟩ := forall₂_mem_right (hpart i (by omega)) hpp
      rw [hs.auctions.length_eq, ht.length_eq]
    rw [ShuffledStock.averageRows_eq ns hnd]
    simp only [foldl_addRow]
    clear h hnd hpart hparts hp ho
    induction ns with
    | nil => exact .nil
    | cons n ns ih =>
      simp only [List.filter_cons, List.filterMap_cons]
      cases hz : (rowsOfSize n parts.flatten).foldl (fun a y => some (sumUp a y)) none with
      | none =>
        have := (foldl_none_iff _).1 hz
        simp only [this, ne_eq, not_true, decide_false, Bool.false_eq_true, if_false, Option.map_none]
        exact ih
      | some z =>
        have : rowsOfSize n parts.flatten ≠ [] := by intro e; rw [e] at hz; simp at hz
        simp only [this, ne_eq, not_false_iff, decide_true, if_true, Option.map_some]
        exact .cons (shows_average (hA n) hz) ih

/-- **C94**. Whatever the prices and the auctions: if there are enough prices for the first size, repeating the experiment changes nothing. Prices are shuffled only when they are read:
all iterations measure the same market. -/
theorem shuffled_iterations_redundant {auctions : List AuctionFunction} {r : List ℕ} {N N' : ℕ} {ns : List ℕ} {stocks : List (List ℚ)} {names : List String} {table : List Results} {w : ℕ}
    (hN : 0 < N) (hN' : 0 < N') (hnd : ns.Nodup) (hfit : ∀ s ∈ stocks, ∀ n ∈ ns.head?, n ≤ s.length / r.sum)
    (h : ShuffledStock.experiment auctions r N ns stocks names = .ok (some (table, w))) :
    ∃ w', ShuffledStock.experiment auctions r N' ns stocks names = .ok (some (table, w')) := by
  rw [ShuffledStock.experiment] at h
  obtain ⟨o, ho, h⟩ := bind_ok_iff.1 h
  cases o with
  | none => simp at h
  | some q =>
    obtain ⟨rows, average, w0⟩ := q
    simp only [Except.ok.injEq, Option.some.injEq, Prod.mk.injEq] at h
    obtain ⟨rfl, -⟩ := h
    obtain ⟨parts, hp, rfl, rfl⟩ := ShuffledStock.stocks_parts hN hnd stocks ho
    obtain ⟨hl, hparts⟩ := parts_get hp
    have hrows : ∀ s ∈ stocks, rowsFor N' (s.length / r.sum) ns = rowsFor N (s.length / r.sum) ns := by
      intro s hs
      cases ns with
      | nil => rfl
      | cons n ns =>
        have := hfit s hs n (by simp)
        simp only [rowsFor, this, if_true]
    have h' : ∃ rows average w', ShuffledStock.stocks auctions r names N' ns 0 (fun _ => none) stocks = .ok (some (rows, average, w')) := by
      by_cases hsn : stocks = [] ∨ ns = []
      · rcases hsn with rfl | rfl
        · exact ⟨_, _, _, rfl⟩
        · clear * -
          generalize 0 = i
          generalize (fun _ => none : ℕ → Option Results) = av
          induction stocks generalizing i av with
          | nil => exact ⟨_, _, _, rfl⟩
          | cons s ss ih =>
            obtain ⟨a, b, c, hh⟩ := ih (i + 1) av
            rw [ShuffledStock.stocks]
            simp only [ShuffledStock.sizes, ShuffledStock.stockRows, bind, Except.bind, hh]
            exact ⟨_, _, _, rfl⟩
      · push Not at hsn
        have hsum := (hparts 0 (List.length_pos_iff.2 hsn.1)).1 hsn.2
        obtain ⟨a, b, c, hh, -⟩ := ShuffledStock.stocks_defined (auctions := auctions) (names := names) (i := 0) (average := fun _ => none) hN' hnd hsum stocks (by
          intro j hj nd hndm
          rw [hrows _ (List.getElem_mem hj)] at hndm
          have h1 := (hparts j hj).2
          have : ∃ p ∈ parts[j], p.1 = nd.1 ∧ ∃ R, RawFor auctions r names (0 + j) stocks[j] (stocks[j].length / r.sum) nd.1 R ∧ p.2 = R.divide (nd.2 : ℕ) :=
            forall₂_mem_right (R := fun (p : ℕ × Results) (nd : ℕ × ℕ) => p.1 = nd.1 ∧ ∃ R, RawFor auctions r names (0 + j) stocks[j] (stocks[j].length / r.sum) nd.1 R ∧ p.2 = R.divide (nd.2 : ℕ))
              h1.flip hndm
          obtain ⟨p, -, -, R, ⟨b, m, name, x, hraw, -⟩, -⟩ := this
          exact ⟨b, m, name, x, hraw⟩)
        exact ⟨a, b, c, hh⟩
    obtain ⟨rows', average', w', h2⟩ := h'
    obtain ⟨parts', hp', rfl, rfl⟩ := ShuffledStock.stocks_parts hN' hnd stocks h2
    obtain ⟨hl', hparts'⟩ := parts_get hp'
    have he : parts' = parts := by
      refine List.ext_getElem (by omega) fun j hj hj2 => ?_
      have hjs : j < stocks.length := by omega
      have h1 := (hparts j hjs).2
      have h3 := (hparts' j hjs).2
      rw [hrows _ (List.getElem_mem hjs)] at h3
      generalize rowsFor N (stocks[j].length / r.sum) ns = l at h1 h3
      generalize parts[j] = p1 at h1
      generalize parts'[j] = p2 at h3
      clear * - h1 h3
      induction h1 generalizing p2 with
      | nil => cases h3; rfl
      | cons a _ ih =>
        cases h3 with
        | cons b hb =>
          rw [ih _ hb]
          congr 1
          obtain ⟨a1, R, a2, a3⟩ := a
          obtain ⟨b1, R', b2, b3⟩ := b
          have := ShuffledStock.rawFor_unique a2 b2
          subst this
          exact Prod.ext (by rw [a1, b1]) (by rw [a3, b3])
    subst he
    rw [ShuffledStock.experiment]
    simp only [h2, bind, Except.bind]
    exact ⟨_, rfl⟩

/-! ## What theory predicts -/

/-- What holds of a row that is a sum of `t` rows. -/
structure Within (t : ℚ) (row : Results) : Prop where
  zero : 0 ≤ row.optimalCount ∧ row.optimalCount ≤ row.optimalCountWithZero
  each : ∀ c ∈ row.auctions, (c.count ≤ row.optimalCountWithZero ∧ row.optimalCountWithZero ≤ c.count + t) ∧ (0 ≤ c.countRatio ∧ c.countRatio ≤ 100 * t) ∧
    (0 ≤ c.gft ∧ c.gft ≤ row.optimalGft) ∧ (0 ≤ c.gftRatio ∧ c.gftRatio ≤ 100 * t)

theorem Within.mono {t t' : ℚ} {row : Results} (h : Within t row) (ht : t ≤ t') : Within t' row := by
  refine ⟨h.zero, fun c hc => ?_⟩
  obtain ⟨⟨a, b⟩, ⟨c, d⟩, e, ⟨f, g⟩⟩ := h.each c hc
  exact ⟨⟨a, by linarith⟩, ⟨c, by linarith⟩, e, ⟨f, by linarith⟩⟩

theorem Within.add {t t' : ℚ} {x y : Results} (hx : Within t x) (hy : Within t' y) : Within (t + t') (x.add y) := by
  refine ⟨⟨add_nonneg hx.zero.1 hy.zero.1, add_le_add hx.zero.2 hy.zero.2⟩, fun c hc => ?_⟩
  obtain ⟨j, hj, rfl⟩ := List.getElem_of_mem hc
  have hj2 : j < (List.zipWith Columns.add x.auctions y.auctions).length := hj
  rw [List.length_zipWith] at hj2
  have e : (x.add y).auctions[j] = (x.auctions[j]'(by omega)).add (y.auctions[j]'(by omega)) := by simp [Results.add]
  rw [e]
  obtain ⟨⟨a1, a2⟩, ⟨a3, a4⟩, ⟨a5, a6⟩, a7, a8⟩ := hx.each _ (List.getElem_mem (show j < x.auctions.length by omega))
  obtain ⟨⟨b1, b2⟩, ⟨b3, b4⟩, ⟨b5, b6⟩, b7, b8⟩ := hy.each _ (List.getElem_mem (show j < y.auctions.length by omega))
  simp only [Columns.add, Results.add]
  refine ⟨⟨?_, ?_⟩, ⟨?_, ?_⟩, ⟨?_, ?_⟩, ?_, ?_⟩ <;> linarith

theorem Within.divide {t d : ℚ} {x : Results} (hx : Within t x) (hd : 0 < d) : Within (t / d) (x.divide d) := by
  have key : ∀ {a b : ℚ}, a ≤ b → a / d ≤ b / d := fun h => div_le_div_of_nonneg_right h hd.le
  refine ⟨⟨div_nonneg hx.zero.1 hd.le, key hx.zero.2⟩, fun c hc => ?_⟩
  obtain ⟨a, ha, rfl⟩ := List.mem_map.1 hc
  obtain ⟨⟨a1, a2⟩, ⟨a3, a4⟩, ⟨a5, a6⟩, a7, a8⟩ := hx.each a ha
  refine ⟨⟨key a1, ?_⟩, ⟨div_nonneg a3 hd.le, ?_⟩, ⟨div_nonneg a5 hd.le, key a6⟩, div_nonneg a7 hd.le, ?_⟩
  · have := key a2; rwa [add_div] at this
  · have := key a4; rwa [mul_div_assoc] at this
  · have := key a8; rwa [mul_div_assoc] at this

theorem ofMeasures_within {name : String} {k : ℕ} {x : Measures} (hx : TrialFine k x) : Within 1 (ofMeasures name k x) := by
  refine ⟨⟨by simp [ofMeasures], by simpa [ofMeasures] using hx.count_le⟩, fun c hc => ?_⟩
  obtain ⟨a, ha, rfl⟩ := List.mem_map.1 hc
  have hf := hx.each a ha
  have hG : 0 ≤ x.optimalGft := le_trans hf.gain_nonneg hf.gain_le
  have h1 : (a.1 : ℚ) ≤ (x.optimalCountWithZero : ℚ) := by exact_mod_cast hf.deals_le
  have h2 : (x.optimalCountWithZero : ℚ) ≤ (a.1 : ℚ) + 1 := by exact_mod_cast hf.one
  refine ⟨⟨h1, h2⟩, ?_, ⟨hf.gain_nonneg, hf.gain_le⟩, ?_⟩
  · dsimp only
    split_ifs with h0
    · norm_num
    · have : (a.1 : ℚ) / x.optimalCountWithZero ≤ 1 := div_le_one_of_le₀ h1 (by positivity)
      exact ⟨by positivity, by linarith⟩
  · dsimp only
    split_ifs with h0
    · norm_num
    · have h3 : a.2 / x.optimalGft ≤ 1 := div_le_one_of_le₀ hf.gain_le hG
      have h4 : 0 ≤ a.2 / x.optimalGft := div_nonneg hf.gain_nonneg hG
      exact ⟨by linarith, by linarith⟩

theorem sumUp_within (ys : List Results) (hys : ∀ y ∈ ys, Within 1 y) {x z : Results} {t : ℚ} (hx : Within t x)
    (h : ys.foldl (fun a y => some (sumUp a y)) (some x) = some z) : Within (t + ys.length) z := by
  induction ys generalizing x t with
  | nil =>
    simp only [List.foldl_nil, Option.some.injEq] at h
    subst h
    simpa using hx
  | cons y ys ih =>
    have := ih (fun w hw => hys w (by simp [hw])) (hx.add (hys y (by simp))) h
    refine this.mono ?_
    simp only [List.length_cons]
    push_cast
    linarith

theorem pyRound1_mono {x y : ℚ} (h : x ≤ y) : pyRound1 x ≤ pyRound1 y := by
  unfold pyRound1
  have : (pyRound (x * 10) : ℚ) ≤ (pyRound (y * 10) : ℚ) := by exact_mod_cast pyRound_mono (by linarith)
  linarith

theorem pyRound1_add_one (x : ℚ) : pyRound1 (x + 1) = pyRound1 x + 1 := by
  unfold pyRound1
  have e : (x + 1) * 10 = x * 10 + ((10 : ℤ) : ℚ) := by push_cast; ring
  rw [e, pyRound_add_even _ _ (by norm_num)]
  push_cast
  ring

theorem pyRound1_zero : pyRound1 0 = 0 := by
  unfold pyRound1
  have : (0 : ℚ) * 10 = ((0 : ℤ) : ℚ) := by norm_num
  rw [this, pyRound_int]
  norm_num

theorem within_predicted {row : Results} (h : Within 1 row) : ShuffledAsPredicted row :=
  ⟨h.zero, fun c hc => (h.each c hc).1, fun c hc => by simpa using (h.each c hc).2.1, fun c hc => (h.each c hc).2.2.1,
    fun c hc => by simpa using (h.each c hc).2.2.2⟩

theorem average_predicted {t : ℚ} {S : ℕ} {z : Results} (h : Within t z) (hS : 0 < S) (ht : t ≤ S) : ShuffledAsPredicted (z.average S) := by
  have hSq : (0 : ℚ) < S := by exact_mod_cast hS
  have h1 : Within 1 (z.divide S) := (h.divide hSq).mono (by rw [div_le_one hSq]; exact ht)
  have hz : ∀ {a : ℚ}, 0 ≤ a → 0 ≤ pyRound1 a := fun h => by have := pyRound1_mono h; rwa [pyRound1_zero] at this
  have hc0 : ∀ {a : ℚ}, 0 ≤ a → 0 ≤ cut3 a := fun h => by rw [cut3_eq]; exact cut_nonneg h
  have hc1 : ∀ {a : ℚ}, a ≤ 100 * 1 → cut3 a ≤ 100 := fun h => by
    rw [cut3_eq]
    have := cut_le_nat (d := 3) (n := 100) (by push_cast; linarith : _ ≤ ((100 : ℕ) : ℚ))
    exact_mod_cast this
  have hmem : ∀ c ∈ (z.average S).auctions, ∃ a ∈ (z.divide S).auctions, c = ⟨pyRound1 a.count, cut3 a.countRatio, pyRound1 a.gft, cut3 a.gftRatio⟩ := by
    intro c hc
    obtain ⟨a, ha, rfl⟩ := List.mem_map.1 hc
    exact ⟨_, List.mem_map.2 ⟨a, ha, rfl⟩, rfl⟩
  refine ⟨⟨hz h1.zero.1, pyRound1_mono h1.zero.2⟩, fun c hc => ?_, fun c hc => ?_, fun c hc => ?_, fun c hc => ?_⟩ <;>
    obtain ⟨a, ha, rfl⟩ := hmem c hc <;> obtain ⟨⟨a1, a2⟩, ⟨a3, a4⟩, ⟨a5, a6⟩, a7, a8⟩ := h1.each a ha
  · refine ⟨pyRound1_mono a1, ?_⟩
    have := pyRound1_mono a2
    rwa [pyRound1_add_one] at this
  · exact ⟨hc0 a3, hc1 a4⟩
  · exact ⟨hz a5, pyRound1_mono a6⟩
  · exact ⟨hc0 a7, hc1 a8⟩

theorem abs_pyInt_le (x : ℚ) : |(pyInt x : ℚ)| ≤ |x| := by
  unfold pyInt
  split_ifs with h
  · rw [abs_of_nonneg h, abs_of_nonneg (by exact_mod_cast Int.floor_nonneg.2 h)]
    exact Int.floor_le x
  · push Not at h
    have h1 : (⌈x⌉ : ℚ) ≤ 0 := by exact_mod_cast Int.ceil_le.2 (by simpa using h.le)
    rw [abs_of_nonpos h1, abs_of_neg h]
    have := Int.le_ceil x
    linarith

theorem usable_from {r : List ℕ} {prices : List ℚ} {k : ℕ} {m : Market} (hpos : ∀ x ∈ r, 0 < x) (hr : r ≠ []) (hk : k * r.sum ≤ prices.length) {B : ℚ}
    (hB : ∀ v ∈ prices, |v| ≤ B) (hmax : (r.sum : ℚ) * (B * r.sum) < MAX_VALUE) (h : MarketFrom r prices k m) : Usable r k prices.length m := by
  obtain ⟨h1, h2⟩ := h
  have hlen : 0 < r.length := List.length_pos_iff.2 hr
  have hr0 : r.getD 0 0 = r[0] := by simp [List.getD_eq_getElem?_getD, List.getElem?_eq_getElem hlen]
  have hp0 : 0 < r[0] := hpos _ (List.getElem_mem _)
  have hle0 : r[0] ≤ r.sum := List.single_le_sum (by simp) _ (List.getElem_mem _)
  have hs1 : (1 : ℚ) ≤ (r.sum : ℕ) := by exact_mod_cast (by omega : 1 ≤ r.sum)
  have hval : ∀ j (hj : j < m.categories.length), m.categories[j].values.length ≤ k * r.getD j 0 ∧ ∀ v ∈ m.categories[j].values, |v| ≤ B * r.sum := by
    intro j hj
    have hj' : j < r.length := by unfold Market.numCategories at h1; omega
    have h3 := h2 j hj'
    have e : m.valueLists.getD j [] = m.categories[j].values := by simp [Market.valueLists, List.getD_eq_getElem?_getD, List.getElem?_eq_getElem hj]
    rw [e] at h3
    refine ⟨by rw [h3.length_eq, List.length_map, List.length_take]; omega, fun v hv => ?_⟩
    obtain ⟨p, hp, rfl⟩ := List.mem_map.1 (h3.subset hv)
    have hpB := hB p (List.mem_of_mem_drop (List.mem_of_mem_take hp))
    have hB0 : 0 ≤ B := (abs_nonneg p).trans hpB
    refine (abs_pyInt_le _).trans ?_
    rw [abs_mul]
    apply mul_le_mul hpB _ (abs_nonneg _) hB0
    have hq : ((r[0] : ℕ) : ℚ) ≤ (r.sum : ℕ) := by exact_mod_cast hle0
    rw [hr0]
    split_ifs
    · rw [abs_of_nonneg (by linarith)]
      have : (0 : ℚ) ≤ (r[0] : ℕ) := by positivity
      linarith
    · rw [abs_neg, abs_of_nonneg (by positivity)]
      exact hq
  refine ⟨h1.symm, ⟨0, by unfold Market.numCategories at h1; omega, ?_⟩, ?_, ?_, ?_⟩
  · have h3 := (hval 0 (by unfold Market.numCategories at h1; omega)).1
    unfold AgentCategory.size
    rw [hr0] at h3 ⊢
    rw [Nat.add_mul]
    omega
  · intro c hc v hv
    obtain ⟨j, hj, rfl⟩ := List.getElem_of_mem hc
    have h3 := (hval j hj).2 v hv
    have h4 := neg_le_of_abs_le h3
    have h5 : 0 ≤ B * r.sum := (abs_nonneg v).trans h3
    nlinarith
  · intro c hc v hv
    obtain ⟨j, hj, rfl⟩ := List.getElem_of_mem hc
    have h3 := le_of_abs_le ((hval j hj).2 v hv)
    have : (r.sum : ℚ) * v ≤ (r.sum : ℚ) * (B * r.sum) := mul_le_mul_of_nonneg_left h3 (by linarith)
    linarith
  · refine le_trans ?_ hk
    unfold Market.numAgents Market.valueLists
    rw [List.map_map]
    have e : k * r.sum = (r.map (k * ·)).sum := by rw [List.sum_map_mul_left]; simp
    rw [e]
    refine List.Forall₂.sum_le_sum ?_
    rw [List.forall₂_iff_get]
    refine ⟨by simp only [List.length_map]; exact h1, fun j hj hj' => ?_⟩
    simp only [List.get_eq_getElem, List.getElem_map, Function.comp_apply]
    simp only [List.length_map] at hj hj'
    have := (hval j hj).1
    rwa [List.getD_eq_getElem?_getD, List.getElem?_eq_getElem hj', Option.getD_some] at this

theorem raw_fine {auctions : List AuctionFunction} {r : List ℕ} {stocks : List (List ℚ)} {names : List String} (hs : SensibleShuffled r stocks names)
    (hp : ∀ a ∈ auctions, Balanced 2000000 a) {i : ℕ} (hi : i < stocks.length) (n : ℕ) :
    (∃ buyer m name x, Raw auctions r names i stocks[i] (stocks[i].length / r.sum) n buyer m name x) ∧
    ∀ buyer m name x, Raw auctions r names i stocks[i] (stocks[i].length / r.sum) n buyer m name x → TrialFine (min n (stocks[i].length / r.sum)) x := by
  obtain ⟨B, hB, hmax⟩ := hs.bounded
  have hlen : 0 < r.length := List.length_pos_iff.2 hs.recipe
  have hp0 : 0 < r[0] := hs.positive _ (List.getElem_mem _)
  have hle0 : r[0] ≤ r.sum := List.single_le_sum (by simp) _ (List.getElem_mem _)
  have hr0 : r.getD 0 0 = r[0] := by simp [List.getD_eq_getElem?_getD, List.getElem?_eq_getElem hlen]
  have hsum : r.sum ≠ 0 := by omega
  have hin : i < names.length := by have := hs.names; omega
  set L := stocks[i].length / r.sum with hL
  have hcat := (categories_cut (s := r.sum) (b := r[0]) (k := min n L) (prices := stocks[i]) r 0).1
  obtain ⟨m, hm⟩ : ∃ m, Market.init (ShuffledStock.categories r.sum r[0] (min n L) stocks[i] 0 r) = .ok m := by
    cases hc : ShuffledStock.categories r.sum r[0] (min n L) stocks[i] 0 r with
    | nil => rw [hc] at hcat; simp only [List.length_nil] at hcat; omega
    | cons a b => exact ⟨⟨a :: b⟩, rfl⟩
  have hfirst : pyGet r 0 = .ok r[0] := pyGet_eq_ok.2 (List.getElem?_eq_getElem hlen)
  have hkk : min n L * r.sum ≤ stocks[i].length := by
    have h1 : L * r.sum ≤ stocks[i].length := Nat.div_mul_le_self _ _
    have h2 : min n L * r.sum ≤ L * r.sum := Nat.mul_le_mul_right _ (min_le_right _ _)
    omega
  have main : ∀ m', MarketFrom r stocks[i] (min n L) m' → ∃ x, TrialOn auctions r m' x ∧ TrialFine (min n L) x := by
    intro m' hm'
    have hu := usable_from hs.positive hs.recipe hkk (hB _ (List.getElem_mem hi)) hmax hm'
    exact trial_fine hs.positive hs.recipe (n := min n L) (A := 2000000) ⟨hu.length, hu.size, hu.low, hu.high, le_trans hu.agents (hs.agents _ (List.getElem_mem hi))⟩ le_rfl hp
  have hmf : ∀ buyer m name x, Raw auctions r names i stocks[i] L n buyer m name x → MarketFrom r stocks[i] (min n L) m :=
    fun _ _ _ _ h => raw_market (by omega) h
  constructor
  · obtain ⟨x, hx, -⟩ := main m (marketFrom_of (by omega : 0 < r.getD 0 0) hfirst hm)
    exact ⟨r[0], m, names[i], x, ShuffledStock.possible_eq hsum, hfirst, hm, measure_iff.2 ⟨hx, List.getElem?_eq_getElem hin⟩⟩
  · intro b m' name x hraw
    obtain ⟨x', hx', hf⟩ := main m' (hmf _ _ _ _ hraw)
    have h1 := hraw.measured
    have h2 := measure_iff.2 ⟨hx', (measure_iff.1 h1).2⟩
    rw [h1] at h2
    obtain ⟨-, rfl⟩ := Prod.mk.inj (Option.some.inj (Except.ok.inj h2))
    exact hf

theorem rowsFor_nodup {N L : ℕ} {ns : List ℕ} (h : ns.Nodup) : ((rowsFor N L ns).map Prod.fst).Nodup := by
  cases ns with
  | nil => simp [rowsFor]
  | cons n ns =>
    obtain ⟨h1, h2⟩ := List.nodup_cons.1 h
    simp only [rowsFor, List.map_cons, List.map_map]
    refine List.nodup_cons.2 ⟨?_, ?_⟩
    · simp only [List.mem_map, Function.comp_apply, not_exists, not_and]
      intro k hk e
      exact h1 (e ▸ (List.mem_filter.1 hk).1)
    · have : (List.map (Prod.fst ∘ fun n => (n, 1)) (ns.filter (· ≤ L))) = ns.filter (· ≤ L) := by simp [Function.comp_def]
      rw [this]
      exact h2.filter _

theorem rowsOfSize_append (n : ℕ) (a b : List (ℕ × Results)) : rowsOfSize n (a ++ b) = rowsOfSize n a ++ rowsOfSize n b := by
  simp [rowsOfSize]

theorem rowsOfSize_le_one {n : ℕ} {part : List (ℕ × Results)} (h : (part.map Prod.fst).Nodup) : (rowsOfSize n part).length ≤ 1 := by
  induction part with
  | nil => simp [rowsOfSize]
  | cons p part ih =>
    rw [List.map_cons, List.nodup_cons] at h
    have ih := ih h.2
    unfold rowsOfSize at ih ⊢
    by_cases hp : p.1 = n
    · have : part.filter (·.1 = n) = [] := by
        rw [List.filter_eq_nil_iff]
        intro q hq e
        simp only [decide_eq_true_eq] at e
        exact h.1 (List.mem_map.2 ⟨q, hq, by rw [e, hp]⟩)
      simp [hp, this]
    · simpa [hp] using ih

theorem rowsOfSize_flatten {n : ℕ} {parts : List (List (ℕ × Results))} (h : ∀ part ∈ parts, (part.map Prod.fst).Nodup) :
    (rowsOfSize n parts.flatten).length ≤ parts.length := by
  induction parts with
  | nil => simp [rowsOfSize]
  | cons p parts ih =>
    rw [List.flatten_cons, rowsOfSize_append, List.length_append, List.length_cons]
    have h1 := rowsOfSize_le_one (n := n) (h p (by simp))
    have h2 := ih fun q hq => h q (by simp [hq])
    omega

/-- **C94**. On sensible prices, the comparison of strongly budget balanced auctions fills the table without a warning, and all rows are as theory predicts, even those
that are divided by the wrong number. If there are enough prices for the first size in all stocks, the rows of the stocks also show at most as many deals as procurement-sets, and a gain
of at least `1 - 1/k` of the optimum. -/
theorem shuffled_as_predicted {auctions : List AuctionFunction} {r : List ℕ} {N : ℕ} {ns : List ℕ} {stocks : List (List ℚ)} {names : List String}
    (hs : SensibleShuffled r stocks names) (hp : ∀ a ∈ auctions, Balanced 2000000 a) (hN : 0 < N) (hnd : ns.Nodup) :
    ∃ rows averages, ShuffledStock.experiment auctions r N ns stocks names = .ok (some (rows ++ averages, 0)) ∧
      (∀ row ∈ rows ++ averages, ShuffledAsPredicted row) ∧ (∀ row ∈ averages, row.stockName = "Average") ∧
      ((∀ s ∈ stocks, ∀ n ∈ ns.head?, n ≤ s.length / r.sum) → ∀ row ∈ rows, row.numPossibleTrades ∈ ns ∧ row.optimalCountWithZero ≤ row.numPossibleTrades ∧
        ∀ c ∈ row.auctions, 0 < row.optimalGft → 0 < row.optimalCountWithZero → (1 - 1 / row.optimalCountWithZero) * 100 ≤ c.gftRatio) := by
  have hlen : 0 < r.length := List.length_pos_iff.2 hs.recipe
  have hp0 : 0 < r[0] := hs.positive _ (List.getElem_mem _)
  have hle0 : r[0] ≤ r.sum := List.single_le_sum (by simp) _ (List.getElem_mem _)
  have hsum : r.sum ≠ 0 := by omega
  obtain ⟨rows, average, w, h1, h2⟩ := ShuffledStock.stocks_defined (auctions := auctions) (names := names) (i := 0) (average := fun _ => none) hN hnd hsum stocks (by
    intro j hj nd _
    rw [Nat.zero_add]
    exact (raw_fine hs hp hj nd.1).1)
  have hw : w = 0 := h2 (by
    intro j hj nd _ b m name x hraw
    rw [Nat.zero_add] at hraw
    exact (mkRow_predicted (name := name) ((raw_fine hs hp hj nd.1).2 b m name x hraw)).2)
  subst hw
  obtain ⟨parts, hpp, rfl, rfl⟩ := ShuffledStock.stocks_parts hN hnd stocks h1
  obtain ⟨hl, hparts⟩ := parts_get hpp
  have hpair : ∀ p ∈ parts.flatten, ∃ (i : ℕ) (hi : i < stocks.length), ∃ nd ∈ rowsFor N (stocks[i].length / r.sum) ns, ∃ name x, TrialFine (min nd.1 (stocks[i].length / r.sum)) x ∧
      p.2 = (ofMeasures name (min nd.1 (stocks[i].length / r.sum)) x).divide (nd.2 : ℕ) := by
    intro p hpm
    obtain ⟨part, hpart, hpm⟩ := List.mem_flatten.1 hpm
    obtain ⟨i, hi, rfl⟩ := List.getElem_of_mem hpart
    have hi' : i < stocks.length := by omega
    have h3 := (hparts i hi').2
    rw [Nat.zero_add] at h3
    obtain ⟨nd, hnd', -, R, ⟨b, m, name, x, hraw, rfl⟩, e⟩ := forall₂_mem_right h3 hpm
    exact ⟨i, hi', nd, hnd', name, x, (raw_fine hs hp hi' nd.1).2 b m name x hraw, e⟩
  have hd : ∀ L, ∀ nd ∈ rowsFor N L ns, 0 < nd.2 := by
    intro L nd hnd
    cases ns with
    | nil => simp [rowsFor] at hnd
    | cons a l =>
      simp only [rowsFor, List.mem_cons, List.mem_map] at hnd
      rcases hnd with rfl | ⟨k, -, rfl⟩
      · dsimp only; split_ifs <;> omega
      · exact Nat.one_pos
  have hwithin : ∀ p ∈ parts.flatten, Within 1 p.2 := by
    intro p hpm
    obtain ⟨i, hi, nd, hnd', name, x, hf, e⟩ := hpair p hpm
    rw [e]
    have hd1 : (1 : ℚ) ≤ (nd.2 : ℕ) := by exact_mod_cast hd _ nd hnd'
    exact ((ofMeasures_within hf).divide (by linarith)).mono (by rw [div_le_one (by linarith)]; exact hd1)
  have havg : ∀ row ∈ ShuffledStock.averageRows stocks.length (parts.flatten.foldl addRow fun _ => none) ns, ShuffledAsPredicted row ∧ row.stockName = "Average" := by
    intro row hrow
    rw [ShuffledStock.averageRows_eq ns hnd] at hrow
    obtain ⟨n, hn, hrow⟩ := List.mem_filterMap.1 hrow
    rw [foldl_addRow] at hrow
    obtain ⟨z, hz, rfl⟩ := Option.map_eq_some_iff.1 hrow
    refine ⟨?_, rfl⟩
    have hlenle : (rowsOfSize n parts.flatten).length ≤ parts.length := rowsOfSize_flatten (by
      intro part hpart
      obtain ⟨i, hi, rfl⟩ := List.getElem_of_mem hpart
      have h3 := (hparts i (by omega)).2
      have e : parts[i].map Prod.fst = (rowsFor N (stocks[i].length / r.sum) ns).map Prod.fst := by
        generalize rowsFor N (stocks[i].length / r.sum) ns = l at h3
        generalize parts[i] = q at h3
        clear * - h3
        induction h3 with
        | nil => rfl
        | cons a _ ih => rw [List.map_cons, List.map_cons, ih, a.1]
      rw [e]
      exact rowsFor_nodup hnd)
    have hall : ∀ y ∈ rowsOfSize n parts.flatten, Within 1 y := by
      intro y hy
      obtain ⟨p, hp, rfl⟩ := List.mem_map.1 hy
      exact hwithin p (List.mem_filter.1 hp).1
    cases hrows : rowsOfSize n parts.flatten with
    | nil => rw [hrows] at hz; simp at hz
    | cons y ys =>
      rw [hrows] at hz hlenle hall
      have h5 := sumUp_within ys (fun v hv => hall v (by simp [hv])) (hall y (by simp)) (z := z) hz
      simp only [List.length_cons] at hlenle
      refine average_predicted h5 (by omega) ?_
      have : ((1 + ys.length : ℕ) : ℚ) ≤ (stocks.length : ℕ) := by exact_mod_cast (by omega)
      push_cast at this
      exact this
  refine ⟨parts.flatten.map Prod.snd, ShuffledStock.averageRows stocks.length (parts.flatten.foldl addRow fun _ => none) ns,
    by rw [ShuffledStock.experiment]; simp only [h1, bind, Except.bind], ?_, fun row hrow => (havg row hrow).2, ?_⟩
  · intro row hrow
    rcases List.mem_append.1 hrow with h | h
    · obtain ⟨p, hp, rfl⟩ := List.mem_map.1 h
      exact within_predicted (hwithin p hp)
    · exact (havg row h).1
  · intro hfit row hrow
    obtain ⟨p, hpm, rfl⟩ := List.mem_map.1 hrow
    obtain ⟨i, hi, nd, hnd', name, x, hf, e⟩ := hpair p hpm
    have hn : nd.1 ∈ ns ∧ nd.1 ≤ stocks[i].length / r.sum ∧ nd.2 = 1 := by
      cases ns with
      | nil => simp [rowsFor] at hnd'
      | cons a l =>
        have ha := hfit _ (List.getElem_mem hi) a (by simp)
        simp only [rowsFor, List.mem_cons, List.mem_map, List.mem_filter, decide_eq_true_eq] at hnd'
        rcases hnd' with rfl | ⟨k, ⟨hk, hkL⟩, rfl⟩
        · exact ⟨by simp, ha, by simp [ha]⟩
        · exact ⟨by simp [hk], hkL, rfl⟩
    obtain ⟨hn1, hn2, hn3⟩ := hn
    rw [min_eq_left hn2] at e hf
    rw [e, hn3]
    simp only [Results.divide, ofMeasures, Nat.cast_one, div_one]
    refine ⟨hn1, by exact_mod_cast hf.within, fun c hc hg hk => ?_⟩
    simp only [List.map_map, List.mem_map, Function.comp_apply] at hc
    obtain ⟨a, ha, rfl⟩ := hc
    have hfa := hf.each a ha
    have hk' : 0 < x.optimalCountWithZero := by exact_mod_cast hk
    have h3 := hfa.gain_ge hk'
    simp only [hg.ne', if_false]
    have : 1 - 1 / (x.optimalCountWithZero : ℚ) ≤ a.2 / x.optimalGft := by rw [le_div_iff₀ hg]; exact h3
    linarith

/-! ## The prices -/

/-- **C94**. `getAllPricesShuffled` on a stock whose prices have not been read: the prices of all four columns, in thousandths without further decimals, in some order. Reading the same stock
again returns the same list in the same order, whatever the file holds and the shuffles do, and other stocks are not affected. -/
theorem shuffled_prices {kept : String → Option (List ℚ)} {columns : List (List ℚ)} {name : String} {shuffle : ℕ → List ℚ → List ℚ} (h : ∀ k l, (shuffle k l).Perm l)
    (hk : kept name = none) :
    (ShuffledStock.getAllPricesShuffled kept columns name shuffle).1.Perm (columns.flatten.map fun price => (pyInt (price * 1000) : ℚ)) ∧
    (∀ columns' shuffle', (ShuffledStock.getAllPricesShuffled (ShuffledStock.getAllPricesShuffled kept columns name shuffle).2 columns' name shuffle').1 =
      (ShuffledStock.getAllPricesShuffled kept columns name shuffle).1) ∧
    ∀ other ≠ name, (ShuffledStock.getAllPricesShuffled kept columns name shuffle).2 other = kept other := by
  unfold ShuffledStock.getAllPricesShuffled
  simp only [hk]
  refine ⟨(h 1 _).trans (h 0 _), fun _ _ => by simp, fun other ho => by simp [ho]⟩

/-! ## What the table does not say -/

set_option synthInstance.maxHeartbeats 200000 in
set_option synthInstance.maxSize 1000 in
/-- **C94**. When there are not enough prices for the first size, the row of that size is divided by the number of iterations: the same market, with three deals in the optimal trade, is
shown with 3 deals if there is one iteration, and with 0.75 if there are four. -/
theorem shuffled_first_size_divided :
    (ShuffledStock.experiment sbbAuctions [1, 1] 1 [9] [[9, 8, 7, 1, 2, 3]] ["A"]).map (·.map fun t => t.1.map fun row => (row.numPossibleTrades, row.optimalCount, row.auctions.map (·.countRatio))) =
      .ok (some [(3, 3, [200 / 3, 200 / 3]), (3, 3, [66666 / 1000, 66666 / 1000])]) ∧
    (ShuffledStock.experiment sbbAuctions [1, 1] 4 [9] [[9, 8, 7, 1, 2, 3]] ["A"]).map (·.map fun t => t.1.map fun row => (row.numPossibleTrades, row.optimalCount, row.auctions.map (·.countRatio))) =
      .ok (some [(3, 3 / 4, [50 / 3, 50 / 3]), (3, 8 / 10, [16666 / 1000, 16666 / 1000])]) := by
  constructor <;> decide +kernel

/-- **C94**. The rows of averages are too low for sizes that do not occur in all stocks: the sums are divided by the number of all stocks. Here the only stock with size 3 shows
three deals, and the average of size 3 is one and a half. -/
theorem shuffled_average_too_low :
    (ShuffledStock.experiment sbbAuctions [1, 1] 2 [1, 3] [[9, 8, 7, 1, 2, 3], [5, 1]] ["A", "B"]).map
        (·.map fun t => t.1.map fun row => (row.stockName, row.numPossibleTrades, row.optimalCount)) =
      .ok (some [("A", 1, 1), ("A", 3, 3), ("B", 1, 1), ("Average", 1, 1), ("Average", 3, 3 / 2)]) := by
  decide +kernel

/-- Non-vacuity of C94. -/
example : SensibleShuffled [1, 1] [[9, 8, 7, 1, 2, 3], [5, 1]] ["A", "B"] ∧ rowsFor 4 3 [9, 1, 3, 4] = [(9, 4), (1, 1), (3, 1)] :=
  ⟨⟨by decide, by decide, by decide, ⟨9, by decide +kernel, by decide +kernel⟩, by decide⟩, by decide⟩

end Auctions.Props
