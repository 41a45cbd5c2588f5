import Verif.Spec.TreeStockExperiment
import Verif.Proofs.TreeExperiment
import Verif.Proofs.TreeShape
import Verif.Proofs.Agents

set_option autoImplicit false

/-!
# Lemmas on the loops of `experiment_ascending_auction_recipetree_stock.py`
-/

namespace Auctions.TreeStockExperiment

open Auctions Spec

/-- The list `results` for a measurement. -/
def toResults (name : String) (possible : ℕ) (x : TreeMeasurement) : Results :=
  { stockName := name
    numPossibleTrades := possible
    optimalCount := x.optimalDeals
    optimalKmin := x.kmin
    optimalKmax := x.kmax
    optimalGft := x.optimalGain
    auctionCount := x.deals
    countRatio := if x.optimalDeals = 0 then 0 else (x.deals : ℚ) / x.optimalDeals * 100
    gft := x.gain
    gftRatio := if x.optimalGain = 0 then 0 else x.gain / x.optimalGain * 100 }

variable {f : List (List ℕ) → ℚ → Py (List ℚ)} {fuel : ℕ} {recipe : List PyObj} {counts : List ℚ}

theorem addMarket_some {name : String} {n possible : ℕ} {m : Market} {s s' : State}
    (h : addMarket f fuel recipe name n possible m s = .ok (some s')) :
    ∃ x, TreeMeasured f fuel recipe m x ∧ s' = s.add n (toResults name possible x) (decide (x.optimalDeals < x.deals)) := by
  unfold addMarket at h
  rcases ho : RecipeTree.init m.numCategories recipe with e | t
  · simp [ho, bind, Except.bind] at h
  rcases ha : TreeAuction.auction f m recipe fuel with e | _ | trade
  · simp [ho, ha, bind, Except.bind] at h
  · simp [ho, ha, bind, Except.bind] at h
  simp only [ho, ha, bind, Except.bind, Except.ok.injEq, Option.some.injEq] at h
  exact ⟨_, ⟨t, trade, ho, ha, _, rfl, rfl⟩, h.symm⟩

/-- The entry of `total_results` for a size holds the sums of the measurements `xs`. -/
def Holds (o : Option Results) (xs : List TreeMeasurement) : Prop :=
  match o with
  | none => xs = []
  | some r => xs ≠ [] ∧ r.optimalCount = total (fun x => x.optimalDeals) xs ∧ r.optimalKmin = total (fun x => x.kmin) xs ∧
    r.optimalKmax = total (fun x => x.kmax) xs ∧ r.optimalGft = total (fun x => x.optimalGain) xs ∧
    r.auctionCount = total (fun x => x.deals) xs ∧
    r.countRatio = total (fun x => if x.optimalDeals = 0 then 0 else (x.deals : ℚ) / x.optimalDeals * 100) xs ∧
    r.gft = total (fun x => x.gain) xs ∧
    r.gftRatio = total (fun x => if x.optimalGain = 0 then 0 else x.gain / x.optimalGain * 100) xs

theorem total_append (g : TreeMeasurement → ℚ) (xs ys : List TreeMeasurement) : total g (xs ++ ys) = total g xs + total g ys := by
  simp [total]

theorem total_one (g : TreeMeasurement → ℚ) (x : TreeMeasurement) : total g [x] = g x := by simp [total]

theorem Holds.add {s : State} {n : ℕ} {xs : List TreeMeasurement} (h : Holds (s.results n) xs) (name : String) (possible : ℕ)
    (x : TreeMeasurement) (w : Bool) : Holds ((s.add n (toResults name possible x) w).results n) (xs ++ [x]) := by
  rcases hr : s.results n with _ | r
  · rw [hr] at h
    simp only [Holds] at h
    subst h
    simp [State.add, hr, Holds, toResults, total_one]
  · rw [hr] at h
    obtain ⟨h0, h1, h2, h3, h4, h5, h6, h7, h8⟩ := h
    simp only [State.add, hr, if_true, Holds, Results.add, toResults, total_append, total_one]
    exact ⟨by simp, by rw [h1], by rw [h2], by rw [h3], by rw [h4], by rw [h5], by rw [h6], by rw [h7], by rw [h8]⟩

theorem add_ne {s : State} {n k : ℕ} (h : k ≠ n) (r : Results) (w : Bool) : (s.add n r w).results k = s.results k := by
  simp [State.add, h]

/-- The size at position `p` is measured when `last_iteration` is `last`. -/
def MeasuredFrom (last : Bool) (available : ℕ) (sizes : List ℕ) (p : ℕ) : Prop :=
  ((sizes.take (p + 1)).filter (fun n => available < n)).length + (if last then 1 else 0) ≤ 1

/-- `m` is the market of size `n` from the shuffled lists `prices`. -/
def MarketOf (prices : List (List ℚ)) (counts : List ℚ) (n : ℕ) (m : Market) : Prop :=
  if n ≤ (prices.getD 0 []).length then ∃ cats, firstPrices n counts 0 prices = .ok cats ∧ Market.init cats = .ok m
  else Market.init (prices.map (AgentCategory.init "agent")) = .ok m

theorem sizes_some {name : String} {prices : List (List ℚ)} {nums : List ℕ} (hd : nums.Nodup) {last : Bool} {s s' : State}
    (h : sizes f fuel recipe counts name prices nums last s = .ok (some s')) :
    ∃ X : ℕ → TreeMeasurement,
      (∀ p (hp : p < nums.length), MeasuredFrom last (prices.getD 0 []).length nums p →
        ∃ m, MarketOf prices counts nums[p] m ∧ TreeMeasured f fuel recipe m (X p)) ∧
      (∀ p (hp : p < nums.length) xs, Holds (s.results nums[p]) xs →
        (MeasuredFrom last (prices.getD 0 []).length nums p → Holds (s'.results nums[p]) (xs ++ [X p])) ∧
        (¬ MeasuredFrom last (prices.getD 0 []).length nums p → Holds (s'.results nums[p]) xs)) ∧
      (∀ n ∉ nums, s'.results n = s.results n) ∧
      ((∀ p < nums.length, MeasuredFrom last (prices.getD 0 []).length nums p → (X p).deals ≤ (X p).optimalDeals) → s'.warnings = s.warnings) := by
  induction nums generalizing last s with
  | nil =>
    simp only [sizes, Except.ok.injEq, Option.some.injEq] at h
    subst h
    exact ⟨fun _ => ⟨0, 0, 0, 0, 0, 0⟩, by simp, by simp, by simp, by simp⟩
  | cons n ns ih =>
    rw [sizes] at h
    obtain ⟨first, hf, h⟩ := bind_ok_iff.1 h
    have hL : (prices.getD 0 []).length = first.length := by
      rcases prices with _ | ⟨a, b⟩
      · simp [pyGet] at hf
      · simp [pyGet] at hf; subst hf; rfl
    have hnd := List.nodup_cons.1 hd
    rw [hL] at ih ⊢
    have step : ∀ {last' : Bool} {m : Market}, MarketOf prices counts n m →
        (MeasuredFrom last first.length (n :: ns) 0) →
        (∀ p, MeasuredFrom last first.length (n :: ns) (p + 1) ↔ MeasuredFrom last' first.length ns p) →
        (∃ s1, addMarket f fuel recipe name n (min n first.length) m s = .ok (some s1) ∧
          sizes f fuel recipe counts name prices ns last' s1 = .ok (some s')) →
        ∃ X : ℕ → TreeMeasurement,
          (∀ p (hp : p < (n :: ns).length), MeasuredFrom last first.length (n :: ns) p →
            ∃ m, MarketOf prices counts (n :: ns)[p] m ∧ TreeMeasured f fuel recipe m (X p)) ∧
          (∀ p (hp : p < (n :: ns).length) xs, Holds (s.results (n :: ns)[p]) xs →
            (MeasuredFrom last first.length (n :: ns) p → Holds (s'.results (n :: ns)[p]) (xs ++ [X p])) ∧
            (¬ MeasuredFrom last first.length (n :: ns) p → Holds (s'.results (n :: ns)[p]) xs)) ∧
          (∀ k ∉ n :: ns, s'.results k = s.results k) ∧
          ((∀ p < (n :: ns).length, MeasuredFrom last first.length (n :: ns) p → (X p).deals ≤ (X p).optimalDeals) →
            s'.warnings = s.warnings) := by
      rintro last' m hm hfirst hrest ⟨s1, ha, hs⟩
      obtain ⟨x, hx, rfl⟩ := addMarket_some ha
      obtain ⟨X, h1, h2, h3, h4⟩ := ih hnd.2 hs
      refine ⟨fun p => match p with | 0 => x | p + 1 => X p, ?_, ?_, ?_, ?_⟩
      · intro p hp hmp
        cases p with
        | zero => exact ⟨m, hm, hx⟩
        | succ p =>
          obtain ⟨m', hm', hx'⟩ := h1 p (by simpa using hp) ((hrest p).1 hmp)
          exact ⟨m', by simpa using hm', hx'⟩
      · intro p hp xs hxs
        cases p with
        | zero =>
          refine ⟨fun _ => ?_, fun hc => absurd hfirst hc⟩
          have := h3 n hnd.1
          simp only [List.getElem_cons_zero] at hxs ⊢
          rw [this]
          exact hxs.add _ _ _ _
        | succ p =>
          have hp' : p < ns.length := by simpa using hp
          simp only [List.getElem_cons_succ] at hxs ⊢
          have hne : ns[p] ≠ n := by
            intro he
            exact hnd.1 (he ▸ List.getElem_mem hp')
          have := h2 p hp' xs (by rw [add_ne hne]; exact hxs)
          rw [hrest p]
          exact this
      · intro k hk
        simp only [List.mem_cons, not_or] at hk
        rw [h3 k hk.2, add_ne hk.1]
      · intro hall
        rw [h4 (fun p hp hmp => hall (p + 1) (by simpa using hp) ((hrest p).2 hmp))]
        have := hall 0 (by simp) hfirst
        simp only [State.add]
        simp only [decide_eq_true_eq]
        rw [if_neg (by simpa using this)]
        rfl
    dsimp only at h
    split_ifs at h with c1 c2
    · -- break
      simp only [Except.ok.injEq, Option.some.injEq] at h
      subst h
      have hno : ∀ p, ¬ MeasuredFrom last first.length (n :: ns) p := by
        intro p hp
        unfold MeasuredFrom at hp
        have : first.length < n := by omega
        simp [c1.1, this] at hp
      exact ⟨fun _ => ⟨0, 0, 0, 0, 0, 0⟩, fun p _ hp => absurd hp (hno p), fun p _ xs hxs => ⟨fun hp => absurd hp (hno p), fun _ => hxs⟩,
        fun _ _ => rfl, fun _ => rfl⟩
    · have hlt : first.length < n := by omega
      have hlast : last = false := by
        cases last
        · rfl
        · exact absurd ⟨rfl, c2⟩ c1
      obtain ⟨m, hm, h⟩ := bind_ok_iff.1 h
      obtain ⟨o, ha, h⟩ := bind_ok_iff.1 h
      cases o with
      | none => simp at h
      | some s1 =>
        refine step (last' := true) (m := m) ?_ ?_ ?_ ⟨s1, ha, h⟩
        · unfold MarketOf
          rw [if_neg (by rw [hL]; omega)]
          exact hm
        · unfold MeasuredFrom
          simp [hlast, hlt]
        · intro p
          unfold MeasuredFrom
          simp [hlast, hlt]
    · have hle : n ≤ first.length := by omega
      obtain ⟨cats, hc, h⟩ := bind_ok_iff.1 h
      obtain ⟨m, hm, h⟩ := bind_ok_iff.1 h
      obtain ⟨o, ha, h⟩ := bind_ok_iff.1 h
      cases o with
      | none => simp at h
      | some s1 =>
        refine step (last' := last) (m := m) ?_ ?_ ?_ ⟨s1, ha, h⟩
        · unfold MarketOf
          rw [if_pos (by rw [hL]; exact hle)]
          rw [min_eq_left hle] at hc
          exact ⟨cats, hc, hm⟩
        · unfold MeasuredFrom
          simp [Nat.not_lt.2 hle]
          split <;> omega
        · intro p
          unfold MeasuredFrom
          simp [Nat.not_lt.2 hle]

theorem measuredFrom_false {L : ℕ} {nums : List ℕ} {p : ℕ} : MeasuredFrom false L nums p ↔ SizeMeasured L nums p := by
  simp [MeasuredFrom, SizeMeasured]

theorem shuffleAll_perm {shuffle : ℕ → List ℚ → List ℚ} (h : ∀ j l, (shuffle j l).Perm l) (j : ℕ) (prices : List (List ℚ)) :
    List.Forall₂ List.Perm (shuffleAll shuffle j prices) prices := by
  induction prices generalizing j with
  | nil => exact .nil
  | cons a l ih => exact .cons (h j a) (ih (j + 1))

theorem first_length {a b : List (List ℚ)} (h : List.Forall₂ List.Perm a b) : (a.getD 0 []).length = (b.getD 0 []).length := by
  cases h with
  | nil => rfl
  | cons h _ => exact h.length_eq

theorem forall₂_perm_trans {a b c : List (List ℚ)} (h1 : List.Forall₂ List.Perm a b) (h2 : List.Forall₂ List.Perm b c) :
    List.Forall₂ List.Perm a c := by
  induction h1 generalizing c with
  | nil => exact h2
  | cons h _ ih =>
    cases h2 with
    | cons h' h2 => exact .cons (h.trans h') (ih h2)

theorem iterations_some {name : String} {nums : List ℕ} (hd : nums.Nodup) {shuffle : ℕ → ℕ → List ℚ → List ℚ}
    (hsh : ∀ it j l, (shuffle it j l).Perm l) (original : List (List ℚ)) (left it : ℕ) {prices : List (List ℚ)}
    (hp : List.Forall₂ List.Perm prices original) {s s' : State}
    (h : iterations f fuel recipe counts nums name shuffle left it prices s = .ok (some s')) :
    ∃ X : ℕ → ℕ → TreeMeasurement,
      (∀ p (hp : p < nums.length), SizeMeasured (original.getD 0 []).length nums p → ∀ j < left,
        ∃ order m, List.Forall₂ List.Perm order original ∧ MarketOf order counts nums[p] m ∧ TreeMeasured f fuel recipe m (X j p)) ∧
      (∀ p (hp : p < nums.length) xs, Holds (s.results nums[p]) xs →
        (SizeMeasured (original.getD 0 []).length nums p → Holds (s'.results nums[p]) (xs ++ (List.range left).map (fun j => X j p))) ∧
        (¬ SizeMeasured (original.getD 0 []).length nums p → Holds (s'.results nums[p]) xs)) ∧
      ((∀ p < nums.length, SizeMeasured (original.getD 0 []).length nums p → ∀ j < left, (X j p).deals ≤ (X j p).optimalDeals) →
        s'.warnings = s.warnings) := by
  induction left generalizing it prices s with
  | zero =>
    simp only [iterations, Except.ok.injEq, Option.some.injEq] at h
    subst h
    exact ⟨fun _ _ => ⟨0, 0, 0, 0, 0, 0⟩, by simp, fun p hp xs hxs => ⟨fun _ => by simpa using hxs, fun _ => hxs⟩, by simp⟩
  | succ left ih =>
    rw [iterations] at h
    obtain ⟨o, hs, h⟩ := bind_ok_iff.1 h
    cases o with
    | none => simp at h
    | some s1 =>
      have hp' := forall₂_perm_trans (shuffleAll_perm (hsh it) 0 prices) hp
      obtain ⟨x, a1, a2, a3, a4⟩ := sizes_some hd hs
      obtain ⟨X, b1, b2, b4⟩ := ih (it + 1) hp' h
      rw [first_length hp'] at a1 a2 a4
      simp only [measuredFrom_false] at a1 a2 a4
      refine ⟨fun j p => match j with | 0 => x p | j + 1 => X j p, ?_, ?_, ?_⟩
      · intro p hpl hm j hj
        cases j with
        | zero =>
          obtain ⟨m, h1, h2⟩ := a1 p hpl hm
          exact ⟨_, m, hp', h1, h2⟩
        | succ j => exact b1 p hpl hm j (by omega)
      · intro p hpl xs hxs
        obtain ⟨c1, c2⟩ := a2 p hpl xs hxs
        refine ⟨fun hm => ?_, fun hm => (b2 p hpl xs (c2 hm)).2 hm⟩
        have := (b2 p hpl _ (c1 hm)).1 hm
        rw [List.range_succ_eq_map, List.map_cons, List.map_map]
        simpa [List.append_assoc, Function.comp_def] using this
      · intro hall
        rw [b4 (fun p hpl hm j hj => hall p hpl hm (j + 1) (by omega)), a4 (fun p hpl hm => hall p hpl hm 0 (by omega))]

theorem stocks_some {nums : List ℕ} (hd : nums.Nodup) {N : ℕ} {stocksPrices : List (List (List ℚ))} {shuffle : ℕ → ℕ → ℕ → List ℚ → List ℚ}
    (hsh : ∀ i it j l, (shuffle i it j l).Perm l) (i : ℕ) (names : List String) {s s' : State}
    (h : stocks f fuel recipe counts nums N stocksPrices shuffle i names s = .ok (some s')) :
    (N ≠ 0 → names ≠ [] → i + names.length ≤ stocksPrices.length) ∧
    ∃ X : ℕ → ℕ → ℕ → TreeMeasurement,
      (∀ p (hp : p < nums.length), ∀ a, i ≤ a → a < i + names.length →
        SizeMeasured ((stocksPrices.getD a []).getD 0 []).length nums p → ∀ j < N,
        ∃ order m, List.Forall₂ List.Perm order (stocksPrices.getD a []) ∧ MarketOf order counts nums[p] m ∧
          TreeMeasured f fuel recipe m (X a j p)) ∧
      (∀ p (hp : p < nums.length) xs, Holds (s.results nums[p]) xs →
        Holds (s'.results nums[p]) (xs ++ ((List.range' i names.length).filter
          (fun a => SizeMeasured ((stocksPrices.getD a []).getD 0 []).length nums p)).flatMap
            (fun a => (List.range N).map (fun j => X a j p)))) ∧
      ((∀ p < nums.length, ∀ a, i ≤ a → a < i + names.length →
        SizeMeasured ((stocksPrices.getD a []).getD 0 []).length nums p → ∀ j < N, (X a j p).deals ≤ (X a j p).optimalDeals) →
        s'.warnings = s.warnings) := by
  induction names generalizing i s with
  | nil =>
    simp only [stocks, Except.ok.injEq, Option.some.injEq] at h
    subst h
    refine ⟨by simp, fun _ _ _ => ⟨0, 0, 0, 0, 0, 0⟩, ?_, fun p hp xs hxs => by simpa using hxs, by simp⟩
    intro p hp a h1 h2
    simp only [List.length_nil] at h2
    omega
  | cons name names ih =>
    rw [stocks] at h
    by_cases hN : N = 0
    · subst hN
      simp only [if_true, iterations, bind, Except.bind] at h
      obtain ⟨hlen, X, b1, b2, b3⟩ := ih (i + 1) h
      refine ⟨by simp, X, by simp, fun p hp xs hxs => ?_, fun _ => b3 (by simp)⟩
      have := b2 p hp xs hxs
      have e : ∀ l : List ℕ, l.flatMap (fun a => (List.range 0).map (fun j => X a j p)) = [] := by
        intro l; simp
      rw [e] at this ⊢
      exact this
    · rw [if_neg hN] at h
      obtain ⟨prices, hg, h⟩ := bind_ok_iff.1 h
      obtain ⟨o, hs, h⟩ := bind_ok_iff.1 h
      cases o with
      | none => simp at h
      | some s1 =>
        obtain ⟨hlen, X, b1, b2, b3⟩ := ih (i + 1) h
        have hi : i < stocksPrices.length := by
          by_contra hc
          rw [pyGet, List.getElem?_eq_none (by omega)] at hg
          simp at hg
        rw [TreeExperiment.pyGet_getD [] hi] at hg
        simp only [Except.ok.injEq] at hg
        subst hg
        obtain ⟨x, a1, a2, a3⟩ := iterations_some hd (hsh i) (stocksPrices.getD i []) N 0 (List.forall₂_same.2 fun _ _ => List.Perm.refl _) hs
        refine ⟨fun _ _ => ?_, fun a => if a = i then x else X a, ?_, ?_, ?_⟩
        · by_cases hn : names = []
          · subst hn; simp; omega
          · have := hlen hN hn
            simp only [List.length_cons]; omega
        · intro p hp a h1 h2 hm j hj
          by_cases ha : a = i
          · subst ha
            simpa using a1 p hp hm j hj
          · simp only [List.length_cons] at h2
            simpa [ha] using b1 p hp a (by omega) (by omega) hm j hj
        · intro p hp xs hxs
          have e : ((List.range' (i + 1) names.length).filter
              (fun a => SizeMeasured ((stocksPrices.getD a []).getD 0 []).length nums p)).flatMap
                (fun a => (List.range N).map (fun j => (if a = i then x else X a) j p))
              = ((List.range' (i + 1) names.length).filter
              (fun a => SizeMeasured ((stocksPrices.getD a []).getD 0 []).length nums p)).flatMap
                (fun a => (List.range N).map (fun j => X a j p)) := by
            apply List.flatMap_congr
            intro a ha
            have := (List.mem_range'_1.1 (List.mem_filter.1 ha).1).1
            rw [if_neg (by omega)]
          obtain ⟨c1, c2⟩ := a2 p hp xs hxs
          rw [List.length_cons, List.range'_succ, List.filter_cons]
          by_cases hm : SizeMeasured ((stocksPrices.getD i []).getD 0 []).length nums p
          · rw [if_pos (by simpa using hm), List.flatMap_cons, e]
            simp only [if_true]
            rw [← List.append_assoc]
            exact b2 p hp _ (c1 hm)
          · rw [if_neg (by simpa using hm), e]
            exact b2 p hp _ (c2 hm)
        · intro hall
          rw [b3, a3]
          · intro p hp hm j hj
            have := hall p hp i (le_refl _) (by simp) hm j hj
            simpa using this
          · intro p hp a h1 h2 hm j hj
            have := hall p hp a (by omega) (by simp only [List.length_cons]; omega) hm j hj
            have hne : a ≠ i := by omega
            simpa only [hne, if_false] using this

/-! ### The column `num of possible trades` -/

/-- What has happened to the second entry of the results between two states, for a stock with `L` prices in its first category. -/
def Kept (L : ℕ) (s s' : State) : Prop :=
  ∀ n, (∀ r, s.results n = some r → ∃ r', s'.results n = some r' ∧ r'.numPossibleTrades = r.numPossibleTrades) ∧
    (∀ r', s.results n = none → s'.results n = some r' → r'.numPossibleTrades = min n L)

theorem Kept.refl (L : ℕ) (s : State) : Kept L s s := fun _ => ⟨fun r h => ⟨r, h, rfl⟩, fun r h1 h2 => by rw [h1] at h2; simp at h2⟩

theorem Kept.trans {L : ℕ} {a b c : State} (h1 : Kept L a b) (h2 : Kept L b c) : Kept L a c := by
  intro n
  constructor
  · intro r hr
    obtain ⟨r1, a1, a2⟩ := (h1 n).1 r hr
    obtain ⟨r2, b1, b2⟩ := (h2 n).1 r1 a1
    exact ⟨r2, b1, by rw [b2, a2]⟩
  · intro r' hn hr'
    rcases hb : b.results n with _ | r
    · exact (h2 n).2 r' hb hr'
    · obtain ⟨r2, b1, b2⟩ := (h2 n).1 r hb
      rw [hr', Option.some.injEq] at b1
      rw [b1, b2]
      exact (h1 n).2 r hn hb

theorem addMarket_kept {name : String} {n L : ℕ} {m : Market} {s s' : State}
    (h : addMarket f fuel recipe name n (min n L) m s = .ok (some s')) : Kept L s s' := by
  obtain ⟨x, -, rfl⟩ := addMarket_some h
  intro k
  by_cases hk : k = n
  · subst hk
    constructor
    · intro r hr
      exact ⟨r.add (toResults name (min k L) x), by simp [State.add, hr], rfl⟩
    · intro r' hn hr'
      simp only [State.add, if_true, hn, Option.some.injEq] at hr'
      rw [← hr']
      rfl
  · rw [add_ne hk]
    exact Kept.refl L s k

theorem sizes_kept {name : String} {prices : List (List ℚ)} {nums : List ℕ} {last : Bool} {s s' : State}
    (h : sizes f fuel recipe counts name prices nums last s = .ok (some s')) : Kept (prices.getD 0 []).length s s' := by
  induction nums generalizing last s with
  | nil =>
    simp only [sizes, Except.ok.injEq, Option.some.injEq] at h
    subst h
    exact Kept.refl _ _
  | cons n ns ih =>
    rw [sizes] at h
    obtain ⟨first, hf, h⟩ := bind_ok_iff.1 h
    have hL : (prices.getD 0 []).length = first.length := by
      rcases prices with _ | ⟨a, b⟩
      · simp [pyGet] at hf
      · simp [pyGet] at hf; subst hf; rfl
    dsimp only at h
    split_ifs at h with c1 c2
    · simp only [Except.ok.injEq, Option.some.injEq] at h
      subst h
      exact Kept.refl _ _
    · obtain ⟨m, hm, h⟩ := bind_ok_iff.1 h
      obtain ⟨o, ha, h⟩ := bind_ok_iff.1 h
      cases o with
      | none => simp at h
      | some s1 => exact (hL ▸ addMarket_kept ha).trans (ih h)
    · obtain ⟨cats, hc, h⟩ := bind_ok_iff.1 h
      obtain ⟨m, hm, h⟩ := bind_ok_iff.1 h
      obtain ⟨o, ha, h⟩ := bind_ok_iff.1 h
      cases o with
      | none => simp at h
      | some s1 => exact (hL ▸ addMarket_kept ha).trans (ih h)

theorem iterations_kept {name : String} {nums : List ℕ} {shuffle : ℕ → ℕ → List ℚ → List ℚ}
    (hsh : ∀ it j l, (shuffle it j l).Perm l) (original : List (List ℚ)) (left it : ℕ) {prices : List (List ℚ)}
    (hp : List.Forall₂ List.Perm prices original) {s s' : State}
    (h : iterations f fuel recipe counts nums name shuffle left it prices s = .ok (some s')) : Kept (original.getD 0 []).length s s' := by
  induction left generalizing it prices s with
  | zero =>
    simp only [iterations, Except.ok.injEq, Option.some.injEq] at h
    subst h
    exact Kept.refl _ _
  | succ left ih =>
    rw [iterations] at h
    obtain ⟨o, hs, h⟩ := bind_ok_iff.1 h
    cases o with
    | none => simp at h
    | some s1 =>
      have hp' := forall₂_perm_trans (shuffleAll_perm (hsh it) 0 prices) hp
      have := sizes_kept hs
      rw [first_length hp'] at this
      exact this.trans (ih (it + 1) hp' h)

theorem holds_nil {o : Option Results} : Holds o [] ↔ o = none := by
  cases o with
  | none => simp [Holds]
  | some r => simp [Holds]

/-- The second entry of the results comes from the first stock for which the size is measured. -/
theorem stocks_possible {nums : List ℕ} (hd : nums.Nodup) {N : ℕ} (hN : N ≠ 0) {stocksPrices : List (List (List ℚ))}
    {shuffle : ℕ → ℕ → ℕ → List ℚ → List ℚ}
    (hsh : ∀ i it j l, (shuffle i it j l).Perm l) (i : ℕ) (names : List String) {s s' : State}
    (h : stocks f fuel recipe counts nums N stocksPrices shuffle i names s = .ok (some s')) {p : ℕ} (hp : p < nums.length) :
    (∀ r, s.results nums[p] = some r → ∃ r', s'.results nums[p] = some r' ∧ r'.numPossibleTrades = r.numPossibleTrades) ∧
    (∀ r', s.results nums[p] = none → s'.results nums[p] = some r' → ∃ a, i ≤ a ∧ a < i + names.length ∧
      SizeMeasured ((stocksPrices.getD a []).getD 0 []).length nums p ∧
      (∀ b, i ≤ b → b < a → ¬ SizeMeasured ((stocksPrices.getD b []).getD 0 []).length nums p) ∧
      r'.numPossibleTrades = min nums[p] ((stocksPrices.getD a []).getD 0 []).length) := by
  induction names generalizing i s with
  | nil =>
    simp only [stocks, Except.ok.injEq, Option.some.injEq] at h
    subst h
    exact ⟨fun r hr => ⟨r, hr, rfl⟩, fun r h1 h2 => by rw [h1] at h2; simp at h2⟩
  | cons name names ih =>
    rw [stocks, if_neg hN] at h
    obtain ⟨prices, hg, h⟩ := bind_ok_iff.1 h
    obtain ⟨o, hs, h⟩ := bind_ok_iff.1 h
    cases o with
    | none => simp at h
    | some s1 =>
      obtain ⟨b1, b2⟩ := ih (i + 1) h
      have hi : i < stocksPrices.length := by
        by_contra hc
        rw [pyGet, List.getElem?_eq_none (by omega)] at hg
        simp at hg
      rw [TreeExperiment.pyGet_getD [] hi] at hg
      simp only [Except.ok.injEq] at hg
      subst hg
      obtain ⟨x, -, a2, -⟩ := iterations_some hd (hsh i) (stocksPrices.getD i []) N 0 (List.forall₂_same.2 fun _ _ => List.Perm.refl _) hs
      have hk := iterations_kept (hsh i) (stocksPrices.getD i []) N 0 (List.forall₂_same.2 fun _ _ => List.Perm.refl _) hs nums[p]
      constructor
      · intro r hr
        obtain ⟨r1, c1, c2⟩ := hk.1 r hr
        obtain ⟨r2, d1, d2⟩ := b1 r1 c1
        exact ⟨r2, d1, by rw [d2, c2]⟩
      · intro r' hn hr'
        obtain ⟨e1, e2⟩ := a2 p hp [] (holds_nil.2 hn)
        by_cases hm : SizeMeasured ((stocksPrices.getD i []).getD 0 []).length nums p
        · have e := e1 hm
          rcases h1 : s1.results nums[p] with _ | r1
          · rw [h1] at e
            simp [Holds, hN] at e
          · obtain ⟨r2, d1, d2⟩ := b1 r1 h1
            rw [hr', Option.some.injEq] at d1
            refine ⟨i, le_refl _, by simp, hm, fun b hb1 hb2 => by omega, ?_⟩
            rw [d1, d2]
            exact hk.2 r1 hn h1
        · obtain ⟨a, c1, c2, c3, c4, c5⟩ := b2 r' (holds_nil.1 (e2 hm)) hr'
          refine ⟨a, by omega, by simp only [List.length_cons]; omega, c3, fun b hb1 hb2 => ?_, c5⟩
          by_cases hbi : b = i
          · rw [hbi]; exact hm
          · exact c4 b (by omega) hb2

end Auctions.TreeStockExperiment
