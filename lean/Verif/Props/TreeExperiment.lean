import Verif.Proofs.TreeExperiment
import Verif.Props.TreeCalculations
import Verif.Props.Monotone
import Verif.Props.TreeGain
import Mathlib.Algebra.BigOperators.Ring.Finset

set_option autoImplicit false

/-!
# C72, C73: the table of an experiment on a recipe tree
-/

namespace Auctions.Props

open Auctions Spec TreeExperiment TreeCalculations

section

variable {f : List (List ℕ) → ℚ → Py (List ℚ)} {fuel : ℕ} {ranges : List (ℚ × ℚ)} {ns : List ℕ} {N : ℕ} {counts values : List ℚ}
  {random : ℕ → ℕ → ℕ → ℕ → ℚ} {table : List Row} {root k : ℕ} {ch : Forest}

/-! ## The columns -/

theorem tree_reports_of_sums {n : ℕ} {row : Row} {xs : List TreeMeasurement} (hx : xs.length = N)
    (h : mkRow N n ((⟨0, 0, 0, 0, 0, 0, 0⟩ : Sums).addAll xs) = .ok row) : TreeReports row n xs := by
  have hN := mkRow_ok h
  rw [mkRow_eq hN, addAll_eq] at h
  have c : ∀ g : TreeMeasurement → ℕ, (((xs.map g).sum : ℕ) : ℚ) = total (fun x => (g x : ℚ)) xs := by
    intro g
    rw [Nat.cast_list_sum, List.map_map]; rfl
  have c0 : ∀ g : TreeMeasurement → ℕ, (xs.map g).sum = 0 ↔ total (fun x => (g x : ℚ)) xs = 0 := by
    intro g
    rw [← c]; exact Nat.cast_eq_zero.symm
  subst hx
  have hrow := (Except.ok.inj h).symm
  simp only [zero_add, c, c0] at hrow
  subst hrow
  refine ⟨rfl, rfl, rfl, rfl, rfl, ?_, rfl, ⟨?_, ?_⟩, rfl, rfl, ⟨?_, ?_⟩, rfl⟩
  · simp only
    split_ifs with h1
    · rw [max_eq_right]; linarith
    · rw [max_eq_left]; linarith
  · intro h1; simp only [h1, if_true]
  · intro h1
    simp only [h1, if_false]
    field_simp
  · intro h1
    simp only [show (xs.map (fun x => x.optimalGain)).sum = total (fun x => x.optimalGain) xs from rfl, h1, if_true]
  · intro h1
    simp only [show (xs.map (fun x => x.optimalGain)).sum = total (fun x => x.optimalGain) xs from rfl, h1, if_false]
    rw [show (xs.map (fun x => x.gain)).sum = total (fun x => x.gain) xs from rfl]
    field_simp

/-- The first lines of the experiment, on the list that describes a tree: there are as many categories as the largest index requires. -/
theorem experiment_start (hn : (nodes (.cons root ch .nil)).Nodup) (hk : IsGreatest {i | i ∈ nodes (.cons root ch .nil)} k) :
    experiment f fuel (written (.cons root ch .nil)) ranges ns N counts values random
      = rows f fuel (written (.cons root ch .nil)) (k + 1) ranges counts values N random 0 ns := by
  obtain ⟨d, k', h1, h2, h3⟩ := depth_and_agents_size (f := .cons root ch .nil) (by simp)
  obtain rfl : k' = k := h3.unique hk
  have hlt : ∀ i ∈ nodes (.cons root ch .nil), i < (List.replicate (k' + 1) 1).length := by
    intro i hi
    have := h3.2 hi
    simp; omega
  have hh : height (.cons root ch .nil) ≤ d := by
    obtain ⟨p, hp, hl⟩ := exists_longest (f := .cons root ch .nil) (by simp)
    rw [← hl]; exact h2.2 ⟨p, hp, rfl⟩
  obtain ⟨c, g1, g2, -, -⟩ := analyze_spec hn hlt hh
  rw [List.length_replicate] at g2
  have hs := setAt_ok (l := c) (i := 0) (d - 1) (by omega)
  have hsl : (c.set 0 (d - 1)).length = k' + 1 := by simp [g2]
  obtain ⟨cc, e1, -⟩ := children_counts hn (n := k' + 1) (by simpa using hlt)
  have ha : getAgentsAnalyze (written (.cons root ch .nil)) = .ok (c.set 0 (d - 1)) := by
    simp only [getAgentsAnalyze, h1, g1, bind, Except.bind, hs]
  simp only [experiment, ha, bind, Except.bind, hsl, e1]

/-- **C72**. Whatever the solver and the random numbers: when `experiment` returns for a tree of different categories, the largest of which is `k`, the
table has a row for each entry of `nums_of_agents`; row `i` reports measurements of `num_of_iterations` markets with `k + 1` categories, one for each
iteration, each drawn with the random numbers of that row and iteration. -/
theorem tree_experiment_columns (hn : (nodes (.cons root ch .nil)).Nodup) (hk : IsGreatest {i | i ∈ nodes (.cons root ch .nil)} k)
    (h : experiment f fuel (written (.cons root ch .nil)) ranges ns N counts values random = .ok (some table)) :
    ∃ hl : table.length = ns.length, ∀ i (hi : i < ns.length), ∃ xs : List TreeMeasurement, xs.length = N ∧
      (∀ j (hj : j < xs.length), ∃ m, randomMarket (k + 1) ranges ns[i] counts values (random i j) = .ok m ∧
        TreeMeasured f fuel (written (.cons root ch .nil)) m xs[j]) ∧
      TreeReports table[i] ns[i] xs := by
  rw [experiment_start hn hk] at h
  obtain ⟨hl, hall⟩ := (rows_iff 0 ns table).1 h
  refine ⟨hl, fun i hi => ?_⟩
  obtain ⟨s, hs, hrow⟩ := hall i hi
  obtain ⟨xs, hx, hm, rfl⟩ := (iterations_iff _ _ _ _).1 hs
  refine ⟨xs, hx, fun j hj => ?_, tree_reports_of_sums hx hrow⟩
  have := hm j hj
  simpa using this

/-- **C72**. With no iterations, a table with at least one row is not produced: `ZeroDivisionError`. -/
theorem tree_experiment_no_iterations (hn : (nodes (.cons root ch .nil)).Nodup) (hns : ns ≠ []) :
    experiment f fuel (written (.cons root ch .nil)) ranges ns 0 counts values random = .error .zeroDivisionError := by
  obtain ⟨-, k, -, -, hk⟩ := depth_and_agents_size (f := .cons root ch .nil) (by simp)
  rw [experiment_start hn hk]
  cases ns with
  | nil => exact absurd rfl hns
  | cons n ns =>
    rw [rows]
    simp only [TreeExperiment.iterations, bind, Except.bind, mkRow_zero]

/-- **C72**. The random market: with two ranges of values, and counts and factors of at least 0 for all categories, and numbers between 0 and 1, it
exists; category `c` has `counts[c] * n` agents, rounded down, whose values are whole numbers in the range of the category multiplied by its
factor, except for the rounding of the ends. -/
theorem tree_random_market {K n : ℕ} (hK : 0 < K) (h2 : 2 ≤ ranges.length) (hle : ∀ x ∈ ranges, x.1 ≤ x.2)
    (hc : K ≤ counts.length) (hc0 : ∀ x ∈ counts, 0 ≤ x) (hv : K ≤ values.length) (hv0 : ∀ x ∈ values, 0 ≤ x)
    {random : ℕ → ℕ → ℚ} (hrand : ∀ c a, 0 ≤ random c a ∧ random c a ≤ 1) :
    ∃ m, randomMarket K ranges n counts values random = .ok m ∧ TreeDrawn K n ranges counts values m := by
  obtain ⟨cats, h3, h4, h5⟩ := randomCategories_ok (n := n) (vr := ranges) (counts := counts) (values := values) (random := random) 0 K h2
    (by omega) (by omega)
  have hi : Market.init cats = .ok ⟨cats⟩ := by
    cases cats with
    | nil => simp at h4; omega
    | cons c cs => rfl
  refine ⟨⟨cats⟩, by simp only [randomMarket, h3, bind, Except.bind, hi], h4, fun c hcl => ?_⟩
  have hcl' : c < cats.length := hcl
  have he := h5 c hcl'
  simp only [Nat.zero_add] at he
  have hmem : ∀ {l : List ℚ}, c < l.length → l.getD c 0 ∈ l := by
    intro l hl
    rw [List.getD_eq_getElem?_getD, List.getElem?_eq_getElem hl]
    exact List.getElem_mem _
  have hx : (ranges.getD (if c = 0 then 0 else 1) 0) ∈ ranges := by
    rw [List.getD_eq_getElem?_getD, List.getElem?_eq_getElem (show (if c = 0 then 0 else 1) < ranges.length by split <;> omega)]
    exact List.getElem_mem _
  have hcount : 0 ≤ (n : ℚ) * counts.getD c 0 := mul_nonneg (by positivity) (hc0 _ (hmem (by omega)))
  refine ⟨?_, fun v hv' => ?_⟩
  · have hs : (cats[c]).size = (pyInt (n * counts.getD c 0)).toNat := by rw [he, Experiment.uniformlyRandom_size]
    have hz : (((cats[c]).size : ℕ) : ℤ) = ⌊(n : ℚ) * counts.getD c 0⌋ := by
      rw [hs, pyInt, if_pos hcount, Int.toNat_of_nonneg (Int.floor_nonneg.2 hcount)]
    have hq : (((cats[c]).size : ℕ) : ℚ) = ((⌊(n : ℚ) * counts.getD c 0⌋ : ℤ) : ℚ) := by rw [← hz]; rfl
    change (((cats[c]).size : ℕ) : ℚ) ≤ _ ∧ _ < (((cats[c]).size : ℕ) : ℚ) + 1
    rw [hq]
    exact ⟨Int.floor_le _, Int.lt_floor_add_one _⟩
  · have hv1 : v ∈ (cats[c]).values := hv'
    rw [he] at hv1
    obtain ⟨a1, -, -, a4, a5⟩ := Experiment.uniformlyRandom_mem (hrand c)
      (mul_le_mul_of_nonneg_right (hle _ hx) (hv0 _ (hmem (by omega)))) hv1
    exact ⟨a1, a4, a5⟩

/-! ## One market -/

theorem init_written {K : ℕ} (hK : ∀ i ∈ nodes (.cons root ch .nil), i < K) :
    RecipeTree.init K (written (.cons root ch .nil)) = .ok ⟨root, ch⟩ := by
  have hw := written_denotes (.cons root ch .nil)
  rw [written_cons] at hw ⊢
  exact (init_ok (by simp [written])).2 ⟨hw, hK⟩

theorem valuesAt_drawn {K n : ℕ} {random : ℕ → ℕ → ℚ} {m : Market} (h : randomMarket K ranges n counts values random = .ok m) :
    TreeAuction.valuesAt m.categories = fun i => sortDesc (m.valueLists.getD i []) := by
  have key : ∀ c left cats, randomCategories ranges n counts values random c left = .ok cats → ∀ x ∈ cats, SortedDesc x.values := by
    intro c left
    induction left generalizing c with
    | zero =>
      intro cats h x hx
      simp only [randomCategories, Except.ok.injEq] at h
      subst h; simp at hx
    | succ left ih =>
      intro cats h x hx
      rw [randomCategories] at h
      obtain ⟨_, -, h⟩ := bind_ok_iff.1 h
      obtain ⟨_, -, h⟩ := bind_ok_iff.1 h
      obtain ⟨_, -, h⟩ := bind_ok_iff.1 h
      obtain ⟨rest, h1, h⟩ := bind_ok_iff.1 h
      simp only [Except.ok.injEq] at h
      subst h
      rcases List.mem_cons.1 hx with rfl | hx
      · exact sortDesc_sorted _
      · exact ih _ _ h1 x hx
  rw [randomMarket] at h
  obtain ⟨cats, h1, h2⟩ := bind_ok_iff.1 h
  have hm : m = ⟨cats⟩ := by
    cases cats with
    | nil => simp [Market.init] at h2
    | cons c cs => exact (Except.ok.inj h2).symm
  subst hm
  funext i
  simp only [TreeAuction.valuesAt, Market.valueLists, List.getD_eq_getElem?_getD, List.getElem?_map]
  rcases hi : cats[i]? with _ | x
  · simp [sortDesc]
  · simp only [Option.map_some, Option.getD_some]
    exact (sortDesc_of_sorted (key _ _ _ h1 x (List.mem_of_getElem? hi))).symm

/-- What is known of one iteration. -/
structure TreeFine (x : TreeMeasurement) : Prop where
  deals_le : x.deals ≤ x.optimalDeals
  gain_nonneg : 0 ≤ x.gain
  gain_le : x.gain ≤ x.optimalGain

theorem low_of_drawn {K n : ℕ} (hs : TreeSensible K ranges counts values random) {m : Market} (hd : TreeDrawn K n ranges counts values m) :
    ∀ l ∈ m.valueLists, ∀ x ∈ l, -MAX_VALUE ≤ x := by
  intro l hl x hx
  obtain ⟨c, hc, rfl⟩ := List.getElem_of_mem hl
  have hc' : c < m.categories.length := by simpa [Market.valueLists] using hc
  have hx' : x ∈ m.categories[c].values := by simpa [Market.valueLists] using hx
  have h1 := ((hd.2 c hc').2 x hx').2.1
  have hK : c < K := by rw [← hd.1]; exact hc'
  have h2 := hs.low (ranges.getD (if c = 0 then 0 else 1) 0) (by
    rw [List.getD_eq_getElem?_getD, List.getElem?_eq_getElem (show (if c = 0 then 0 else 1) < ranges.length by have := hs.two; split <;> omega)]
    exact List.getElem_mem _) (values.getD c 0) (by
    rw [List.getD_eq_getElem?_getD, List.getElem?_eq_getElem (show c < values.length by have := hs.factors; omega)]
    exact List.getElem_mem _)
  linarith

theorem tree_fine {K n i j : ℕ} (hf : PriceContract f) (hn : (nodes (.cons root ch .nil)).Nodup)
    (hK : ∀ c ∈ nodes (.cons root ch .nil), c < K) (hK0 : 0 < K) (hs : TreeSensible K ranges counts values random) {m : Market}
    (hm : randomMarket K ranges n counts values (random i j) = .ok m) {x : TreeMeasurement}
    (hx : TreeMeasured f fuel (written (.cons root ch .nil)) m x) : TreeFine x := by
  obtain ⟨m', h1, hd⟩ := tree_random_market (n := n) hK0 hs.two hs.ordered hs.enough hs.counts_nonneg hs.factors hs.factors_nonneg
    (hs.unit i j)
  rw [hm] at h1
  cases h1
  obtain ⟨t, trade, ht, ha, r, hr, rfl⟩ := hx
  have ht' := ht
  rw [hd.1, init_written hK] at ht'
  cases ht'
  rw [valuesAt_drawn hm] at hr
  obtain ⟨a1, a2, a3⟩ := tree_auction_at_most_optimal_trade hf ht (by simpa [treeNodes, nodes] using hn) (low_of_drawn hs hd) ha hr
  exact ⟨a1, a2, a3⟩

theorem lt_of_greatest (hk : IsGreatest {i | i ∈ nodes (.cons root ch .nil)} k) : ∀ c ∈ nodes (.cons root ch .nil), c < k + 1 := fun c hc => by
  have := hk.2 hc; omega

theorem total_le {g g' : TreeMeasurement → ℚ} {xs : List TreeMeasurement} (h : ∀ x ∈ xs, g x ≤ g' x) : total g xs ≤ total g' xs :=
  List.sum_le_sum h

theorem total_nonneg {g : TreeMeasurement → ℚ} {xs : List TreeMeasurement} (h : ∀ x ∈ xs, 0 ≤ g x) : 0 ≤ total g xs := by
  refine List.sum_nonneg fun y hy => ?_
  obtain ⟨x, hx, rfl⟩ := List.mem_map.1 hy
  exact h x hx

/-! ## The rows -/

/-- **C73**. Every row of the table of a sensible experiment on a tree of different categories is as predicted. -/
theorem tree_experiment_as_predicted (hf : PriceContract f) (hn : (nodes (.cons root ch .nil)).Nodup)
    (hk : IsGreatest {i | i ∈ nodes (.cons root ch .nil)} k) (hs : TreeSensible (k + 1) ranges counts values random)
    (h : experiment f fuel (written (.cons root ch .nil)) ranges ns N counts values random = .ok (some table)) :
    ∀ row ∈ table, TreeAsPredicted row := by
  intro row hrow
  obtain ⟨hl, hall⟩ := tree_experiment_columns hn hk h
  obtain ⟨i, hi, rfl⟩ := List.getElem_of_mem hrow
  obtain ⟨xs, -, hx, hr⟩ := hall i (by omega)
  have hfine : ∀ x ∈ xs, TreeFine x := by
    intro x hxm
    obtain ⟨j, hj, rfl⟩ := List.getElem_of_mem hxm
    obtain ⟨m, hm, hmx⟩ := hx j hj
    exact tree_fine hf hn (lt_of_greatest hk) (by omega) hs hm hmx
  have c1 : total (fun x => (x.deals : ℚ)) xs ≤ total (fun x => (x.optimalDeals : ℚ)) xs :=
    total_le fun x hx => by exact_mod_cast (hfine x hx).deals_le
  have c2 : 0 ≤ total (fun x => (x.deals : ℚ)) xs := total_nonneg fun x _ => by positivity
  have g1 : total (fun x => x.gain) xs ≤ total (fun x => x.optimalGain) xs := total_le fun x hx => (hfine x hx).gain_le
  have g2 : 0 ≤ total (fun x => x.gain) xs := total_nonneg fun x hx => (hfine x hx).gain_nonneg
  have k1 : 0 ≤ total (fun x => (x.kmin : ℚ)) xs := total_nonneg fun x _ => by positivity
  have hlen : (0 : ℚ) ≤ xs.length := by positivity
  have percent : ∀ {a b q : ℚ}, 0 ≤ a → a ≤ b → (b = 0 → q = 0) → (b ≠ 0 → q * b = 100 * a) → 0 ≤ q ∧ q ≤ 100 := by
    intro a b q ha hab h0 h1
    by_cases hb : b = 0
    · rw [h0 hb]; constructor <;> norm_num
    · have hb' : 0 < b := lt_of_le_of_ne (ha.trans hab) (Ne.symm hb)
      have h2 := h1 hb
      constructor
      · by_contra hq
        push Not at hq
        have := mul_neg_of_neg_of_pos hq hb'
        linarith
      · by_contra hq
        push Not at hq
        have := mul_lt_mul_of_pos_right hq hb'
        linarith
  obtain ⟨p1, p2⟩ := percent c2 c1 hr.countRatio.1 hr.countRatio.2
  obtain ⟨q1, q2⟩ := percent g2 g1 hr.ratio.1 hr.ratio.2
  refine ⟨?_, p1, p2, ?_, ?_, q1, q2, ?_, ?_⟩
  · rw [hr.auctionCount, hr.optimalCount]; exact div_le_div_of_nonneg_right c1 hlen
  · rw [hr.totalGft]; exact div_nonneg g2 hlen
  · rw [hr.totalGft, hr.optimalGft]; exact div_le_div_of_nonneg_right g1 hlen
  · rw [hr.formula]; exact le_max_left _ _
  · have hkm : 0 ≤ table[i].meanOptimalKmin := by rw [hr.kmin]; exact div_nonneg k1 hlen
    rw [hr.formula]
    refine max_lt (by norm_num) ?_
    have : (table[i].meanOptimalKmin - 1) / (table[i].meanOptimalKmin + 1) < 1 := by
      rw [div_lt_one (by linarith)]; linarith
    linarith

/-- **C73**. With at least one iteration, a tree with at least two categories and a solver that finds prices whenever there are any, a sensible
experiment raises no exception. (It may run forever when one of the auctions does, see C37.) -/
theorem tree_experiment_never_raises (hf : PriceContract f) (hfc : PriceComplete f) (hn : (nodes (.cons root ch .nil)).Nodup)
    (hch : ch ≠ .nil) (hk : IsGreatest {i | i ∈ nodes (.cons root ch .nil)} k) (hs : TreeSensible (k + 1) ranges counts values random)
    (hN : 0 < N) : ∃ o, experiment f fuel (written (.cons root ch .nil)) ranges ns N counts values random = .ok o := by
  rw [experiment_start hn hk]
  have hadd : ∀ i j n, ∀ s : Sums, ∃ m o, randomMarket (k + 1) ranges n counts values (random i j) = .ok m ∧
      addMarket f fuel (written (.cons root ch .nil)) m s = .ok o := by
    intro i j n s
    obtain ⟨m, h1, hd⟩ := tree_random_market (n := n) (Nat.succ_pos k) hs.two hs.ordered hs.enough hs.counts_nonneg hs.factors
      hs.factors_nonneg (hs.unit i j)
    have ht : RecipeTree.init m.numCategories (written (.cons root ch .nil)) = .ok ⟨root, ch⟩ := by
      rw [hd.1]; exact init_written (lt_of_greatest hk)
    have hc : m.categories ≠ [] := by
      intro h0
      have := hd.1
      rw [Market.numCategories, h0] at this
      simp at this
    obtain ⟨o, ho⟩ := tree_auction_never_raises hf hfc hc ht (by simpa [treeNodes, nodes] using hn) hch fuel
    cases o with
    | none => exact ⟨m, none, h1, by rw [addMarket]; simp only [ht, ho, bind, Except.bind]⟩
    | some trade => exact ⟨m, _, h1, by rw [addMarket]; simp only [ht, ho, bind, Except.bind]; rfl⟩
  have hiter : ∀ i n N j, ∀ s : Sums, ∃ o, TreeExperiment.iterations f fuel (written (.cons root ch .nil)) (k + 1) ranges n counts values (random i) N j s = .ok o := by
    intro i n N
    induction N with
    | zero => intro j s; exact ⟨_, rfl⟩
    | succ N ih =>
      intro j s
      obtain ⟨m, o, h1, h2⟩ := hadd i j n s
      rw [TreeExperiment.iterations]
      simp only [h1, h2, bind, Except.bind]
      cases o with
      | none => exact ⟨_, rfl⟩
      | some s' => exact ih _ _
  have hrows : ∀ ns i, ∃ o, rows f fuel (written (.cons root ch .nil)) (k + 1) ranges counts values N random i ns = .ok o := by
    intro ns
    induction ns with
    | nil => intro i; exact ⟨_, rfl⟩
    | cons n ns ih =>
      intro i
      obtain ⟨o, ho⟩ := hiter i n N 0 ⟨0, 0, 0, 0, 0, 0, 0⟩
      obtain ⟨o', ho'⟩ := ih (i + 1)
      rw [rows]
      cases o with
      | none => simp only [ho, bind, Except.bind]; exact ⟨_, rfl⟩
      | some s =>
        simp only [ho, ho', mkRow_eq (n := n) (show N ≠ 0 by omega) s, bind, Except.bind]
        cases o' with
        | none => exact ⟨_, rfl⟩
        | some rest => exact ⟨_, rfl⟩
  exact hrows ns 0

/-! ## Without ties -/

theorem pathsToLeaf_length {α : Type} (label : ℕ → α) (pre : List α) (g : Forest) : (g.pathsToLeaf label pre).length = (leaves g).length := by
  induction g generalizing pre with
  | nil => simp [Forest.pathsToLeaf, leaves]
  | cons i c s ih1 ih2 =>
    cases c with
    | nil => rw [Forest.pathsToLeaf, leaves]; simp [ih2]
    | cons j c' s' => rw [Forest.pathsToLeaf, leaves, List.length_append, List.length_append, ih1, ih2]

theorem tree_fine_tie_free {K n : ℕ} {B : ℚ} {L : ℕ} {random : ℕ → ℕ → ℚ} (hf : PriceContract f) (hn : (nodes (.cons root ch .nil)).Nodup)
    (hK : ∀ c ∈ nodes (.cons root ch .nil), c < K) {m : Market}
    (hm : randomMarket K ranges n counts values random = .ok m) (hmK : m.numCategories = K) (hB : 0 ≤ B)
    (hL : IsGreatest {l | ∃ p, IsPath (.cons root ch .nil) p ∧ p.length = l} L) (hM : 3 * L * B < MAX_VALUE)
    (hq : TieFreeMarket (.cons root ch .nil) B m) {x : TreeMeasurement} (hx : TreeMeasured f fuel (written (.cons root ch .nil)) m x) :
    (1 - 1 / (x.kmin : ℚ)) * x.optimalGain ≤ x.gain ∧ x.optimalDeals ≤ x.deals + (leaves (.cons root ch .nil)).length := by
  obtain ⟨t, trade, ht, ha, r, hr, rfl⟩ := hx
  have ht' := ht
  rw [hmK, init_written hK] at ht'
  cases ht'
  rw [valuesAt_drawn hm] at hr
  have hnn : (treeNodes ⟨root, ch⟩).Nodup := by simpa [treeNodes, nodes] using hn
  refine ⟨tree_auction_gain_kmin hf ht hnn hB hq.bound hL hM hq.ties ha hr, ?_⟩
  obtain ⟨-, -, g3⟩ := gain_of_optimal hf ht hnn hB hq.bound hL hM hq.ties ha _ rfl
  have hvals : TreeAuction.valuesAt m.sorted = fun i => sortDesc (m.valueLists.getD i []) := by
    funext i; exact valuesAt_sorted m i
  have hsorted : ∀ i, SortedDesc (TreeAuction.valuesAt m.sorted i) := by
    intro i; rw [valuesAt_sorted]; exact sortDesc_sorted _
  obtain ⟨c1, -, -, -, c5⟩ := counted_deals (t := ⟨root, ch⟩) (vals := TreeAuction.valuesAt m.sorted) hnn (fun i _ => hsorted i) _ rfl
  rw [← hvals] at hr
  obtain ⟨-, d2, -⟩ := c5 r hr
  change r.count ≤ _
  rw [d2]
  refine g3.trans (Nat.add_le_add_left ?_ _)
  have hsub : (((treeDeals (TreeAuction.valuesAt m.sorted) (RecipeTree.forest ⟨root, ch⟩)).filter (fun d => treeGain d ≥ 0)).map
      (List.map Prod.fst)).toFinset ⊆ ((Forest.cons root ch .nil).pathsToLeaf id []).toFinset := by
    intro p hp
    rw [List.mem_toFinset] at hp ⊢
    obtain ⟨d, hd, rfl⟩ := List.mem_map.1 hp
    exact mem_pathsToLeaf.2 (c1.1 d hd)
  refine (Finset.card_le_card hsub).trans ((List.toFinset_card_le _).trans ?_)
  rw [pathsToLeaf_length]

/-- **C73**. If no market of row `i` has ties (and the values are not too large, as in C59): on average the auction loses at most as many deals as the tree
has leaves, and with at most two leaves no warning is printed; if every optimal trade has `kmin ≥ κ`, the ratio of the gains is at least
`1 - 1/κ`; and if `kmin` is the same in all iterations, the column `gftformula` is a lower bound for the column `totalgftratio`. (The ratio is
shown as 0 when there is no optimal gain at all.) -/
theorem tree_experiment_without_ties {B : ℚ} {L : ℕ} (hf : PriceContract f) (hn : (nodes (.cons root ch .nil)).Nodup)
    (hk : IsGreatest {i | i ∈ nodes (.cons root ch .nil)} k) (hs : TreeSensible (k + 1) ranges counts values random) (hB : 0 ≤ B)
    (hL : IsGreatest {l | ∃ p, IsPath (.cons root ch .nil) p ∧ p.length = l} L) (hM : 3 * L * B < MAX_VALUE)
    (h : experiment f fuel (written (.cons root ch .nil)) ranges ns N counts values random = .ok (some table))
    {i : ℕ} (hi : i < table.length) (hi' : i < ns.length)
    (hq : ∀ j < N, ∀ m, randomMarket (k + 1) ranges ns[i] counts values (random i j) = .ok m → TieFreeMarket (.cons root ch .nil) B m) :
    table[i].meanOptimalCount ≤ table[i].meanAuctionCount + (leaves (.cons root ch .nil)).length ∧
    ((leaves (.cons root ch .nil)).length ≤ 2 → table[i].warnings = 0) ∧
    (table[i].meanOptimalGft ≠ 0 → ∀ κ : ℕ, 0 < κ →
      (∀ j < N, ∀ m x, randomMarket (k + 1) ranges ns[i] counts values (random i j) = .ok m →
        TreeMeasured f fuel (written (.cons root ch .nil)) m x → κ ≤ x.kmin) →
      (1 - 1 / (κ : ℚ)) * 100 ≤ table[i].totalGftRatio ∧
      (table[i].meanOptimalKmin = κ → table[i].gftFormula ≤ table[i].totalGftRatio)) := by
  obtain ⟨hl, hall⟩ := tree_experiment_columns hn hk h
  obtain ⟨xs, hxN, hx, hr⟩ := hall i hi'
  have hfine : ∀ j (hj : j < xs.length), TreeFine xs[j] ∧ (1 - 1 / (xs[j].kmin : ℚ)) * xs[j].optimalGain ≤ xs[j].gain ∧
      xs[j].optimalDeals ≤ xs[j].deals + (leaves (.cons root ch .nil)).length := by
    intro j hj
    obtain ⟨m, hm, hmx⟩ := hx j hj
    obtain ⟨m', h1, hd⟩ := tree_random_market (n := ns[i]) (Nat.succ_pos k) hs.two hs.ordered hs.enough hs.counts_nonneg hs.factors
      hs.factors_nonneg (hs.unit i j)
    have hmm : m = m' := by
      have := hm.symm.trans h1
      exact Except.ok.inj this
    subst hmm
    exact ⟨tree_fine hf hn (lt_of_greatest hk) (by omega) hs hm hmx,
      tree_fine_tie_free hf hn (lt_of_greatest hk) hm hd.1 hB hL hM (hq j (by omega) m hm) hmx⟩
  have hfine' : ∀ x ∈ xs, TreeFine x ∧ (1 - 1 / (x.kmin : ℚ)) * x.optimalGain ≤ x.gain ∧
      x.optimalDeals ≤ x.deals + (leaves (.cons root ch .nil)).length := by
    intro x hxm
    obtain ⟨j, hj, rfl⟩ := List.getElem_of_mem hxm
    exact hfine j hj
  refine ⟨?_, ?_, ?_⟩
  · rw [hr.optimalCount, hr.auctionCount]
    have h1 : ∀ ys : List TreeMeasurement, (∀ x ∈ ys, x.optimalDeals ≤ x.deals + (leaves (.cons root ch .nil)).length) →
        total (fun x => (x.optimalDeals : ℚ)) ys ≤ total (fun x => (x.deals : ℚ)) ys + (ys.length : ℚ) * (leaves (.cons root ch .nil)).length := by
      intro ys hy
      induction ys with
      | nil => simp [total]
      | cons y ys ih =>
        have e1 := ih fun x hx => hy x (by simp [hx])
        have e2 : (y.optimalDeals : ℚ) ≤ y.deals + (leaves (.cons root ch .nil)).length := by exact_mod_cast hy y (by simp)
        simp only [total, List.map_cons, List.sum_cons, List.length_cons] at e1 ⊢
        push_cast
        linarith
    have h2 := h1 xs fun x hx => (hfine' x hx).2.2
    rcases Nat.eq_zero_or_pos xs.length with h0 | h0
    · rw [h0]; simp
    · have h3 : (0 : ℚ) < xs.length := by exact_mod_cast h0
      rw [div_le_iff₀ h3, add_mul, div_mul_cancel₀ _ (ne_of_gt h3)]
      linarith
  · intro h2
    rw [hr.warnings, List.length_eq_zero_iff, List.filter_eq_nil_iff]
    intro x hxm
    have := (hfine' x hxm).2.2
    simp only [decide_eq_true_eq]
    omega
  · intro hg κ hκ hall
    have hκ' : (0 : ℚ) < κ := by exact_mod_cast hκ
    have hk1 : ∀ x ∈ xs, (1 - 1 / (κ : ℚ)) * x.optimalGain ≤ x.gain := by
      intro x hxm
      obtain ⟨j, hj, rfl⟩ := List.getElem_of_mem hxm
      obtain ⟨m, hm, hmx⟩ := hx j hj
      have e1 := hall j (by omega) m _ hm hmx
      have e2 := (hfine j hj).2.1
      have e3 : (κ : ℚ) ≤ xs[j].kmin := by exact_mod_cast e1
      have e4 : 0 ≤ xs[j].optimalGain := (hfine j hj).1.gain_nonneg.trans (hfine j hj).1.gain_le
      refine le_trans (mul_le_mul_of_nonneg_right ?_ e4) e2
      have := one_div_le_one_div_of_le hκ' e3
      linarith
    have hsum : (1 - 1 / (κ : ℚ)) * total (fun x => x.optimalGain) xs ≤ total (fun x => x.gain) xs := by
      have : total (fun x => (1 - 1 / (κ : ℚ)) * x.optimalGain) xs ≤ total (fun x => x.gain) xs := total_le hk1
      rwa [total, List.sum_map_mul_left] at this
    have hne : total (fun x => x.optimalGain) xs ≠ 0 := by
      intro h0
      rw [hr.optimalGft, h0] at hg
      simp at hg
    have hpos : 0 < total (fun x => x.optimalGain) xs := lt_of_le_of_ne
      (total_nonneg fun x hxm => (hfine' x hxm).1.gain_nonneg.trans (hfine' x hxm).1.gain_le) (Ne.symm hne)
    have hbound : (1 - 1 / (κ : ℚ)) * 100 ≤ table[i].totalGftRatio := by
      have e := hr.ratio.2 hne
      by_contra hlt
      push Not at hlt
      have := mul_lt_mul_of_pos_right hlt hpos
      linarith
    refine ⟨hbound, fun hkk => ?_⟩
    rw [hr.formula, hkk]
    have h1 : (1 : ℚ) ≤ κ := by exact_mod_cast hκ
    have h0 : 0 ≤ (1 - 1 / (κ : ℚ)) * 100 := by
      have : 1 / (κ : ℚ) ≤ 1 := by rw [div_le_one hκ']; exact h1
      linarith
    refine max_le (h0.trans hbound) (le_trans ?_ hbound)
    have : ((κ : ℚ) - 1) / (κ + 1) ≤ 1 - 1 / κ := by
      rw [div_le_iff₀ (by linarith)]
      have e : (1 - 1 / (κ : ℚ)) * (κ + 1) = κ - 1 / κ := by field_simp; ring
      rw [e]
      have : 1 / (κ : ℚ) ≤ 1 := by rw [div_le_one hκ']; exact h1
      linarith
    linarith

end

/-! ## Examples -/

/-- A generator that makes iteration `j` draw the values `drawn[j][c]` for category `c`, from the ranges `exampleRanges`. -/
def drawing (drawn : List (List (List ℚ))) : ℕ → ℕ → ℕ → ℕ → ℚ :=
  fun _ j c a => ((((drawn.getD j []).getD c []).getD a 0) + if c = 0 then 0 else 1000) / 1000

def exampleRanges : List (ℚ × ℚ) := [(0, 1000), (-1000, 0)]

/-- The tree `[0, [1, [4, None], 2, [5, None], 3, [6, None]]]`. -/
def threeTree : Forest := .cons 0 (.cons 1 (.cons 4 .nil .nil) (.cons 2 (.cons 5 .nil .nil) (.cons 3 (.cons 6 .nil .nil) .nil))) .nil

/-- The tree `[0, [1, None, 2, None]]`. -/
def twoTree : Forest := .cons 0 (.cons 1 .nil (.cons 2 .nil .nil)) .nil

def warningMarket : Market :=
  ⟨[⟨"agent", [613, 549, 493, 455, 255, 57]⟩, ⟨"agent", [-165, -334, -485]⟩, ⟨"agent", [-42, -246, -322]⟩, ⟨"agent", [-14, -370, -432]⟩,
    ⟨"agent", [-314, -367, -397]⟩, ⟨"agent", [-266, -274, -399]⟩, ⟨"agent", [-135, -268, -370]⟩]⟩

def warningDrawn : ℕ → ℕ → ℕ → ℕ → ℚ := drawing [warningMarket.valueLists]

/-- **C73**: the module says that "theoretically, since at most one deal is removed, it should be either k or k-1", and prints a warning when more
than two deals are missing. With three branches, the warning occurs, in a market without ties: there are three optimal deals, with a gain of
719, and the auction does none. (The bound of C59, one deal for every path in use, is attained.) -/
theorem tree_experiment_warning :
    PriceContract (fixedSolver (List.replicate 7 (-MAX_VALUE))) ∧
    randomMarket 7 exampleRanges 1 [6, 3, 3, 3, 3, 3, 3] (List.replicate 7 1) (warningDrawn 0 0) = .ok warningMarket ∧
    TieFreeMarket threeTree 1000 warningMarket ∧
    (experiment (fixedSolver (List.replicate 7 (-MAX_VALUE))) 100 (written threeTree) exampleRanges [1] 1 [6, 3, 3, 3, 3, 3, 3]
      (List.replicate 7 1) warningDrawn).map (Option.map (List.map (fun r => (r.meanOptimalCount, r.meanAuctionCount, r.meanOptimalGft, r.warnings))))
      = .ok (some [(3, 0, 719, 1)]) :=
  ⟨fixedSolver_contract _, by decide +kernel, ⟨by decide +kernel, tieFree_of_noTies (by decide +kernel)⟩, by decide +kernel⟩

def formulaDrawn : ℕ → ℕ → ℕ → ℕ → ℚ := drawing [[[500], [-400], [-450]], [[100], [-400], [-450]]]

/-- **C73**: in general `gftformula` is not a lower bound for `totalgftratio`, although no market has ties. An optimal trade without deals counts as
`kmin = 99999`: two iterations, one with a single deal, which the auction does not do, and one without deals, give a formula of more than 99% and a
ratio of 0%. -/
theorem tree_experiment_formula_fails :
    PriceContract (fixedSolver (List.replicate 3 (-MAX_VALUE))) ∧
    (∀ j < 2, ∃ m, randomMarket 3 exampleRanges 1 [1, 1, 1] [1, 1, 1] (formulaDrawn 0 j) = .ok m ∧ TieFreeMarket twoTree 1000 m) ∧
    ∃ row : Row, experiment (fixedSolver (List.replicate 3 (-MAX_VALUE))) 100 (written twoTree) exampleRanges [1] 2 [1, 1, 1] [1, 1, 1] formulaDrawn
        = .ok (some [row]) ∧
      row.meanOptimalKmin = 50000 ∧ 99 < row.gftFormula ∧ row.totalGftRatio = 0 ∧ row.meanOptimalGft = 50 := by
  refine ⟨fixedSolver_contract _, fun j hj => ?_, ⟨2, 1, 1 / 2, 50000, 1 / 2, 4999900 / 50001, 0, 0, 50, 0, 0, 0⟩, by decide +kernel, by decide +kernel⟩
  rcases (show j = 0 ∨ j = 1 by omega) with rfl | rfl
  · exact ⟨⟨[⟨"agent", [500]⟩, ⟨"agent", [-400]⟩, ⟨"agent", [-450]⟩]⟩, by decide +kernel, ⟨by decide +kernel, tieFree_of_noTies (by decide +kernel)⟩⟩
  · exact ⟨⟨[⟨"agent", [100]⟩, ⟨"agent", [-400]⟩, ⟨"agent", [-450]⟩]⟩, by decide +kernel, ⟨by decide +kernel, tieFree_of_noTies (by decide +kernel)⟩⟩

def twoDrawn : ℕ → ℕ → ℕ → ℕ → ℚ :=
  drawing [[[700, 690, 560, 550], [-390, -400], [-380, -451]], [[900, 800, 700, 600], [-310, -320], [-333, -345]]]

/-- Non-vacuity of C72 and C73: the tree `[0, [1, None, 2, None]]`, four buyers and two agents in each of the other categories, two iterations without
ties, in which every path is used by two optimal deals. -/
example :
    (nodes twoTree).Nodup ∧ IsGreatest {i | i ∈ nodes twoTree} 2 ∧ TreeSensible 3 exampleRanges [1, 1 / 2, 1 / 2] [1, 1, 1] twoDrawn ∧
    (∀ j < 2, ∃ m, randomMarket 3 exampleRanges 4 [1, 1 / 2, 1 / 2] [1, 1, 1] (twoDrawn 0 j) = .ok m ∧ TieFreeMarket twoTree 1000 m) ∧
    ∃ row : Row, experiment (fixedSolver (List.replicate 3 (-MAX_VALUE))) 100 (written twoTree) exampleRanges [4] 2 [1, 1 / 2, 1 / 2] [1, 1, 1] twoDrawn
        = .ok (some [row]) ∧ row.meanOptimalKmin = 2 ∧ row.meanOptimalCount = 4 ∧ row.meanAuctionCount = 3 ∧ 0 < row.gftFormula ∧
        row.gftFormula < row.totalGftRatio := by
  refine ⟨by decide +kernel, ⟨by simp [twoTree, nodes], fun i hi => ?_⟩, ⟨by decide +kernel, by decide +kernel, by decide +kernel, by decide +kernel, by decide +kernel, by decide +kernel, by decide +kernel, ?_⟩, fun j hj => ?_, ?_⟩
  · simp [twoTree, nodes] at hi; omega
  · intro i j c a
    have key : ∀ q : ℚ, 0 ≤ q → q ≤ 1000 → 0 ≤ q / 1000 ∧ q / 1000 ≤ 1 := by
      intro q h1 h2
      constructor
      · linarith
      · linarith
    refine key _ ?_ ?_
    all_goals
      match j, c, a with
      | 0, 0, 0 | 0, 0, 1 | 0, 0, 2 | 0, 0, 3 | 0, 1, 0 | 0, 1, 1 | 0, 2, 0 | 0, 2, 1 => norm_num
      | 1, 0, 0 | 1, 0, 1 | 1, 0, 2 | 1, 0, 3 | 1, 1, 0 | 1, 1, 1 | 1, 2, 0 | 1, 2, 1 => norm_num
      | 0, 0, a + 4 | 0, 1, a + 2 | 0, 2, a + 2 | 1, 0, a + 4 | 1, 1, a + 2 | 1, 2, a + 2 => norm_num
      | 0, c + 3, a | 1, c + 3, a => norm_num
      | j + 2, 0, a | j + 2, c + 1, a => norm_num
  · rcases (show j = 0 ∨ j = 1 by omega) with rfl | rfl
    · exact ⟨⟨[⟨"agent", [700, 690, 560, 550]⟩, ⟨"agent", [-390, -400]⟩, ⟨"agent", [-380, -451]⟩]⟩, by decide +kernel,
        ⟨by decide +kernel, tieFree_of_noTies (by decide +kernel)⟩⟩
    · exact ⟨⟨[⟨"agent", [900, 800, 700, 600]⟩, ⟨"agent", [-310, -320]⟩, ⟨"agent", [-333, -345]⟩]⟩, by decide +kernel,
        ⟨by decide +kernel, tieFree_of_noTies (by decide +kernel)⟩⟩
  · exact ⟨⟨2, 4, 4, 2, 2, 100 / 3, 3, 75, 2571 / 2, 2217 / 2, 73900 / 857, 0⟩, by decide +kernel, by decide +kernel⟩

end Auctions.Props
