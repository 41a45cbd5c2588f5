import Verif.Model.ComparingExperiment
import Verif.Spec.Comparison
import Verif.Props.Comparison
import Verif.Props.Experiment

set_option autoImplicit false

/-!
# C69: the experiments that compare the two strongly budget balanced auctions
-/

namespace Auctions.Props

open Auctions Spec Ascending TradeReduction Experiment

theorem dvd_of_drawn {r : List ℕ} {n : ℕ} {ranges : List (ℚ × ℚ)} {m : Market} (h : Drawn r n ranges m) :
    ∀ i (hi : i < m.categories.length), r.getD i 0 ∣ m.categories[i].size := fun i hi => by
  rw [(h.2 i hi).1]
  exact Dvd.intro_left _ rfl

/-- On the markets of the experiments both auctions return, with the same number of deals; and with the same gain, if all counts of the recipe but
the last are 1. -/
theorem both_measured {r : List ℕ} (hall : ∀ x ∈ r, 0 < x) (hr : r ≠ []) {n A fuel : ℕ} {m : Market} (hm : Usable r n A m)
    (hdvd : ∀ i (hi : i < m.categories.length), r.getD i 0 ∣ m.categories[i].size) (hn : A ≤ 2000000) (hf : A < fuel) :
    ∃ x y, Measured (fun m r => (tradeReduction m r).map some) r m x ∧ Measured (fun m r => auction m r fuel) r m y ∧
      x.optimalDeals = y.optimalDeals ∧ x.optimalGain = y.optimalGain ∧ x.deals = y.deals ∧ (OnesThen r → x = y) := by
  obtain ⟨x, hx, -⟩ := trade_reduction_fine hall hr hm hn
  obtain ⟨y, hy, -⟩ := ascending_fine hall hr hm hn hf
  refine ⟨x, y, hx, hy, ?_⟩
  obtain ⟨o, re, t, a1, a2, a3, a4, a5, a6, a7⟩ := hx
  obtain ⟨o', re', t', b1, b2, b3, b4, b5, b6, b7⟩ := hy
  rw [a1] at b1
  obtain ⟨rfl, rfl⟩ := Prod.mk.inj (Except.ok.inj b1)
  have ht : tradeReduction m r = .ok t := by
    have a2' : (tradeReduction m r).map some = .ok (some t) := a2
    cases h : tradeReduction m r with
    | error e => rw [h] at a2'; cases a2'
    | ok t₀ =>
      rw [h] at a2'
      have := Except.ok.inj a2'
      rw [Option.some.inj this]
  have ht' : auction m r fuel = .ok (some t') := b2
  have hd := sbb_same_number_of_deals hm.low (le_trans hm.agents hn) ht ht'
  refine ⟨by rw [a3, b3], by rw [a5, b5], by rw [a4, b4, hd], ?_⟩
  rintro ⟨c, k, hk, rfl⟩
  have hsum : (List.replicate c 1 ++ [k]).sum = c + k := by simp
  have hh := hm.high
  rw [hsum] at hh
  have hgain : ∀ b, t.gainFromTrade b = t'.gainFromTrade b := by
    intro b
    rcases sbb_same_outcome hk hdvd hm.low hh (le_trans hm.agents hn) ht ht' with rfl | ⟨h1, h2⟩
    · rfl
    · rw [gain_of_no_deals h1, gain_of_no_deals h2]
  rw [hgain] at a6 a7
  rw [a6] at b6
  rw [a7] at b7
  cases x
  cases y
  simp only at *
  subst a3 a4 a5 b3 b4 b5
  rw [Except.ok.inj b6, Except.ok.inj b7, hd]

/-- **C69**. The tables of `experiment.py` for the two auctions, on the same random numbers: the columns on the number of deals are equal for every
recipe; if all counts of the recipe but the last are 1, as in `experiment_sbb_with_vectors_of_ones.py`, the tables are equal. -/
theorem experiment_sbb_tables {r : List ℕ} {ranges : List (ℚ × ℚ)} {ns : List ℕ} {N fuel : ℕ} {random : ℕ → ℕ → ℕ → ℕ → ℚ}
    (hs : Sensible r ranges ns N random) (hf : ∀ n ∈ ns, n * r.sum < fuel) :
    ∃ external ascending, experiment (fun m r => (tradeReduction m r).map some) r ranges ns N random = .ok (some external) ∧
      experiment (fun m r => auction m r fuel) r ranges ns N random = .ok (some ascending) ∧
      ∃ (hl : external.length = ns.length) (hl' : ascending.length = ns.length), (∀ i (hi : i < ns.length),
        external[i].meanAuctionCount = ascending[i].meanAuctionCount ∧ external[i].countRatio = ascending[i].countRatio ∧
        external[i].meanOptimalCount = ascending[i].meanOptimalCount ∧ external[i].meanOptimalGft = ascending[i].meanOptimalGft) ∧
      (OnesThen r → external = ascending) := by
  obtain ⟨T, hT, -⟩ := experiment_trade_reduction hs
  obtain ⟨T', hT', -⟩ := experiment_ascending hs hf
  obtain ⟨hl, hall⟩ := (rows_iff 0 ns T).1 hT
  obtain ⟨hl', hall'⟩ := (rows_iff 0 ns T').1 hT'
  have key : ∀ i (hi : i < ns.length), ∃ xs ys : List Measurement, xs.length = ys.length ∧
      (∀ j (hj : j < xs.length) (hj' : j < ys.length), xs[j].optimalDeals = ys[j].optimalDeals ∧ xs[j].optimalGain = ys[j].optimalGain ∧
        xs[j].deals = ys[j].deals ∧ (OnesThen r → xs[j] = ys[j])) ∧
      Experiment.mkRow N ns[i] ((⟨0, 0, 0, 0, 0⟩ : Sums).addAll xs) = .ok T[i] ∧
      Experiment.mkRow N ns[i] ((⟨0, 0, 0, 0, 0⟩ : Sums).addAll ys) = .ok T'[i] := by
    intro i hi
    obtain ⟨s, hsi, hrow⟩ := hall i hi
    obtain ⟨s', hsi', hrow'⟩ := hall' i hi
    obtain ⟨xs, hx, hmx, rfl⟩ := (iterations_iff _ _ _ _).1 hsi
    obtain ⟨ys, hy, hmy, rfl⟩ := (iterations_iff _ _ _ _).1 hsi'
    refine ⟨xs, ys, by omega, fun j hj hj' => ?_, hrow, hrow'⟩
    obtain ⟨m, h1, h2⟩ := hmx j hj
    obtain ⟨m', h1', h2'⟩ := hmy j hj'
    rw [h1] at h1'
    obtain rfl := Except.ok.inj h1'
    obtain ⟨m', g1, g2⟩ := random_market (n := ns[i]) (random := random (0 + i) (0 + j)) hs.recipe hs.enough (fun x hx => (hs.range x hx).2.1)
      (fun c a => hs.unit _ _ c a)
    rw [h1] at g1
    obtain rfl := Except.ok.inj g1
    obtain ⟨x, y, hx', hy', e⟩ := both_measured hs.positive hs.recipe (usable_of_drawn hs.positive hs.recipe hs.enough hs.range g2) (dvd_of_drawn g2) (hs.agents _ (List.getElem_mem hi))
      (hf _ (List.getElem_mem hi))
    rw [measured_unique h2 hx', measured_unique h2' hy']
    exact e
  refine ⟨T, T', hT, hT', hl, hl', fun i hi => ?_, fun hones => ?_⟩
  · obtain ⟨xs, ys, hxy, he, hrow, hrow'⟩ := key i hi
    have m1 : xs.map (fun x => x.deals) = ys.map (fun x => x.deals) :=
      List.ext_getElem (by simpa using hxy) fun j h1 h2 => by simpa using (he j (by simpa using h1) (by simpa using h2)).2.2.1
    have m2 : xs.map (fun x => x.optimalDeals) = ys.map (fun x => x.optimalDeals) :=
      List.ext_getElem (by simpa using hxy) fun j h1 h2 => by simpa using (he j (by simpa using h1) (by simpa using h2)).1
    have m3 : xs.map (fun x => x.optimalGain) = ys.map (fun x => x.optimalGain) :=
      List.ext_getElem (by simpa using hxy) fun j h1 h2 => by simpa using (he j (by simpa using h1) (by simpa using h2)).2.1
    obtain ⟨-, e1⟩ := mkRow_ok hrow
    obtain ⟨-, e2⟩ := mkRow_ok hrow'
    rw [addAll_eq] at e1 e2
    rw [e1, e2]
    simp only [m1, m2, m3, and_self]
  · refine List.ext_getElem (by omega) fun i h1 h2 => ?_
    obtain ⟨xs, ys, hxy, he, hrow, hrow'⟩ := key i (by omega)
    have hxs : xs = ys := List.ext_getElem hxy fun j h1 h2 => (he j h1 h2).2.2.2 hones
    subst hxs
    rw [hrow] at hrow'
    exact Except.ok.inj hrow'

/-! ## `experiment_comparing_sbb.py` -/

theorem scaled_ranges {f : ℕ} {rest : List ℕ} {ranges : List (ℚ × ℚ)} (hf : 0 < f) (hl : (f :: rest).length ≤ ranges.length)
    (hle : ∀ x ∈ ranges, x.1 ≤ x.2)
    (hb : ∀ x ∈ ranges, ((f :: rest).sum : ℚ) * ((f :: rest).sum * |x.1| + 1) ≤ MAX_VALUE ∧
      ((f :: rest).sum : ℚ) * ((f :: rest).sum * |x.2| + 1) ≤ MAX_VALUE) :
    (f :: rest).length ≤ (ComparingExperiment.scaledRanges f rest ranges).length ∧
    ∀ x ∈ ComparingExperiment.scaledRanges f rest ranges,
      1 / 2 - MAX_VALUE ≤ x.1 ∧ x.1 ≤ x.2 ∧ ((f :: rest).sum : ℚ) * (x.2 + 1 / 2) < MAX_VALUE := by
  set R := (f :: rest).sum with hR
  have hR1 : f ≤ R := by rw [hR]; simp
  have hR2 : (1 : ℚ) ≤ R := by exact_mod_cast (show 1 ≤ R by omega)
  constructor
  · unfold ComparingExperiment.scaledRanges
    simp only [List.length_zipWith, List.length_cons, List.length_map] at hl ⊢
    omega
  · intro x hx
    unfold ComparingExperiment.scaledRanges at hx
    rw [List.mem_iff_getElem] at hx
    obtain ⟨i, hi, rfl⟩ := hx
    rw [List.getElem_zipWith]
    have hi1 : i < ranges.length := by simp at hi; omega
    have hfac : ∀ y ∈ ((f :: rest).sum - f) :: rest.map (fun _ => f), y ≤ R := by
      intro y hy
      rcases List.mem_cons.1 hy with rfl | hy
      · omega
      · obtain ⟨_, -, rfl⟩ := List.mem_map.1 hy
        exact hR1
    set y := (((f :: rest).sum - f) :: rest.map (fun _ => f))[i]'(by simp at hi; simp; omega) with hy
    have hyR : (y : ℚ) ≤ R := by exact_mod_cast hfac y (List.getElem_mem _)
    have hy0 : (0 : ℚ) ≤ y := by positivity
    have h1 := hle _ (List.getElem_mem hi1)
    obtain ⟨b1, b2⟩ := hb _ (List.getElem_mem hi1)
    set u := ranges[i].1
    set v := ranges[i].2
    have hu : -(R * |u|) ≤ u * y := by
      have := neg_abs_le (u * y)
      rw [abs_mul, abs_of_nonneg hy0] at this
      have := mul_le_mul_of_nonneg_left hyR (abs_nonneg u)
      linarith
    have hv : v * y ≤ R * |v| := by
      have := le_abs_self (v * y)
      rw [abs_mul, abs_of_nonneg hy0] at this
      have := mul_le_mul_of_nonneg_left hyR (abs_nonneg v)
      linarith
    refine ⟨?_, mul_le_mul_of_nonneg_right h1 hy0, ?_⟩
    · have h3 : (0 : ℚ) ≤ R * |u| := by positivity
      have h4 : R * |u| + 1 ≤ (R : ℚ) * (R * |u| + 1) := by nlinarith
      show 1 / 2 - MAX_VALUE ≤ u * y
      linarith
    · have h5 : (R : ℚ) * (v * y + 1 / 2) < R * (R * |v| + 1) := mul_lt_mul_of_pos_left (by linarith) (by linarith)
      exact lt_of_lt_of_le h5 b2

open ComparingExperiment in
theorem comparing_addMarket {r : List ℕ} {fuel : ℕ} {m : Market} {x y : Measurement}
    (hx : Measured (fun m r => (tradeReduction m r).map some) r m x) (hy : Measured (fun m r => auction m r fuel) r m y) (s : Totals) :
    ComparingExperiment.addMarket r fuel m s = .ok (some ⟨s.externalCount + x.deals, s.ascendingCount + y.deals, s.externalGft + x.gain,
      s.ascendingGft + y.gain⟩) := by
  obtain ⟨o, re, t, a1, a2, a3, a4, a5, a6, a7⟩ := hx
  obtain ⟨o', re', t', b1, b2, b3, b4, b5, b6, b7⟩ := hy
  have a2' : (tradeReduction m r).map some = .ok (some t) := a2
  have b2' : auction m r fuel = .ok (some t') := b2
  have ht : tradeReduction m r = .ok t := by
    cases h : tradeReduction m r with
    | error e => rw [h] at a2'; cases a2'
    | ok t₀ =>
      rw [h] at a2'
      rw [Option.some.inj (Except.ok.inj a2')]
  unfold ComparingExperiment.addMarket
  simp only [a1, ht, b2', a6, b6, bind, Except.bind, a4, b4]

/-- The counts agree; and the gains, if `E`. -/
def Tied (E : Prop) (s : ComparingExperiment.Totals) : Prop := s.externalCount = s.ascendingCount ∧ (E → s.externalGft = s.ascendingGft)

theorem comparing_iterations {r : List ℕ} {n fuel : ℕ} {ranges : List (ℚ × ℚ)} {random : ℕ → ℕ → ℕ → ℚ} {E : Prop}
    (h : ∀ i, ∃ m, randomMarket r n ranges (random i) = .ok m ∧ ∃ x y, Measured (fun m r => (tradeReduction m r).map some) r m x ∧
      Measured (fun m r => auction m r fuel) r m y ∧ x.deals = y.deals ∧ (E → x.gain = y.gain))
    (N i : ℕ) (s : ComparingExperiment.Totals) (hs : Tied E s) :
    ∃ s', ComparingExperiment.iterations r n ranges fuel random N i s = .ok (some s') ∧ Tied E s' := by
  induction N generalizing i s with
  | zero => exact ⟨s, rfl, hs⟩
  | succ N ih =>
    obtain ⟨m, hm, x, y, hx, hy, h1, h2⟩ := h i
    obtain ⟨s', hs', ht⟩ := ih (i + 1) ⟨s.externalCount + x.deals, s.ascendingCount + y.deals, s.externalGft + x.gain, s.ascendingGft + y.gain⟩
      ⟨by show _ + _ = _ + _; rw [hs.1, h1], fun e => by show _ + _ = _ + _; rw [hs.2 e, h2 e]⟩
    refine ⟨s', ?_, ht⟩
    unfold ComparingExperiment.iterations
    simp only [hm, comparing_addMarket hx hy, bind, Except.bind, hs']

theorem count_tie (w : ComparingExperiment.Wins) {a b : ℚ} (h : a = b) : w.count a b = { w with tie := w.tie + 1 } := by
  subst h
  simp [ComparingExperiment.Wins.count]

theorem count_total (w : ComparingExperiment.Wins) (a b : ℚ) :
    (w.count a b).external + (w.count a b).tie + (w.count a b).ascending = w.external + w.tie + w.ascending + 1 := by
  unfold ComparingExperiment.Wins.count
  split_ifs <;> simp <;> omega

theorem comparing_sizes {r : List ℕ} {N fuel : ℕ} {ranges : List (ℚ × ℚ)} {random : ℕ → ℕ → ℕ → ℕ → ℚ} {E : Prop} (i : ℕ) (ns : List ℕ)
    (h : ∀ n ∈ ns, ∀ i j, ∃ m, randomMarket r n ranges (random i j) = .ok m ∧ ∃ x y, Measured (fun m r => (tradeReduction m r).map some) r m x ∧
      Measured (fun m r => auction m r fuel) r m y ∧ x.deals = y.deals ∧ (E → x.gain = y.gain))
    (gft k : ComparingExperiment.Wins) :
    ∃ gft', ComparingExperiment.sizes r ranges N fuel random i ns (gft, k) = .ok (some (gft', { k with tie := k.tie + ns.length })) ∧
      gft'.external + gft'.tie + gft'.ascending = gft.external + gft.tie + gft.ascending + ns.length ∧
      (E → gft' = { gft with tie := gft.tie + ns.length }) := by
  induction ns generalizing i gft k with
  | nil => exact ⟨gft, rfl, rfl, fun _ => rfl⟩
  | cons n ns ih =>
    obtain ⟨s, hs, ht⟩ := comparing_iterations (E := E) (h n (by simp) i) N 0 ⟨0, 0, 0, 0⟩ ⟨rfl, fun _ => rfl⟩
    obtain ⟨g, h1, h2, h3⟩ := ih (i + 1) (fun n' hn' => h n' (by simp [hn'])) (gft.count s.externalGft s.ascendingGft)
      (k.count s.externalCount s.ascendingCount)
    have hk := count_tie k (a := s.externalCount) (b := s.ascendingCount) (by rw [ht.1])
    refine ⟨g, ?_, ?_, fun e => ?_⟩
    · unfold ComparingExperiment.sizes
      simp only [hs, bind, Except.bind, h1]
      rw [hk]
      simp only [List.length_cons, show k.tie + 1 + ns.length = k.tie + (ns.length + 1) by omega]
    · rw [h2, count_total, List.length_cons]; omega
    · rw [h3 e, count_tie _ (ht.2 e), List.length_cons]
      simp only [ComparingExperiment.Wins.mk.injEq, true_and, and_true]
      omega

theorem percent_ok {w n : ℕ} (hn : n ≠ 0) : ComparingExperiment.percent w n = .ok (pyInt ((w : ℚ) * 100 / n)) := by
  have : (n : ℚ) ≠ 0 := by exact_mod_cast hn
  simp [ComparingExperiment.percent, pyDiv, this, Except.map]

theorem percent_zero (n : ℕ) : pyInt (((0 : ℕ) : ℚ) * 100 / n) = 0 := by simp [pyInt]

theorem percent_all {n : ℕ} (hn : n ≠ 0) : pyInt ((n : ℚ) * 100 / n) = 100 := by
  have : (n : ℚ) ≠ 0 := by exact_mod_cast hn
  rw [mul_comm, mul_div_assoc, div_self this]
  norm_num [pyInt]

/-- **C69**. The table of `experiment_comparing_sbb.py`, whatever the random numbers: it is filled, with one row for every recipe; by the number of
deals neither auction ever wins; every number of agents is counted in exactly one of the three columns on the gain from trade; and if all counts
of the recipe but the last are 1, neither auction ever wins by the gain from trade. -/
theorem experiment_comparing_sbb {recipes : List (List ℕ)} {ranges : List (ℚ × ℚ)} {ns : List ℕ} {N fuel : ℕ}
    {random : ℕ → ℕ → ℕ → ℕ → ℕ → ℚ} (hs : SensibleComparison recipes ranges ns random) (hne : ns ≠ [])
    (hf : ∀ r ∈ recipes, ∀ n ∈ ns, n * r.sum < fuel) :
    ∃ table, ComparingExperiment.experiment recipes ranges ns N fuel random = .ok (some table) ∧
      ∃ hl : table.length = recipes.length, ∀ i (hi : i < recipes.length),
        table[i].recipe = recipes[i] ∧
        table[i].externalWinsK = 0 ∧ table[i].tieK = 100 ∧ table[i].ascendingWinsK = 0 ∧
        table[i].externalWins + table[i].tie + table[i].ascendingWins = ns.length ∧
        (OnesThen recipes[i] → table[i].externalWins = 0 ∧ table[i].tie = ns.length ∧ table[i].ascendingWins = 0 ∧
          table[i].externalWinsGft = 0 ∧ table[i].tieGft = 100 ∧ table[i].ascendingWinsGft = 0) := by
  have hn0 : ns.length ≠ 0 := fun h => hne (List.length_eq_zero_iff.1 h)
  have key : ∀ r ∈ recipes, ∀ i, ∃ row, ComparingExperiment.recipeRow r ranges ns N fuel (random i) = .ok (some row) ∧ row.recipe = r ∧
      row.externalWinsK = 0 ∧ row.tieK = 100 ∧ row.ascendingWinsK = 0 ∧ row.externalWins + row.tie + row.ascendingWins = ns.length ∧
      (OnesThen r → row.externalWins = 0 ∧ row.tie = ns.length ∧ row.ascendingWins = 0 ∧
        row.externalWinsGft = 0 ∧ row.tieGft = 100 ∧ row.ascendingWinsGft = 0) := by
    intro r hr i
    obtain ⟨hr1, hr2, hr3⟩ := hs.recipe r hr
    cases r with
    | nil => exact absurd rfl hr1
    | cons f rest =>
      obtain ⟨g1, g2⟩ := scaled_ranges (hr2 f (by simp)) hr3 hs.range (hs.bounded _ hr)
      obtain ⟨g, e1, e2, e3⟩ := comparing_sizes (r := f :: rest) (N := N) (fuel := fuel) (random := random i)
        (ranges := ComparingExperiment.scaledRanges f rest ranges) (E := OnesThen (f :: rest)) 0 ns
        (fun n hn i' j => by
          obtain ⟨m, h1, h2⟩ := random_market (r := f :: rest) (n := n) (random := random i i' j) (by simp) g1 (fun x hx => (g2 x hx).2.1)
            (fun c a => hs.unit _ _ _ c a)
          obtain ⟨x, y, h3, h4, -, -, h5, h6⟩ := both_measured hr2 (by simp) (usable_of_drawn hr2 (by simp) g1 g2 h2) (dvd_of_drawn h2) (hs.agents _ hr n hn) (hf _ hr n hn)
          exact ⟨m, h1, x, y, h3, h4, h5, fun e => by rw [h6 e]⟩) ⟨0, 0, 0⟩ ⟨0, 0, 0⟩
      refine ⟨⟨f :: rest, pyInt ((g.external : ℚ) * 100 / ns.length), pyInt ((g.tie : ℚ) * 100 / ns.length),
        pyInt ((g.ascending : ℚ) * 100 / ns.length), 0, 100, 0, g.external, g.tie, g.ascending⟩, ?_, rfl, rfl, rfl, rfl, by simpa using e2, fun h => ?_⟩
      · unfold ComparingExperiment.recipeRow
        simp only [e1, bind, Except.bind, ComparingExperiment.mkRow, percent_ok hn0, Nat.zero_add, percent_zero, percent_all hn0]
      · have := e3 h
        subst this
        simp only [Nat.zero_add, percent_zero, percent_all hn0, and_self]
  have gen : ∀ i, ∀ rs : List (List ℕ), (∀ r ∈ rs, r ∈ recipes) →
      ∃ table, ComparingExperiment.rows ranges ns N fuel random i rs = .ok (some table) ∧
      ∃ hl : table.length = rs.length, ∀ j (hj : j < rs.length),
        table[j].recipe = rs[j] ∧
        table[j].externalWinsK = 0 ∧ table[j].tieK = 100 ∧ table[j].ascendingWinsK = 0 ∧
        table[j].externalWins + table[j].tie + table[j].ascendingWins = ns.length ∧
        (OnesThen rs[j] → table[j].externalWins = 0 ∧ table[j].tie = ns.length ∧ table[j].ascendingWins = 0 ∧
          table[j].externalWinsGft = 0 ∧ table[j].tieGft = 100 ∧ table[j].ascendingWinsGft = 0) := by
    intro i rs
    induction rs generalizing i with
    | nil => intro _; exact ⟨[], rfl, rfl, fun j hj => absurd hj (by simp)⟩
    | cons r rs ih =>
      intro hsub
      obtain ⟨rest, h1, hl, h2⟩ := ih (i + 1) (fun r' hr' => hsub r' (by simp [hr']))
      obtain ⟨row, h3, h4⟩ := key r (hsub r (by simp)) i
      refine ⟨row :: rest, ?_, by simp [hl], fun j hj => ?_⟩
      · unfold ComparingExperiment.rows
        simp only [h3, h1, bind, Except.bind]
      · cases j with
        | zero => exact h4
        | succ j => exact h2 j (by simpa using hj)
  exact gen 0 recipes (fun r h => h)

/-! ## What the columns mean -/

open ComparingExperiment in
theorem comparing_addMarket_inv {r : List ℕ} {fuel : ℕ} {m : Market} {s s' : Totals}
    (h : ComparingExperiment.addMarket r fuel m s = .ok (some s')) :
    ∃ t t' x y, tradeReduction m r = .ok t ∧ auction m r fuel = .ok (some t') ∧ HasOutcome t x ∧ HasOutcome t' y ∧
      s' = ⟨s.externalCount + x.1, s.ascendingCount + y.1, s.externalGft + x.2, s.ascendingGft + y.2⟩ := by
  unfold ComparingExperiment.addMarket at h
  rcases ho : m.optimalTrade r with e | ⟨opt, rem⟩
  · simp [ho, bind, Except.bind] at h
  rcases ht : tradeReduction m r with e | t
  · simp [ho, ht, bind, Except.bind] at h
  rcases ha : auction m r fuel with e | _ | t'
  · simp [ho, ht, ha, bind, Except.bind] at h
  · simp [ho, ht, ha, bind, Except.bind] at h
  rcases hg : t.gainFromTrade with e | g
  · simp [ho, ht, ha, hg, bind, Except.bind] at h
  rcases hg' : t'.gainFromTrade with e | g'
  · simp [ho, ht, ha, hg, hg', bind, Except.bind] at h
  simp only [ho, ht, ha, hg, hg', bind, Except.bind, Except.ok.injEq, Option.some.injEq] at h
  exact ⟨t, t', (t.numOfDeals, g), (t'.numOfDeals, g'), rfl, rfl, ⟨rfl, hg⟩, ⟨rfl, hg'⟩, h.symm⟩

open ComparingExperiment in
theorem comparing_iterations_inv {r : List ℕ} {n fuel : ℕ} {ranges : List (ℚ × ℚ)} {random : ℕ → ℕ → ℕ → ℚ} (N i : ℕ) (s s' : Totals)
    (h : ComparingExperiment.iterations r n ranges fuel random N i s = .ok (some s')) :
    ∃ d : Duel, d.On r fuel (fun j => randomMarket r n ranges (random (i + j))) N ∧
      s' = ⟨s.externalCount + deals d.external, s.ascendingCount + deals d.ascending, s.externalGft + gains d.external,
        s.ascendingGft + gains d.ascending⟩ := by
  induction N generalizing i s with
  | zero =>
    have := Option.some.inj (Except.ok.inj h)
    subst this
    exact ⟨⟨[], []⟩, ⟨rfl, rfl, fun j hj => absurd hj (by omega)⟩, by simp [deals, gains]⟩
  | succ N ih =>
    unfold ComparingExperiment.iterations at h
    rcases hm : randomMarket r n ranges (random i) with e | m
    · simp [hm, bind, Except.bind] at h
    rcases ha : ComparingExperiment.addMarket r fuel m s with e | _ | s₁
    · simp [hm, ha, bind, Except.bind] at h
    · simp [hm, ha, bind, Except.bind] at h
    simp only [hm, ha, bind, Except.bind] at h
    obtain ⟨d, ⟨h1, h1', h2⟩, h3⟩ := ih (i + 1) s₁ h
    obtain ⟨t, t', x, y, g1, g2, g3, g4, g5⟩ := comparing_addMarket_inv ha
    refine ⟨⟨x :: d.external, y :: d.ascending⟩, ⟨by simp [h1], by simp [h1'], fun j hj => ?_⟩, ?_⟩
    · cases j with
      | zero => exact ⟨m, t, t', hm, g1, g2, g3, g4⟩
      | succ j =>
        obtain ⟨m', u, u', e1, e2, e3, e4, e5⟩ := h2 j (by omega)
        exact ⟨m', u, u', by rw [← e1]; show _ = randomMarket r n ranges (random (i + 1 + j)); rw [show i + 1 + j = i + (j + 1) by omega], e2, e3, e4, e5⟩
    · rw [h3, g5]
      simp [deals, gains, add_assoc]

open ComparingExperiment in
theorem comparing_sizes_inv {r : List ℕ} {N fuel : ℕ} {ranges : List (ℚ × ℚ)} {random : ℕ → ℕ → ℕ → ℕ → ℚ} (i : ℕ) (ns : List ℕ)
    (gft k gft' k' : Wins) (h : ComparingExperiment.sizes r ranges N fuel random i ns (gft, k) = .ok (some (gft', k'))) :
    ∃ ds : List Duel, ∃ hl : ds.length = ns.length,
      (∀ j (hj : j < ns.length), ds[j].On r fuel (fun l => randomMarket r ns[j] ranges (random (i + j) l)) N) ∧
      gft' = ⟨gft.external + ds.countP (fun d => gains d.ascending < gains d.external),
        gft.tie + ds.countP (fun d => gains d.external = gains d.ascending),
        gft.ascending + ds.countP (fun d => gains d.external < gains d.ascending)⟩ ∧
      k' = ⟨k.external + ds.countP (fun d => deals d.ascending < deals d.external),
        k.tie + ds.countP (fun d => deals d.external = deals d.ascending),
        k.ascending + ds.countP (fun d => deals d.external < deals d.ascending)⟩ := by
  induction ns generalizing i gft k with
  | nil =>
    obtain ⟨rfl, rfl⟩ := Prod.mk.inj (Option.some.inj (Except.ok.inj h))
    exact ⟨[], rfl, fun j hj => absurd hj (by simp), by simp, by simp⟩
  | cons n ns ih =>
    unfold ComparingExperiment.sizes at h
    rcases hi : ComparingExperiment.iterations r n ranges fuel (random i) N 0 ⟨0, 0, 0, 0⟩ with e | _ | s
    · simp [hi, bind, Except.bind] at h
    · simp [hi, bind, Except.bind] at h
    simp only [hi, bind, Except.bind] at h
    obtain ⟨ds, hl, h1, h2, h3⟩ := ih _ _ _ h
    obtain ⟨d, hd, hs⟩ := comparing_iterations_inv _ _ _ _ hi
    refine ⟨d :: ds, by simp [hl], fun j hj => ?_, ?_, ?_⟩
    · cases j with
      | zero => simpa using hd
      | succ j =>
        have := h1 j (by simpa using hj)
        rw [show i + 1 + j = i + (j + 1) by omega] at this
        exact this
    · rw [h2, hs]
      simp only [List.countP_cons, Wins.count, zero_add]
      rcases lt_trichotomy (gains d.external) (gains d.ascending) with hlt | heq | hgt
      · simp [hlt, not_lt.2 hlt.le, hlt.ne] <;> omega
      · simp [heq] <;> omega
      · simp [hgt, not_lt.2 hgt.le, hgt.ne'] <;> omega
    · rw [h3, hs]
      simp only [List.countP_cons, Wins.count, zero_add, gt_iff_lt, Nat.cast_lt, Nat.cast_inj]
      rcases lt_trichotomy (deals d.external) (deals d.ascending) with hlt | heq | hgt
      · simp [hlt, not_lt.2 hlt.le, hlt.ne] <;> omega
      · simp [heq] <;> omega
      · simp [hgt, not_lt.2 hgt.le, hgt.ne'] <;> omega

theorem percent_inv {w n : ℕ} {z : ℤ} (h : ComparingExperiment.percent w n = .ok z) : n ≠ 0 ∧ z = ⌊(w : ℚ) * 100 / n⌋ := by
  have hn : n ≠ 0 := by
    rintro rfl
    simp [ComparingExperiment.percent, pyDiv, Except.map] at h
  refine ⟨hn, ?_⟩
  rw [percent_ok hn] at h
  rw [← Except.ok.inj h, pyInt, if_pos (by positivity)]

open ComparingExperiment in
/-- **C69**. The meaning of the columns of `experiment_comparing_sbb.py`, for every list of recipes: when it returns, there is a row for every recipe; it
reports one duel per number of agents `n`, in which both auctions run, in every iteration, on the same market, drawn with `n * recipe[c]` agents
in category `c`. -/
theorem comparing_sbb_columns {recipes : List (List ℕ)} {ranges : List (ℚ × ℚ)} {ns : List ℕ} {N fuel : ℕ}
    {random : ℕ → ℕ → ℕ → ℕ → ℕ → ℚ} {table : List ComparingExperiment.Row}
    (h : ComparingExperiment.experiment recipes ranges ns N fuel random = .ok (some table)) :
    ∃ hl : table.length = recipes.length, ∀ i (hi : i < recipes.length), table[i].recipe = recipes[i] ∧
      ∃ first rest, recipes[i] = first :: rest ∧ ∃ ds : List Duel, ∃ hd : ds.length = ns.length,
        (∀ j (hj : j < ns.length),
          ds[j].On recipes[i] fuel (fun l => randomMarket recipes[i] ns[j] (scaledRanges first rest ranges) (random i j l)) N) ∧
        ReportsDuels table[i] ds := by
  have key : ∀ r i row, recipeRow r ranges ns N fuel (random i) = .ok (some row) → row.recipe = r ∧
      ∃ first rest, r = first :: rest ∧ ∃ ds : List Duel, ∃ hd : ds.length = ns.length,
        (∀ j (hj : j < ns.length), ds[j].On r fuel (fun l => randomMarket r ns[j] (scaledRanges first rest ranges) (random i j l)) N) ∧
        ReportsDuels row ds := by
    intro r i row h
    cases r with
    | nil => simp only [recipeRow] at h; split at h <;> cases h
    | cons f rest =>
      unfold recipeRow at h
      rcases hsz : sizes (f :: rest) (scaledRanges f rest ranges) N fuel (random i) 0 ns (⟨0, 0, 0⟩, ⟨0, 0, 0⟩) with e | _ | ⟨g, k⟩
      · simp [hsz, bind, Except.bind] at h
      · simp [hsz, bind, Except.bind] at h
      simp only [hsz, bind, Except.bind] at h
      rcases hr : ComparingExperiment.mkRow (f :: rest) ns.length g k with e | row'
      · simp [hr] at h
      simp only [hr, Except.ok.injEq, Option.some.injEq] at h
      subst h
      obtain ⟨ds, hl, h1, h2, h3⟩ := comparing_sizes_inv _ _ _ _ _ _ hsz
      unfold ComparingExperiment.mkRow at hr
      simp only [bind_ok_iff] at hr
      obtain ⟨a, ha, b, hb, c, hc, d, hd, e, he, z, hz, hrow⟩ := hr
      have hrow := (Except.ok.inj hrow).symm
      subst hrow
      refine ⟨rfl, f, rest, rfl, ds, hl, fun j hj => by simpa using h1 j hj, ?_⟩
      rw [h2] at ha hb hc
      rw [h3] at hd he hz
      simp only [Nat.zero_add] at ha hb hc hd he hz
      refine ⟨by simp [h2], by simp [h2], by simp [h2], ?_, ?_, ?_, ?_, ?_, ?_⟩ <;> rw [hl]
      · exact (percent_inv ha).2
      · exact (percent_inv hb).2
      · exact (percent_inv hc).2
      · exact (percent_inv hd).2
      · exact (percent_inv he).2
      · exact (percent_inv hz).2
  have gen : ∀ i, ∀ rs : List (List ℕ), ∀ table, rows ranges ns N fuel random i rs = .ok (some table) →
      ∃ hl : table.length = rs.length, ∀ j (hj : j < rs.length), recipeRow rs[j] ranges ns N fuel (random (i + j)) = .ok (some table[j]) := by
    intro i rs
    induction rs generalizing i with
    | nil =>
      intro table h
      have := Option.some.inj (Except.ok.inj h)
      subst this
      exact ⟨rfl, fun j hj => absurd hj (by simp)⟩
    | cons r rs ih =>
      intro table h
      unfold ComparingExperiment.rows at h
      rcases hr : recipeRow r ranges ns N fuel (random i) with e | _ | row
      · simp [hr, bind, Except.bind] at h
      · simp [hr, bind, Except.bind] at h
      rcases hs : rows ranges ns N fuel random (i + 1) rs with e | _ | rest
      · simp [hr, hs, bind, Except.bind] at h
      · simp [hr, hs, bind, Except.bind] at h
      simp only [hr, hs, bind, Except.bind, Except.ok.injEq, Option.some.injEq] at h
      subst h
      obtain ⟨hl, h1⟩ := ih (i + 1) rest hs
      refine ⟨by simp [hl], fun j hj => ?_⟩
      cases j with
      | zero => exact hr
      | succ j =>
        have := h1 j (by simpa using hj)
        rw [show i + 1 + j = i + (j + 1) by omega] at this
        exact this
  obtain ⟨hl, h1⟩ := gen 0 recipes table h
  refine ⟨hl, fun i hi => ?_⟩
  have := h1 i hi
  rw [Nat.zero_add] at this
  exact key _ _ _ this

/-! ## Examples -/

/-- The gains of the two auctions: trade reduction, ascending auction. -/
def sbbGains (m : Market) (r : List ℕ) : Py (ℚ × ℚ) := do
  let external ← tradeReduction m r
  match ← auction m r 100 with
  | none => .error .valueError
  | some ascending => do
    let x ← external.gainFromTrade
    let y ← ascending.gainFromTrade
    .ok (x, y)

/-- C68 needs its hypotheses: with other recipes, or a size that is not a multiple of the count, either auction may gain more. -/
theorem sbb_gains_differ :
    sbbGains ⟨[⟨"a", [10, 9, 6, 1]⟩, ⟨"b", [-4, -8]⟩]⟩ [2, 1] = .ok (13, 38 / 3) ∧
    sbbGains ⟨[⟨"a", [7, 7, 6, 1]⟩, ⟨"b", [-8, -12]⟩]⟩ [2, 1] = .ok (4, 16 / 3) ∧
    sbbGains ⟨[⟨"a", [24, 23]⟩, ⟨"b", [-5, -8, -9]⟩]⟩ [1, 2] = .ok (11, 28 / 3) := by decide +kernel

/-- The hypotheses of C67 and C68 are met: recipe (1,2), four buyers and eight sellers, both auctions make three deals with the same agents. -/
example : (tradeReduction ⟨[⟨"buyer", [20, 17, 14, 3]⟩, ⟨"seller", [-1, -2, -3, -4, -5, -6, -7, -9]⟩]⟩ [1, 2]).map (fun t => t.numOfDeals) = .ok 3 ∧
    auction ⟨[⟨"buyer", [20, 17, 14, 3]⟩, ⟨"seller", [-1, -2, -3, -4, -5, -6, -7, -9]⟩]⟩ [1, 2] 100
      = (tradeReduction ⟨[⟨"buyer", [20, 17, 14, 3]⟩, ⟨"seller", [-1, -2, -3, -4, -5, -6, -7, -9]⟩]⟩ [1, 2]).map some := by decide +kernel

/-- The recipes of `comparing_sbbs.py`. -/
def sbbRecipes : List (List ℕ) :=
  [[1, 2], [1, 3], [1, 4], [1, 8], [1, 16], [2, 2], [2, 3], [1, 1, 1], [2, 2, 2], [1, 2, 3, 4], [1, 2, 3], [1, 2, 2]]

/-- The value ranges of `comparing_sbbs.py`. -/
def sbbRanges : List (ℚ × ℚ) := [(1, 1000), (-1000, 1), (-1000, 1), (-1000, 1), (-1000, 1)]

/-- The numbers of agents of `comparing_sbbs.py`. -/
def sbbNums : List ℕ := [2, 3, 4, 5, 10, 15, 25, 50, 100, 200, 300, 400, 500, 600, 700, 800, 900, 1000, 1500, 2000]

/-- The parameters of `comparing_sbbs.py` are sensible. -/
example : SensibleComparison sbbRecipes sbbRanges sbbNums (fun _ j l c a => 1 / (j + l + c + a + 1)) where
  recipe := by decide
  range := by decide +kernel
  bounded := by decide +kernel
  agents := by decide +kernel
  unit := by
    intro i j l c a
    have : (0 : ℚ) ≤ j + l + c + a := by positivity
    constructor
    · positivity
    · rw [div_le_one (by positivity)]; linarith

end Auctions.Props
