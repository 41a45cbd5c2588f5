import Verif.Props.TradeReduction

set_option autoImplicit false

/-!
# C101 — the option `including_gft_0` of the trade-reduction protocol

`budget_balanced_trade_reduction(market, ps_recipe, including_gft_0)` (trade_reduction_protocol.py 34-262). Line 254 decides whether an
agent found external competition whose gain is exactly 0. The scripts `stock/trade_reduction_demo_difference_gft0*.py` search for a market on
which the two settings differ, in the number of deals and in the gain.
-/

namespace Auctions.Props

open Auctions Spec Ascending TradeReduction

namespace ZeroGain

/-- The run with the option set, compared with the run without it: both are still competing, at the same place; or the first one has
stopped, and the second one has not, or has stopped later. -/
inductive Ahead : Abs → Abs → Prop
  | same (s : ℕ → ℕ) : Ahead (.compete s) (.compete s)
  | first (a b : ℕ → ℕ) (p : List ℚ) (h : ∀ l, b l ≤ a l) : Ahead (.found a b p) (.compete b)
  | both (a a' b : ℕ → ℕ) (p p' : List ℚ) (h : ∀ l, a' l ≤ a l) : Ahead (.found a b p) (.found a' b p')

theorem visit_ahead (cs : List AgentCategory) (r : List ℕ) (pad : ℕ → Bool) (i : ℕ) {A B : Abs} (h : Ahead A B) :
    Ahead (visit cs r pad true A i) (visit cs r pad false B i) := by
  cases h with
  | same s =>
    simp only [visit]
    by_cases hf : Pass false (recipeSum r (bestV cs pad s i))
    · have ht : Pass true (recipeSum r (bestV cs pad s i)) := by
        rcases hf with h1 | h1
        · exact Or.inl h1
        · simp at h1
      rw [if_pos hf, if_pos ht]
      exact .both _ _ _ _ _ fun _ => le_refl _
    · rw [if_neg hf]
      split
      · exact .first _ _ _ fun l => update_le l
      · exact .same _
  | first a b p hb =>
    simp only [visit]
    split
    · exact .both _ _ _ _ _ hb
    · exact .first _ _ _ fun l => le_trans (update_le l) (hb l)
  | both a a' b p p' ha =>
    exact .both _ _ _ _ _ ha

theorem foldl_ahead (cs : List AgentCategory) (r : List ℕ) (pad : ℕ → Bool) (L : List ℕ) {A B : Abs} (h : Ahead A B) :
    Ahead (L.foldl (visit cs r pad true) A) (L.foldl (visit cs r pad false) B) := by
  induction L generalizing A B with
  | nil => exact h
  | cons i L ih => exact ih (visit_ahead cs r pad i h)

theorem runs_ahead (cs : List AgentCategory) (r : List ℕ) (pad : ℕ → Bool) (K : ℕ) {A B : Abs} (h : Ahead A B) :
    Ahead (runs cs r pad true K A) (runs cs r pad false K B) := by
  induction K generalizing A B with
  | zero => exact h
  | succ K ih => exact ih (foldl_ahead cs r pad _ h)

theorem greedy_unique {m : Market} {r : List ℕ} {n : ℕ} {z : Bool} {k k' : ℕ} (h : GreedyStop m r n z k) (h' : GreedyStop m r n z k') :
    k = k' := by
  have key : ∀ {k k' : ℕ}, GreedyStop m r n z k → GreedyStop m r n z k' → ¬ k < k' := by
    intro k k' h h' hlt
    have h1 := h'.taken k hlt
    have := h'.le_max
    rcases h.stop (by omega) with h2 | h2
    · exact h2 h1.1
    · exact h2 h1.2
  have h1 := key h h'
  have h2 := key h' h
  omega

/-- The end of a run: the ranks up to which the agents trade. -/
def ends : Abs → ℕ → ℕ
  | .compete _ => fun _ => 0
  | .found a _ _ => a

theorem conc_traders (cs : List AgentCategory) (pad : ℕ → Bool) {A : Abs} (h : ∀ l, A.cur l = 0) :
    (conc cs pad A).actualTraders = (mkMarket cs (ends A)).categories := by
  cases A with
  | compete s =>
    simp only [conc, ends]
    rw [trCats_empty cs s (fun _ => 0), trCats_mk _ _ _ fun _ => rfl]
  | found a b p =>
    simp only [conc, ends]
    exact trCats_mk _ _ _ h

theorem ahead_ends {A B : Abs} (h : Ahead A B) (l : ℕ) : ends B l ≤ ends A l := by
  cases h with
  | same s => exact le_refl _
  | first a b p hb => exact Nat.zero_le _
  | both a a' b p p' ha => exact ha l

/-- Both runs of a market, in terms of visits. -/
theorem two_runs {m : Market} {r : List ℕ} {t t' : TradeWithSinglePrice} (hpos : ∃ x ∈ r, 0 < x)
    (ht : tradeReduction m r true = .ok t) (ht' : tradeReduction m r false = .ok t') :
    t = t' ∨ ∃ K, (∀ l < m.sorted.length, K * rAt r l ≤ (vAt m.sorted l).length) ∧
      let A := runs m.sorted r (padOf m.sorted r K) true K (.compete (fun l => K * rAt r l))
      let B := runs m.sorted r (padOf m.sorted r K) false K (.compete (fun l => K * rAt r l))
      TradeWithSinglePrice.init (mkMarket m.sorted (ends A)).categories r (conc m.sorted (padOf m.sorted r K) A).latestPrices = .ok t ∧
      TradeWithSinglePrice.init (mkMarket m.sorted (ends B)).categories r (conc m.sorted (padOf m.sorted r K) B).latestPrices = .ok t' := by
  obtain ⟨h, hcat⟩ := tr_ok_inv ht
  have h' : r.length = m.sorted.length := by rw [m.sorted_length]; exact h
  obtain ⟨k, hk, -, hres⟩ := tr_front h hcat hpos true
  obtain ⟨k', hk', -, hres'⟩ := tr_front h hcat hpos false
  obtain rfl := greedy_unique hk hk'
  rcases hres with ⟨hk0, he⟩ | ⟨hk0, K, hkK, hK1, hK2, hall, hwf, he⟩
  · rcases hres' with ⟨-, he'⟩ | ⟨hk0', -⟩
    · left
      rw [ht, Except.ok.injEq] at he
      rw [ht', Except.ok.injEq] at he'
      rw [he, he']
    · omega
  · rcases hres' with ⟨hk0', -⟩ | ⟨-, K', hkK', hK1', hK2', hall', hwf', he'⟩
    · omega
    · have hKK : K = K' := by
        by_cases hav : Avail m.sorted r k
        · rw [hK1 hav, hK1' hav]
        · rw [hK2 hav, hK2' hav]
      subst hKK
      right
      refine ⟨K, fun l hl => (hwf l hl).1, ?_⟩
      have hcur := fun z => (runs_trace h' (pad := padOf m.sorted r K) (z := z) (Q := fun _ => True) (fun _ _ _ _ _ _ _ => trivial) K
        (A := .compete (fun l => K * rAt r l)) trivial (fun l => rfl)).2
      dsimp only
      rw [← conc_traders m.sorted (padOf m.sorted r K) (hcur true), ← conc_traders m.sorted (padOf m.sorted r K) (hcur false)]
      exact ⟨he.symm.trans ht, he'.symm.trans ht'⟩

/-- Whatever happens to the agents visited, the values that a visit looks at are values of agents, or `-MAX_VALUE`. -/
theorem bestV_choice {m : Market} {pad : ℕ → Bool} {s : ℕ → ℕ} {i : ℕ}
    (hs0 : 0 < s i) (hs : s i ≤ (vAt m.sorted i).length) :
    List.Forall₂ (fun (c : AgentCategory) (v : ℚ) => v ∈ c.values ∨ v = -MAX_VALUE) m.categories (bestV m.sorted pad s i) := by
  rw [List.forall₂_iff_get]
  refine ⟨by rw [bestV_length, m.sorted_length]; rfl, fun l h1 h2 => ?_⟩
  have hmem : ∀ v, v ∈ vAt m.sorted l → v ∈ (m.categories.get ⟨l, h1⟩).values := by
    intro v hv
    rw [vAt_sorted, mem_sortDesc, vAt_eq_getElem h1] at hv
    simpa using hv
  have hclock : ∀ n, clock (vAt m.sorted l) n ∈ (m.categories.get ⟨l, h1⟩).values ∨ clock (vAt m.sorted l) n = -MAX_VALUE := by
    intro n
    by_cases hn : n < (vAt m.sorted l).length
    · left; apply hmem; rw [clock_of_lt hn]; exact List.getElem_mem hn
    · right; exact clock_of_ge (by omega)
  simp only [List.get_eq_getElem, bestV, List.getElem_map, List.getElem_range]
  split
  · rename_i hli
    subst hli
    left
    apply hmem
    have hlt : s l - 1 < (vAt m.sorted l).length := by omega
    simp only [List.getD_eq_getElem?_getD, List.getElem?_eq_getElem hlt, Option.getD_some]
    exact List.getElem_mem hlt
  · unfold clk
    split
    · rcases max_choice (clock (vAt m.sorted l) (s l)) (-MAX_VALUE) with h3 | h3
      · rw [h3]; exact hclock _
      · rw [h3]; exact Or.inr rfl
    · exact hclock _

theorem foldl_same {m : Market} {r : List ℕ} {pad : ℕ → Bool} (L : List ℕ)
    (hne : ∀ ch : List ℚ, List.Forall₂ (fun (c : AgentCategory) (v : ℚ) => v ∈ c.values ∨ v = -MAX_VALUE) m.categories ch →
      recipeSum r ch ≠ 0) {A : Abs} (hA : ∀ l, L.count l ≤ A.cur l)
    (hlen : ∀ s, A = .compete s → ∀ l ∈ L, s l ≤ (vAt m.sorted l).length) :
    L.foldl (visit m.sorted r pad true) A = L.foldl (visit m.sorted r pad false) A := by
  induction L generalizing A with
  | nil => rfl
  | cons i L ih =>
    have hv : visit m.sorted r pad true A i = visit m.sorted r pad false A i := by
      cases A with
      | found a b p => rfl
      | compete s =>
        have h0 : 0 < s i := by have := hA i; rw [List.count_cons_self] at this; simp only [Abs.cur] at this; omega
        have hx := hne _ (bestV_choice (pad := pad) h0 (hlen s rfl i (by simp)))
        have : ∀ z, Pass z (recipeSum r (bestV m.sorted pad s i)) ↔ 0 < recipeSum r (bestV m.sorted pad s i) := by
          intro z
          unfold Pass
          constructor
          · rintro (h1 | ⟨-, h1⟩)
            · exact h1
            · exact absurd h1 hx
          · exact Or.inl
        simp only [visit, this]
    rw [List.foldl_cons, List.foldl_cons, hv]
    refine ih ?_ ?_
    · intro l
      rw [visit_cur]
      have := hA l
      by_cases hl : l = i
      · subst hl
        rw [List.count_cons_self] at this
        rw [Function.update_self]; omega
      · rw [Function.update_of_ne hl]
        rw [List.count_cons_of_ne (Ne.symm hl)] at this
        exact this
    · intro s' hs' l hl
      cases A with
      | found a b p => simp [visit] at hs'
      | compete s =>
        simp only [visit] at hs'
        split at hs'
        · simp at hs'
        · simp only [Abs.compete.injEq] at hs'
          subst hs'
          exact le_trans (update_le l) (hlen s rfl l (by simp [hl]))

theorem runs_same {m : Market} {r : List ℕ} {pad : ℕ → Bool} (h : r.length = m.sorted.length)
    (hne : ∀ ch : List ℚ, List.Forall₂ (fun (c : AgentCategory) (v : ℚ) => v ∈ c.values ∨ v = -MAX_VALUE) m.categories ch →
      recipeSum r ch ≠ 0) (K : ℕ) {A : Abs} (hcur : ∀ l, A.cur l = K * rAt r l)
    (hlen : ∀ s, A = .compete s → ∀ l < m.sorted.length, s l ≤ (vAt m.sorted l).length) :
    runs m.sorted r pad true K A = runs m.sorted r pad false K A := by
  induction K generalizing A with
  | zero => rfl
  | succ K ih =>
    simp only [runs]
    have hcount : ∀ l, (pivotIndexToCategoryIndex 0 r).count l = rAt r l := by
      intro l
      have := count_toCategory r 0 l
      rwa [Nat.zero_add] at this
    rw [foldl_same (pivotIndexToCategoryIndex 0 r) hne]
    · refine ih ?_ ?_
      · intro l
        rw [foldl_cur, hcur l, hcount l, Nat.add_mul]; omega
      · intro s hs l hl
        have h1 := foldl_cur m.sorted r pad false (pivotIndexToCategoryIndex 0 r) A l
        rw [hs] at h1
        simp only [Abs.cur] at h1
        cases A with
        | found a b p =>
          exfalso
          have : ∀ (L : List ℕ) (b : ℕ → ℕ), ∃ b', L.foldl (visit m.sorted r pad false) (.found a b p) = .found a b' p := by
            intro L
            induction L with
            | nil => intro b; exact ⟨b, rfl⟩
            | cons i L ihL => intro b; exact ihL _
          obtain ⟨b', hb'⟩ := this (pivotIndexToCategoryIndex 0 r) b
          rw [hb'] at hs
          cases hs
        | compete s₀ =>
          have := hlen s₀ rfl l hl
          have h2 : s l = s₀ l - (pivotIndexToCategoryIndex 0 r).count l := h1
          omega
    · intro l
      rw [hcount l, hcur l, Nat.add_mul]; omega
    · intro s hs l hl
      obtain ⟨i, h1, h2⟩ := mem_toCategory r 0 l hl
      rw [Nat.zero_add] at h1
      subst h1
      exact hlen s hs l (by have := rAt_pos_lt h2; omega)

end ZeroGain

open ZeroGain

/-- **C101**. With `including_gft_0`, everyone who trades without it still trades, and there are at least as many deals: in each category,
the traders without the option are the first of the traders with it. -/
theorem gft0_more_deals {m : Market} {r : List ℕ} {t t' : TradeWithSinglePrice} (hpos : ∃ x ∈ r, 0 < x)
    (ht : tradeReduction m r true = .ok t) (ht' : tradeReduction m r false = .ok t') :
    t'.numOfDeals ≤ t.numOfDeals ∧
      List.Forall₂ (fun (c' c : AgentCategory) => c'.name = c.name ∧ c'.values <+: c.values) t'.categories t.categories := by
  have h' : r.length = m.sorted.length := by rw [m.sorted_length]; exact (tr_ok_inv ht).1
  rcases two_runs hpos ht ht' with rfl | ⟨K, -, hA, hB⟩
  · refine ⟨le_refl _, ?_⟩
    rw [List.forall₂_same]
    exact fun c _ => ⟨rfl, List.prefix_refl _⟩
  · have hahead := ahead_ends (runs_ahead m.sorted r (padOf m.sorted r K) K (.same (fun l => K * rAt r l)))
    generalize runs m.sorted r (padOf m.sorted r K) true K _ = A at *
    generalize runs m.sorted r (padOf m.sorted r K) false K _ = B at *
    obtain ⟨x, hx, hx0⟩ := hpos
    obtain ⟨i₀, hi₀, rfl⟩ := List.getElem_of_mem hx
    rw [← rAt_eq_getElem hi₀] at hx0
    rcases trade_init_spec (mkMarket m.sorted (ends A)).categories r (conc m.sorted (padOf m.sorted r K) A).latestPrices with
      ⟨h1, -⟩ | ⟨-, d, h1, -, h3⟩
    · have := h1 i₀ (by rw [mkMarket_length]; omega)
      omega
    rcases trade_init_spec (mkMarket m.sorted (ends B)).categories r (conc m.sorted (padOf m.sorted r K) B).latestPrices with
      ⟨h1', -⟩ | ⟨-, d', h1', h2', -⟩
    · have := h1' i₀ (by rw [mkMarket_length]; omega)
      omega
    rw [h1, Except.ok.injEq] at hA
    rw [h1', Except.ok.injEq] at hB
    subst hA hB
    refine ⟨h3 d' fun i hi => ?_, ?_⟩
    · have := h2' i (by rw [mkMarket_length] at hi ⊢; exact hi)
      rw [vAt_mkMarket, List.length_take] at this ⊢
      have := hahead i
      omega
    · rw [List.forall₂_iff_get]
      refine ⟨by simp [mkMarket_length], fun l h4 h5 => ?_⟩
      simp only [List.get_eq_getElem, mkMarket, List.getElem_mapIdx, true_and]
      rw [List.prefix_take_iff]
      refine ⟨List.take_prefix _ _, ?_⟩
      rw [List.length_take]
      have := hahead l
      omega

/-- **C101**. The option changes nothing in a market in which no procurement-set – one value for each category, that of one of its agents or
`-MAX_VALUE`, weighted by the recipe – has gain exactly 0. -/
theorem gft0_same {m : Market} {r : List ℕ} (hpos : ∃ x ∈ r, 0 < x)
    (hne : ∀ ch : List ℚ, List.Forall₂ (fun (c : AgentCategory) (v : ℚ) => v ∈ c.values ∨ v = -MAX_VALUE) m.categories ch →
      recipeSum r ch ≠ 0) :
    tradeReduction m r true = tradeReduction m r false := by
  by_cases h : r.length = m.numCategories
  swap
  · unfold tradeReduction; simp [h]
  by_cases hcat : m.categories = []
  · unfold tradeReduction Market.optimalTrade Market.clone Market.init
    simp [h, hcat, bind, Except.bind]
  have h' : r.length = m.sorted.length := by rw [m.sorted_length]; exact h
  obtain ⟨k, hk, -, hres⟩ := tr_front h hcat hpos true
  obtain ⟨k', hk', -, hres'⟩ := tr_front h hcat hpos false
  obtain rfl := greedy_unique hk hk'
  rcases hres with ⟨hk0, he⟩ | ⟨hk0, K, hkK, hK1, hK2, hall, hwf, he⟩
  · rcases hres' with ⟨-, he'⟩ | ⟨hk0', -⟩
    · rw [he, he']
    · omega
  · rcases hres' with ⟨hk0', -⟩ | ⟨-, K', hkK', hK1', hK2', hall', hwf', he'⟩
    · omega
    · have hKK : K = K' := by
        by_cases hav : Avail m.sorted r k
        · rw [hK1 hav, hK1' hav]
        · rw [hK2 hav, hK2' hav]
      subst hKK
      rw [he, he', runs_same h' hne K (fun l => rfl)]
      intro s hs l hl
      simp only [Abs.compete.injEq] at hs
      subst hs
      exact (hwf l hl).1

/-- **C101**. The gain from trade can be smaller or larger with the option: on the first market it makes one deal more and gains 13/2 instead
of 7; on the second it makes one deal more and gains 17 instead of 10 (a market such as the gft0 scripts search for: buyers between 2 and 20,
sellers between -10 and -1, recipe 1,2); on the third, the number of deals is the same, and it gains 4 instead of 5. -/
theorem gft0_gain_either_way :
    (∃ t t', tradeReduction ⟨[⟨"buyer", [7, 6, 4, 4]⟩, ⟨"seller", [-3, -3, -4, -4]⟩]⟩ [1, 1] true = .ok t ∧
      tradeReduction ⟨[⟨"buyer", [7, 6, 4, 4]⟩, ⟨"seller", [-3, -3, -4, -4]⟩]⟩ [1, 1] false = .ok t' ∧
      t.numOfDeals = 3 ∧ t'.numOfDeals = 2 ∧ t.gainFromTrade = .ok (13 / 2) ∧ t'.gainFromTrade = .ok 7) ∧
    (∃ t t', tradeReduction ⟨[⟨"buyer", [19, 16, 4]⟩, ⟨"seller", [-1, -4, -6, -7, -8, -9]⟩]⟩ [1, 2] true = .ok t ∧
      tradeReduction ⟨[⟨"buyer", [19, 16, 4]⟩, ⟨"seller", [-1, -4, -6, -7, -8, -9]⟩]⟩ [1, 2] false = .ok t' ∧
      t.numOfDeals = 2 ∧ t'.numOfDeals = 1 ∧ t.gainFromTrade = .ok 17 ∧ t'.gainFromTrade = .ok 10) ∧
    (∃ t t', tradeReduction ⟨[⟨"buyer", [8, 5, 4, 3]⟩, ⟨"seller", [-3, -5, -8, -9]⟩]⟩ [1, 1] true = .ok t ∧
      tradeReduction ⟨[⟨"buyer", [8, 5, 4, 3]⟩, ⟨"seller", [-3, -5, -8, -9]⟩]⟩ [1, 1] false = .ok t' ∧
      t.numOfDeals = 1 ∧ t'.numOfDeals = 1 ∧ t.gainFromTrade = .ok 4 ∧ t'.gainFromTrade = .ok 5) := by
  refine ⟨⟨⟨[⟨"buyer", [7, 6, 4]⟩, ⟨"seller", [-3, -3, -4, -4]⟩], [1, 1], some [4, -4], 3⟩,
      ⟨[⟨"buyer", [7, 6]⟩, ⟨"seller", [-3, -3]⟩], [1, 1], some [4, -4], 2⟩, ?_⟩,
    ⟨⟨[⟨"buyer", [19, 16]⟩, ⟨"seller", [-1, -4, -6, -7]⟩], [1, 2], some [16, -8], 2⟩,
      ⟨[⟨"buyer", [19]⟩, ⟨"seller", [-1, -4, -6, -7]⟩], [1, 2], some [16, -8], 1⟩, ?_⟩,
    ⟨⟨[⟨"buyer", [8]⟩, ⟨"seller", [-3, -5]⟩], [1, 1], some [5, -5], 1⟩,
      ⟨[⟨"buyer", [8]⟩, ⟨"seller", [-3]⟩], [1, 1], some [5, -5], 1⟩, ?_⟩⟩
  all_goals refine ⟨by decide +kernel, by decide +kernel, by decide +kernel, by decide +kernel, by decide +kernel, by decide +kernel⟩

/-- A market without procurement-sets of gain 0: the hypothesis of `gft0_same` holds, and deals are made. -/
example :
    let m : Market := ⟨[⟨"buyer", [17, 14]⟩, ⟨"seller", [-1, -3, -4, -6]⟩]⟩
    (∀ ch : List ℚ, List.Forall₂ (fun (c : AgentCategory) (v : ℚ) => v ∈ c.values ∨ v = -MAX_VALUE) m.categories ch →
      recipeSum [1, 2] ch ≠ 0) ∧ ∃ t, tradeReduction m [1, 2] = .ok t ∧ t.numOfDeals = 1 := by
  refine ⟨?_, ⟨[⟨"buyer", [17]⟩, ⟨"seller", [-1, -3, -4, -6]⟩], [1, 2], some [14, -7], 1⟩, by decide +kernel, by decide +kernel⟩
  intro ch hch
  simp only [List.forall₂_cons_left_iff, List.forall₂_nil_left_iff] at hch
  obtain ⟨a, _, ha, ⟨b, _, hb, rfl, rfl⟩, rfl⟩ := hch
  simp only [List.mem_cons, List.not_mem_nil, or_false] at ha hb
  rcases ha with (rfl | rfl) | rfl <;> rcases hb with (rfl | rfl | rfl | rfl) | rfl <;> decide +kernel

namespace ZeroGain

/-- `n + 1` buyers who value the item 10, one seller who values it 5, and `n` sellers who value it 10. -/
def flat (n : ℕ) : Market := ⟨[⟨"buyer", List.replicate (n + 1) 10⟩, ⟨"seller", -5 :: List.replicate n (-10)⟩]⟩

theorem flat_sorted (n : ℕ) : (flat n).sorted = (flat n).categories := by
  have h1 : sortDesc (List.replicate (n + 1) (10 : ℚ)) = List.replicate (n + 1) 10 :=
    sortDesc_of_sorted (List.pairwise_replicate.2 (Or.inr (le_refl _)))
  have h2 : sortDesc (-5 :: List.replicate n (-10 : ℚ)) = -5 :: List.replicate n (-10) := by
    refine sortDesc_of_sorted (List.pairwise_cons.2 ⟨fun x hx => ?_, List.pairwise_replicate.2 (Or.inr (le_refl _))⟩)
    rw [List.eq_of_mem_replicate hx]; norm_num
  simp only [Market.sorted, flat, List.map_cons, List.map_nil, AgentCategory.clone, AgentCategory.init, h1, h2]

theorem flat_buyers (n : ℕ) : vAt (flat n).sorted 0 = List.replicate (n + 1) 10 := by rw [flat_sorted]; rfl

theorem flat_sellers (n : ℕ) : vAt (flat n).sorted 1 = -5 :: List.replicate n (-10) := by rw [flat_sorted]; rfl

theorem flat_length (n : ℕ) : (flat n).sorted.length = 2 := by rw [flat_sorted]; rfl

theorem flat_avail (n j : ℕ) : Avail (flat n).sorted [1, 1] j ↔ j ≤ n := by
  unfold Avail
  rw [flat_length]
  constructor
  · intro h
    have := h 0 (by omega)
    rw [flat_buyers] at this
    simp [rAt] at this
    omega
  · intro h i hi
    rcases (show i = 0 ∨ i = 1 by omega) with rfl | rfl
    · rw [flat_buyers]; simp [rAt]; omega
    · rw [flat_sellers]; simp [rAt]; omega

theorem flat_blk (n j : ℕ) (hj : j ≤ n) : (blk (flat n).sorted [1, 1] j).sum = if j = 0 then 5 else 0 := by
  rw [blk_sum (by rw [flat_length]; rfl), flat_length, Finset.sum_range_succ, Finset.sum_range_one, flat_buyers, flat_sellers]
  cases j with
  | zero => simp [rAt, seg]; norm_num
  | succ j =>
    have h1 : 1 ≤ n - j := by omega
    have h2 : n - j ≠ 0 := by omega
    simp [rAt, seg, h1, h2]

theorem flat_values (n : ℕ) : ∀ c ∈ (flat n).categories, ∀ v ∈ c.values, -MAX_VALUE ≤ v := by
  intro c hc v hv
  simp only [flat, List.mem_cons, List.not_mem_nil, or_false] at hc
  rcases hc with rfl | rfl
  · rw [List.eq_of_mem_replicate hv]; norm_num [MAX_VALUE]
  · rcases List.mem_cons.1 hv with rfl | hv
    · norm_num [MAX_VALUE]
    · rw [List.eq_of_mem_replicate hv]; norm_num [MAX_VALUE]

theorem clock_le_of_all {V : List ℚ} {x : ℚ} (h : ∀ v ∈ V, v ≤ x) (hx : -MAX_VALUE ≤ x) (s : ℕ) : clock V s ≤ x := by
  by_cases hs : s < V.length
  · rw [clock_of_lt hs]; exact h _ (List.getElem_mem hs)
  · rw [clock_of_ge (by omega)]; exact hx

theorem flat_clock0 (n s : ℕ) : clock (vAt (flat n).sorted 0) s ≤ 10 := by
  rw [flat_buyers]
  exact clock_le_of_all (fun v hv => (List.eq_of_mem_replicate hv).le) (by norm_num [MAX_VALUE]) s

theorem flat_clock1 (n s : ℕ) (hs : 0 < s) : clock (vAt (flat n).sorted 1) s ≤ -10 := by
  rw [flat_sellers]
  cases s with
  | zero => omega
  | succ s =>
    have : clock ((-5 : ℚ) :: List.replicate n (-10)) (s + 1) = clock (List.replicate n (-10)) s := by simp [clock]
    rw [this]
    exact clock_le_of_all (fun v hv => (List.eq_of_mem_replicate hv).le) (by norm_num [MAX_VALUE]) s

end ZeroGain

/-- **C101**. Without the option, arbitrarily many deals can be lost: for every `n` below a million there is a market with an optimal trade of
`n + 1` deals – of positive total gain – in which trade reduction makes at least `n` deals with the option and none without it. -/
theorem gft0_unbounded_loss (n : ℕ) (hn : n < 1000000) :
    ∃ (m : Market) (opt : TradeWithMaterialBalance) (rem : Market) (t t' : TradeWithSinglePrice),
      m.optimalTrade [1, 1] = .ok (opt, rem) ∧ opt.numOfDeals = n + 1 ∧ opt.gainFromTrade = 5 ∧
      tradeReduction m [1, 1] true = .ok t ∧ n ≤ t.numOfDeals ∧
      tradeReduction m [1, 1] false = .ok t' ∧ t'.numOfDeals = 0 := by
  have h : ([1, 1] : List ℕ).length = (flat n).numCategories := rfl
  have hcat : (flat n).categories ≠ [] := by simp [flat]
  have hpos : ∃ x ∈ ([1, 1] : List ℕ), 0 < x := ⟨1, by simp, by omega⟩
  have h' : ([1, 1] : List ℕ).length = (flat n).sorted.length := by rw [flat_length]; rfl
  have hN : (flat n).numAgents ≤ 2000000 := by
    unfold Market.numAgents Market.valueLists
    simp [flat]
    omega
  have hok : ∀ z, ∃ t, tradeReduction (flat n) [1, 1] z = .ok t := by
    intro z
    obtain ⟨k, -, -, hres⟩ := tr_eq h hcat hpos z (Q := fun _ _ => True) (fun _ => trivial) (fun _ _ _ _ _ _ _ _ => trivial)
    rcases hres with ⟨-, he⟩ | ⟨-, K, -, -, -, ⟨-, he⟩ | ⟨a, b, d, -, ⟨p, -, he⟩, -, -⟩⟩ <;> exact ⟨_, he⟩
  obtain ⟨t, ht⟩ := hok true
  obtain ⟨t', ht'⟩ := hok false
  obtain ⟨k, hk, hopt⟩ := optimalTrade_eq h hcat 2000000 true
  have hkn : k = n + 1 := by
    have h1 : ¬ n + 1 < k := by
      intro hlt
      have := (flat_avail n (n + 1)).1 (hk.taken _ hlt).1
      omega
    have h2 : ¬ k < n + 1 := by
      intro hlt
      rcases hk.stop (by omega) with h2 | h2
      · exact h2 ((flat_avail n k).2 (by omega))
      · apply h2
        rw [flat_blk n k (by omega)]
        unfold Good
        split <;> norm_num
    omega
  have hnum : TradeWithMaterialBalance.numOfDeals ⟨((List.range k).map (blk (flat n).sorted [1, 1])).reverse⟩ = n + 1 := by
    simp [TradeWithMaterialBalance.numOfDeals, hkn]
  refine ⟨flat n, _, _, t, t', hopt, hnum, ?_, ht, ?_, ht', ?_⟩
  · rw [gain_blks, hkn, Finset.sum_congr rfl fun j hj => flat_blk n j (by have := Finset.mem_range.1 hj; omega)]
    simp
  · have := (trade_reduction_loses_at_most_one_deal hpos (flat_values n) hN ht hopt hopt).2
    rw [hnum] at this
    omega
  · obtain ⟨k', -, -, ⟨q, rfl, -⟩ | ⟨a, p, d, rfl, hT, -⟩⟩ := tr_outcome hpos (flat_values n) ht'
    · rfl
    · simp only [TradeWithSinglePrice.numOfDeals]
      by_contra hd
      have ha0 := hT.dle 0 (by rw [flat_length]; omega)
      have ha1 := hT.dle 1 (by rw [flat_length]; omega)
      simp only [rAt, List.getD_cons_zero, List.getD_cons_succ, mul_one] at ha0 ha1
      obtain ⟨i, hi, -, hai, hpass, -, j, L, hsuf, hjL⟩ := hT.pivot
      rw [flat_length] at hi
      have hp : 0 < clockSum (flat n).sorted [1, 1] (Function.update a i (a i - 1)) := by
        rcases hpass with h1 | ⟨h1, -⟩
        · exact h1
        · simp at h1
      rw [clockSum_eq h', flat_length, Finset.sum_range_succ, Finset.sum_range_one] at hp
      simp only [rAt, List.getD_cons_zero, List.getD_cons_succ, Nat.cast_one, one_mul] at hp
      rcases (show i = 0 ∨ i = 1 by omega) with rfl | rfl
      · have h1 := flat_clock0 n (a 0 - 1)
        have h2 := flat_clock1 n (a 1) (by omega)
        rw [Function.update_self, Function.update_of_ne (by omega)] at hp
        linarith
      · rw [Function.update_self, Function.update_of_ne (by omega)] at hp
        have h1 := flat_clock0 n (a 0)
        have hL : L = [] := by
          obtain ⟨pre, hpre⟩ := hsuf
          have : pre ++ 1 :: L = [0, 1] := hpre
          rcases pre with _ | ⟨x, _ | ⟨y, pre⟩⟩
          · simp at this
          · exact (by simpa using this : _ ∧ _).2
          · simp at this
        subst hL
        have e0 := hjL 0
        have e1 := hjL 1
        simp [rAt] at e0 e1
        have h2 := flat_clock1 n (a 1 - 1) (by omega)
        linarith

end Auctions.Props
