import Verif.Proofs.TradeReduction
import Verif.Props.AscendingGain
import Verif.Props.McAfee

set_option autoImplicit false

/-!
# C26–C29, C45 — the trade-reduction protocol
-/

namespace Auctions.Props

open Auctions Spec Ascending TradeReduction

/-! ## Facts about outcomes with a single price per category -/

/-- Lower bound on the gain of a trade whose prices are balanced and separate the traders from the others. -/
theorem separated_gain_lower {m : Market} {r : List ℕ} (h' : r.length = m.sorted.length) {s : ℕ → ℕ} {p : List ℚ} {d k : ℕ}
    (hpl : p.length = m.sorted.length) (hbal : recipeSum r p = 0) (hlen : ∀ i, s i ≤ (vAt m.sorted i).length) (hd0 : 0 < d)
    (hle : ∀ i < m.sorted.length, d * rAt r i ≤ s i) (hsz : ∀ i < m.sorted.length, 0 < rAt r i → s i ≤ (d + 1) * rAt r i)
    (hin : ∀ i < m.sorted.length, 0 < rAt r i → ∀ v ∈ (vAt m.sorted i).take (s i), p.getD i 0 ≤ v)
    (hout : ∀ i < m.sorted.length, 0 < rAt r i → ∀ v ∈ (vAt m.sorted i).drop (s i), v ≤ p.getD i 0)
    (hk : ∀ t < k, Avail m.sorted r t) {g : ℚ}
    (hg : TradeWithSinglePrice.gainFromTrade ⟨(mkMarket m.sorted s).categories, r, some p, d⟩ = .ok g) :
    (d : ℚ) / (d + 1) * ∑ j ∈ Finset.range k, (blk m.sorted r j).sum ≤ g := by
  have hgain := outcome_gain h' hpl hlen hd0 hg
  simp only [if_true, sub_zero] at hgain
  have hblk : ∀ n, ∑ j ∈ Finset.range n, (blk m.sorted r j).sum
      = ∑ i ∈ Finset.range m.sorted.length, ((vAt m.sorted i).take (n * rAt r i)).sum := by
    intro n
    simp_rw [blk_sum h']
    rw [Finset.sum_comm]
    refine Finset.sum_congr rfl fun i _ => seg_sums _ _ _
  set A : ℕ → ℚ := fun i => if rAt r i = 0 then 0 else ((vAt m.sorted i).take (s i)).sum - s i * p.getD i 0 with hA
  have hdq : (0 : ℚ) < d := by exact_mod_cast hd0
  have hlow : ∀ i ∈ Finset.range m.sorted.length,
      d * (rAt r i * p.getD i 0) + d / (d + 1) * A i
        ≤ ((vAt m.sorted i).take (s i)).sum * ((rAt r i * d : ℕ) / (s i : ℚ)) := by
    intro i hi
    have hi' := Finset.mem_range.1 hi
    rcases Nat.eq_zero_or_pos (rAt r i) with h0 | h0
    · simp [hA, h0]
    · have hAi : A i = ((vAt m.sorted i).take (s i)).sum - s i * p.getD i 0 := by simp [hA, h0.ne']
      have hA0 : 0 ≤ A i := by
        have := List.card_nsmul_le_sum _ _ (hin i hi' h0)
        rw [List.length_take, min_eq_left (hlen i), nsmul_eq_mul] at this
        rw [hAi]; linarith
      have hspos : (0 : ℚ) < s i := by
        have := Nat.mul_pos hd0 h0
        have := hle i hi'
        exact_mod_cast (by omega : 0 < s i)
      have hsle : (s i : ℚ) ≤ (d + 1) * rAt r i := by exact_mod_cast hsz i hi' h0
      have e1 : ((vAt m.sorted i).take (s i)).sum = A i + s i * p.getD i 0 := by rw [hAi]; ring
      rw [e1]
      have e2 : (A i + s i * p.getD i 0) * ((rAt r i * d : ℕ) / (s i : ℚ))
          = d * (rAt r i * p.getD i 0) + A i * (rAt r i * d / s i) := by
        push_cast
        field_simp
        ring
      rw [e2]
      have e3 : (d : ℚ) / (d + 1) ≤ rAt r i * d / s i := by
        rw [div_le_div_iff₀ (by linarith) hspos]
        have := mul_le_mul_of_nonneg_left hsle hdq.le
        linarith
      have := mul_le_mul_of_nonneg_left e3 hA0
      linarith
  have hup : ∀ i ∈ Finset.range m.sorted.length,
      ((vAt m.sorted i).take (k * rAt r i)).sum ≤ k * (rAt r i * p.getD i 0) + A i := by
    intro i hi
    have hi' := Finset.mem_range.1 hi
    rcases Nat.eq_zero_or_pos (rAt r i) with h0 | h0
    · simp [hA, h0]
    · have hAi : A i = ((vAt m.sorted i).take (s i)).sum - s i * p.getD i 0 := by simp [hA, h0.ne']
      have hkl : k * rAt r i ≤ (vAt m.sorted i).length := by
        rcases Nat.eq_zero_or_pos k with hk0 | hk0
        · simp [hk0]
        · have := hk (k - 1) (by omega) i hi'
          rwa [show k - 1 + 1 = k by omega] at this
      have := prefix_shift (hlen i) (hin i hi' h0) (hout i hi' h0) hkl
      rw [hAi]
      push_cast at this
      linarith
  have hs1 := Finset.sum_le_sum hlow
  have hs2 := Finset.sum_le_sum hup
  rw [← hgain, Finset.sum_add_distrib, ← Finset.mul_sum, ← Finset.mul_sum, ← recipeSum_eq_sum h' hpl, hbal] at hs1
  rw [Finset.sum_add_distrib, ← Finset.mul_sum, ← recipeSum_eq_sum h' hpl, hbal, ← hblk] at hs2
  have hd1 : (0 : ℚ) ≤ (d : ℚ) / (d + 1) := div_nonneg hdq.le (by linarith)
  have := mul_le_mul_of_nonneg_left hs2 hd1
  linarith

/-- Upper bound on the gain of a trade: it is at most the gain of the first `d` procurement-sets. -/
theorem lottery_gain_upper {m : Market} {r : List ℕ} (h' : r.length = m.sorted.length) {s : ℕ → ℕ} {p : List ℚ} {d : ℕ}
    (hpl : p.length = m.sorted.length) (hlen : ∀ i, s i ≤ (vAt m.sorted i).length) (hd0 : 0 < d)
    (hle : ∀ i < m.sorted.length, d * rAt r i ≤ s i) {g : ℚ}
    (hg : TradeWithSinglePrice.gainFromTrade ⟨(mkMarket m.sorted s).categories, r, some p, d⟩ = .ok g) :
    g ≤ ∑ j ∈ Finset.range d, (blk m.sorted r j).sum := by
  have hgain := outcome_gain h' hpl hlen hd0 hg
  simp only [if_true, sub_zero] at hgain
  rw [hgain]
  simp_rw [blk_sum h']
  rw [Finset.sum_comm]
  refine Finset.sum_le_sum fun i hi => ?_
  rw [seg_sums]
  have hi' := Finset.mem_range.1 hi
  have hdi := hle i hi'
  rcases Nat.eq_zero_or_pos (rAt r i) with h0 | h0
  · simp [h0]
  · have hspos : (0 : ℚ) < s i := by
      have := Nat.mul_pos hd0 h0
      exact_mod_cast (by omega : 0 < s i)
    have hav := avg_prefix ((sorted_vAt m i).take (s i)) (n := d * rAt r i)
      (by rw [List.length_take, min_eq_left (hlen i)]; exact hdi)
    rw [List.length_take, min_eq_left (hlen i), List.take_take, min_eq_left hdi] at hav
    rw [mul_div_assoc', div_le_iff₀ hspos]
    rw [mul_comm (rAt r i) d]
    linarith

/-! ## The outcome of trade reduction -/

theorem tr_ok_inv {m : Market} {r : List ℕ} {z : Bool} {t : TradeWithSinglePrice} (ht : tradeReduction m r z = .ok t) :
    r.length = m.numCategories ∧ m.categories ≠ [] := by
  unfold tradeReduction at ht
  split at ht
  · simp at ht
  · rename_i h
    push Not at h
    refine ⟨h, fun hc => ?_⟩
    have : m.optimalTrade r = .error .valueError := by
      unfold Market.optimalTrade Market.clone Market.init
      simp [h, hc, bind, Except.bind]
    rw [this] at ht
    simp [bind, Except.bind] at ht

theorem pricesV_length (cs : List AgentCategory) (r : List ℕ) (pad : ℕ → Bool) (s : ℕ → ℕ) (i : ℕ) :
    (pricesV cs r pad s i).length = cs.length := by simp [pricesV, bestV_length]

theorem pricesV_balanced {cs : List AgentCategory} {r : List ℕ} (h : r.length = cs.length) {pad : ℕ → Bool} {s : ℕ → ℕ} {i : ℕ}
    (hi : i < cs.length) (hr : 0 < rAt r i) : recipeSum r (pricesV cs r pad s i) = 0 := by
  have hri : r[i]? = some (rAt r i) := by rw [rAt_eq_getElem (by omega)]; exact List.getElem?_eq_getElem _
  have hb : (bestV cs pad s i)[i]? = some ((vAt cs i).getD (s i - 1) 0) := by
    simp [bestV, hi]
  unfold pricesV
  rw [recipeSum_set hri hb]
  have hr0 : (rAt r i : ℚ) ≠ 0 := by exact_mod_cast hr.ne'
  field_simp
  ring

theorem pricesV_other {cs : List AgentCategory} {r : List ℕ} {pad : ℕ → Bool} {s : ℕ → ℕ} {i l : ℕ} (hl : l < cs.length) (hne : l ≠ i) :
    (pricesV cs r pad s i).getD l 0 = clk cs pad l (s l) := by
  simp [pricesV, bestV, hl, hne, Ne.symm hne]

theorem pricesV_pivot {cs : List AgentCategory} {r : List ℕ} {pad : ℕ → Bool} {s : ℕ → ℕ} {i : ℕ} (hi : i < cs.length) :
    (pricesV cs r pad s i).getD i 0 = ((vAt cs i).getD (s i - 1) 0 * rAt r i - recipeSum r (bestV cs pad s i)) / rAt r i := by
  simp [pricesV, bestV_length, hi]

/-- **C26**. Strong budget balance: if trade reduction makes a deal, the total of the prices weighted by the recipe is exactly 0. -/
theorem trade_reduction_budget_balanced {m : Market} {r : List ℕ} {z : Bool} {t : TradeWithSinglePrice} (hpos : ∃ x ∈ r, 0 < x)
    (ht : tradeReduction m r z = .ok t) (hd : 0 < t.numOfDeals) :
    ∃ p, t.prices = some p ∧ p.length = m.numCategories ∧ recipeSum r p = 0 := by
  obtain ⟨h, hcat⟩ := tr_ok_inv ht
  have h' : r.length = m.sorted.length := by rw [m.sorted_length]; exact h
  obtain ⟨k, -, -, hres⟩ := tr_eq h hcat hpos z (Q := fun _ _ => True) (fun _ => trivial) (fun _ _ _ _ _ _ _ _ => trivial)
  rcases hres with ⟨-, he⟩ | ⟨-, K, -, -, -, ⟨-, he⟩ | ⟨a, b, d, -, ⟨p, ⟨-, i, hi, hri, -, -, rfl, -⟩, he⟩, -, -⟩⟩
  · rw [he] at ht; simp only [Except.ok.injEq] at ht; subst ht; simp [TradeWithSinglePrice.numOfDeals] at hd
  · rw [he] at ht; simp only [Except.ok.injEq] at ht; subst ht; simp [TradeWithSinglePrice.numOfDeals] at hd
  · rw [he] at ht; simp only [Except.ok.injEq] at ht; subst ht
    exact ⟨_, rfl, by rw [pricesV_length, m.sorted_length], pricesV_balanced h' hi hri⟩

/-- What is known about an outcome with prices. -/
structure TRTrade (m : Market) (r : List ℕ) (z : Bool) (k : ℕ) (a : ℕ → ℕ) (p : List ℚ) (d : ℕ) : Prop where
  plen : p.length = m.sorted.length
  bal : recipeSum r p = 0
  alen : ∀ l, a l ≤ (vAt m.sorted l).length
  inside : ∀ l < m.sorted.length, ∀ v ∈ (vAt m.sorted l).take (a l), p.getD l 0 ≤ v
  /-- Either no visit was rejected, or the prices separate. -/
  outside : (∃ K, k ≤ K ∧ (Avail m.sorted r k → K = k + 1) ∧ (∀ t < K, Avail m.sorted r t) ∧ ∀ l, a l = K * rAt r l) ∨
    (¬ Pass z (clockSum m.sorted r a) ∧ ∀ l < m.sorted.length, ∀ v ∈ (vAt m.sorted l).drop (a l), v ≤ p.getD l 0)
  dle : ∀ l < m.sorted.length, d * rAt r l ≤ a l
  leD : ∀ l, a l ≤ (d + 1) * rAt r l
  /-- The pivot that found external competition. -/
  pivot : ∃ i < m.sorted.length, 0 < rAt r i ∧ 0 < a i ∧ Pass z (clockSum m.sorted r (Function.update a i (a i - 1))) ∧
    (∀ l < m.sorted.length, l ≠ i → p.getD l 0 = clock (vAt m.sorted l) (a l)) ∧
    ∃ j L, (i :: L) <:+ pivotIndexToCategoryIndex 0 r ∧ ∀ l, j * rAt r l + (i :: L).count l = a l

theorem clk_eq {cs : List AgentCategory} {pad : ℕ → Bool} {l s : ℕ} (hb : ∀ v ∈ vAt cs l, -MAX_VALUE ≤ v) :
    clk cs pad l s = clock (vAt cs l) s := by
  unfold clk
  split
  · apply max_eq_left
    by_cases hs : s < (vAt cs l).length
    · rw [clock_of_lt hs]; exact hb _ (List.getElem_mem hs)
    · rw [clock_of_ge (by omega)]
  · rfl

theorem clock_ge_of_mem_drop {V : List ℚ} (hV : SortedDesc V) {s : ℕ} {v : ℚ} (hv : v ∈ V.drop s) : v ≤ clock V s := by
  obtain ⟨j, hj, rfl⟩ := List.getElem_of_mem hv
  simp only [List.length_drop] at hj
  rw [clock_of_lt (by omega), List.getElem_drop]
  apply hV.getElem_ge; omega

/-- The sum over the best procurement-set of a pivot is the clock sum after the pivot is moved to the market. -/
theorem best_clockSum {cs : List AgentCategory} {r : List ℕ} (h : r.length = cs.length) {pad : ℕ → Bool} {s : ℕ → ℕ} {i : ℕ}
    (hb : ∀ l < cs.length, ∀ v ∈ vAt cs l, -MAX_VALUE ≤ v) (hs0 : 0 < s i) (hs : s i ≤ (vAt cs i).length) :
    recipeSum r (bestV cs pad s i) = clockSum cs r (Function.update s i (s i - 1)) := by
  rw [recipeSum_eq_sum h (bestV_length cs pad s i), clockSum_eq h]
  refine Finset.sum_congr rfl fun l hl => ?_
  have hl' := Finset.mem_range.1 hl
  congr 1
  by_cases hli : l = i
  · subst hli
    rw [Function.update_self, clock_of_lt (by omega)]
    simp [bestV, hl', List.getElem?_eq_getElem (show s l - 1 < (vAt cs l).length by omega)]
  · rw [Function.update_of_ne hli]
    simp [bestV, hl', hli, clk_eq (hb l hl')]

theorem tr_outcome {m : Market} {r : List ℕ} {z : Bool} {t : TradeWithSinglePrice} (hpos : ∃ x ∈ r, 0 < x)
    (hval : ∀ c ∈ m.categories, ∀ v ∈ c.values, -MAX_VALUE ≤ v) (ht : tradeReduction m r z = .ok t) :
    ∃ k, GreedyStop m r 2000000 true k ∧
      m.optimalTrade r = .ok (⟨((List.range k).map (blk m.sorted r)).reverse⟩, ⟨dropBlocks m.sorted r k⟩) ∧
      ((∃ q, t = ⟨(mkMarket m.sorted (fun _ => 0)).categories, r, q, 0⟩ ∧ (k = 0 ∨ ¬ Pass z (clockSum m.sorted r (fun _ => 0)))) ∨
        ∃ a p d, t = ⟨(mkMarket m.sorted a).categories, r, some p, d⟩ ∧ TRTrade m r z k a p d ∧
          ∀ d', (∀ i < m.sorted.length, d' * rAt r i ≤ a i) → d' ≤ d) := by
  obtain ⟨h, hcat⟩ := tr_ok_inv ht
  have h' : r.length = m.sorted.length := by rw [m.sorted_length]; exact h
  have hv : ∀ i < m.sorted.length, ∀ v ∈ vAt m.sorted i, -MAX_VALUE ≤ v := by
    intro i hi v hv
    have hi' : i < m.categories.length := by rw [m.sorted_length] at hi; exact hi
    rw [vAt_sorted, mem_sortDesc, vAt_eq_getElem hi'] at hv
    exact hval _ (List.getElem_mem hi') v hv
  obtain ⟨x, hx, hx0⟩ := hpos
  obtain ⟨i₀, hi₀, rfl⟩ := List.getElem_of_mem hx
  have hr₀ : 0 < rAt r i₀ := by rw [rAt_eq_getElem hi₀]; exact hx0
  let Q : ℕ → (ℕ → ℕ) → Prop := fun K s => (∀ l, s l ≤ (vAt m.sorted l).length ∨ ∃ t < K, ¬ Avail m.sorted r t) ∧
      ((s = fun l => K * rAt r l) ∨ (∃ t < K, ¬ Avail m.sorted r t) ∨ ¬ Pass z (clockSum m.sorted r s))
  have hQ0 : ∀ K, Q K (fun l => K * rAt r l) := by
    intro K
    refine ⟨fun l => ?_, Or.inl rfl⟩
    by_cases hav : ∀ t < K, Avail m.sorted r t
    · left
      by_cases hl : l < m.sorted.length
      · rcases Nat.eq_zero_or_pos K with h0 | h0
        · simp [h0]
        · have := hav (K - 1) (by omega) l hl
          rwa [show K - 1 + 1 = K by omega] at this
      · have h0 : rAt r l = 0 := by simp [rAt, List.getD, List.getElem?_eq_none (by omega : r.length ≤ l)]
        simp [h0]
    · push Not at hav
      exact Or.inr hav
  have hQs : ∀ K s i, i < m.sorted.length → 0 < rAt r i → 0 < s i → Q K s →
      ¬ Pass z (recipeSum r (bestV m.sorted (padOf m.sorted r K) s i)) → Q K (Function.update s i (s i - 1)) := by
    rintro K s i hi hri hsi ⟨hQ1, -⟩ hnp
    refine ⟨fun l => ?_, Or.inr ?_⟩
    · rcases hQ1 l with h1 | h1
      · exact Or.inl (le_trans (update_le l) h1)
      · exact Or.inr h1
    · rcases hQ1 i with h1 | h1
      · right
        rwa [best_clockSum h' hv hsi h1] at hnp
      · exact Or.inl h1
  obtain ⟨k, hk, hopt, hres⟩ := tr_eq h hcat ⟨_, hx, hx0⟩ z hQ0 hQs
  refine ⟨k, hk, hopt, ?_⟩
  rcases hres with ⟨hk0, he⟩ | ⟨hk0, K, hkK, hK1, hKav, ⟨hQ, he⟩ | ⟨a, b, d, hwf, ⟨p, hT, he⟩, hd1, hd2⟩⟩
  · rw [he, Except.ok.injEq] at ht
    exact Or.inl ⟨_, ht.symm, Or.inl hk0⟩
  · rw [he, Except.ok.injEq] at ht
    refine Or.inl ⟨_, ht.symm, ?_⟩
    rcases hQ.2 with h0 | ⟨t', ht', hna⟩ | hQ
    · have := congrFun h0 i₀
      have := Nat.mul_pos (show 0 < K by omega) hr₀
      omega
    · exact absurd (hKav t' ht') hna
    · exact Or.inr hQ
  · rw [he, Except.ok.injEq] at ht
    refine Or.inr ⟨a, p, d, ht.symm, ?_, hd2⟩
    obtain ⟨⟨-, hQ⟩, i, hi, hri, hai, hpass, rfl, j, L, hsuf, hjL⟩ := hT
    have hj := suffix_bounds hsuf hjL
    have hout : ∀ l, m.sorted.length ≤ l → a l = 0 := by
      intro l hl
      have := (hj l).2
      have h0 : rAt r l = 0 := by simp [rAt, List.getD, List.getElem?_eq_none (by omega : r.length ≤ l)]
      simpa [h0] using this
    have halen : ∀ l, a l ≤ (vAt m.sorted l).length := by
      intro l
      by_cases hl : l < m.sorted.length
      · exact (hwf l hl).2
      · rw [hout l (by omega)]; omega
    have hjd : j ≤ d := hd2 j (fun l _ => (hj l).1)
    have hri' : (0 : ℚ) < rAt r i := by exact_mod_cast hri
    have hpass0 : 0 ≤ recipeSum r (bestV m.sorted (padOf m.sorted r K) a i) := by
      rcases hpass with h1 | ⟨-, h1⟩
      · exact h1.le
      · exact h1.ge
    have hpi := pricesV_pivot (r := r) (pad := padOf m.sorted r K) (s := a) hi
    have hbal := pricesV_balanced h' (pad := padOf m.sorted r K) (s := a) hi hri
    refine ⟨pricesV_length _ _ _ _ _, hbal, halen, ?_, ?_, hd1, ?_, ?_⟩
    · intro l hl v hvm
      by_cases hli : l = i
      · subst hli
        have hlt : a l - 1 < (vAt m.sorted l).length := by have := halen l; omega
        have h1 : (vAt m.sorted l)[a l - 1] ≤ v := by
          obtain ⟨q, hq, rfl⟩ := List.getElem_of_mem hvm
          simp only [List.length_take] at hq
          simp only [List.getElem_take]
          apply (sorted_vAt m l).getElem_ge; omega
        refine le_trans ?_ h1
        rw [hpi, div_le_iff₀ hri']
        simp only [List.getD, List.getElem?_eq_getElem hlt, Option.getD_some]
        linarith
      · rw [pricesV_other hl hli, clk_eq (hv l hl)]
        exact clock_le_of_mem_take (sorted_vAt m l) (hv l hl) hvm
    · rcases hQ with h0 | ⟨t', ht', hna⟩ | hQ
      · exact Or.inl ⟨K, hkK, hK1, hKav, fun l => congrFun h0 l⟩
      · exact absurd (hKav t' ht') hna
      · refine Or.inr ⟨hQ, fun l hl v hvm => ?_⟩
        have hdrop := clock_ge_of_mem_drop (sorted_vAt m l) hvm
        by_cases hli : l = i
        · subst hli
          refine le_trans hdrop ?_
          have hS : clockSum m.sorted r a ≤ 0 := by
            unfold Pass at hQ; push Not at hQ; exact hQ.1
          rw [clockSum_eq h'] at hS
          rw [recipeSum_eq_sum h' (pricesV_length _ _ _ _ _)] at hbal
          rw [← Finset.add_sum_erase _ _ (Finset.mem_range.2 hl)] at hS hbal
          have e : ∑ x ∈ (Finset.range m.sorted.length).erase l, (rAt r x : ℚ) * (pricesV m.sorted r (padOf m.sorted r K) a l).getD x 0
              = ∑ x ∈ (Finset.range m.sorted.length).erase l, (rAt r x : ℚ) * clock (vAt m.sorted x) (a x) := by
            refine Finset.sum_congr rfl fun x hx => ?_
            have hx1 := Finset.mem_range.1 (Finset.mem_of_mem_erase hx)
            rw [pricesV_other hx1 (Finset.ne_of_mem_erase hx), clk_eq (hv x hx1)]
          rw [e] at hbal
          exact le_of_mul_le_mul_left (by linarith) hri'
        · rw [pricesV_other hl hli, clk_eq (hv l hl)]
          exact hdrop
    · intro l
      exact le_trans (hj l).2 (Nat.mul_le_mul_right _ (by omega))
    · refine ⟨i, hi, hri, hai, ?_, ?_, j, L, hsuf, hjL⟩
      · rwa [best_clockSum h' hv hai (halen i)] at hpass
      · intro l hl hli
        rw [pricesV_other hl hli, clk_eq (hv l hl)]

/-- **C27**. Individual rationality: every agent of the trade returned by trade reduction has a value at least the price of its category
(so prices are defined whenever someone trades), provided that no agent's value is below `-MAX_VALUE`. -/
theorem trade_reduction_individually_rational {m : Market} {r : List ℕ} {z : Bool} {t : TradeWithSinglePrice} (hpos : ∃ x ∈ r, 0 < x)
    (hval : ∀ c ∈ m.categories, ∀ v ∈ c.values, -MAX_VALUE ≤ v) (ht : tradeReduction m r z = .ok t) :
    ∀ i, ∀ v ∈ (t.categories.map AgentCategory.values).getD i [], ∃ p, t.prices = some p ∧ p.getD i 0 ≤ v := by
  intro i v hv
  rw [getD_values] at hv
  obtain ⟨k, -, -, ⟨q, rfl, -⟩ | ⟨a, p, d, rfl, hT, -⟩⟩ := tr_outcome hpos hval ht
  · rw [vAt_mkMarket] at hv; simp at hv
  · rw [vAt_mkMarket] at hv
    have hi : i < m.sorted.length := by
      by_contra hge
      rw [vAt_of_ge (by omega)] at hv
      simp at hv
    exact ⟨p, rfl, hT.inside i hi v hv⟩

theorem pass_of_good {z : Bool} {x y : ℚ} (hg : Good z x) (hxy : x ≤ y) : Pass z y := by
  unfold Good at hg
  unfold Pass
  push Not at hg
  rcases lt_or_ge 0 y with h | h
  · exact Or.inl h
  · have hx : x = 0 := le_antisymm (le_trans hxy h) hg.1
    have hy : y = 0 := le_antisymm h (by linarith)
    refine Or.inr ⟨?_, hy⟩
    by_contra hz
    exact hg.2 hx (by simpa using hz)

/-- The clock sum is at least the gain of any procurement-set all of whose agents are among those already moved to the market. -/
theorem clockSum_ge_blk {m : Market} {r : List ℕ} (h' : r.length = m.sorted.length) {a : ℕ → ℕ} {j : ℕ} (hav : Avail m.sorted r j)
    (ha : ∀ l, a l ≤ j * rAt r l) : (blk m.sorted r j).sum ≤ clockSum m.sorted r a := by
  rw [blk_sum h', clockSum_eq h']
  refine Finset.sum_le_sum fun l hl => ?_
  have hl' := Finset.mem_range.1 hl
  have hlen : (seg (vAt m.sorted l) (rAt r l) j).length = rAt r l := seg_length (hav l hl')
  have hb : ∀ x ∈ seg (vAt m.sorted l) (rAt r l) j, x ≤ clock (vAt m.sorted l) (a l) := by
    intro x hx
    refine clock_ge_of_mem_drop (sorted_vAt m l) ?_
    have h1 : x ∈ (vAt m.sorted l).drop (j * rAt r l) := List.mem_of_mem_take hx
    rw [show j * rAt r l = a l + (j * rAt r l - a l) by have := ha l; omega, ← List.drop_drop] at h1
    exact List.mem_of_mem_drop h1
  have := List.sum_le_card_nsmul _ _ hb
  rwa [hlen, nsmul_eq_mul] at this

/-- **C28**, number of deals. Trade reduction makes at most as many deals as the optimal trade, and at most one less than the optimal trade
computed with the same treatment of zero-gain deals. -/
theorem trade_reduction_loses_at_most_one_deal {m : Market} {r : List ℕ} {z : Bool} {t : TradeWithSinglePrice} (hpos : ∃ x ∈ r, 0 < x)
    (hval : ∀ c ∈ m.categories, ∀ v ∈ c.values, -MAX_VALUE ≤ v) (hN : m.numAgents ≤ 2000000) (ht : tradeReduction m r z = .ok t)
    {opt optz : TradeWithMaterialBalance} {rem remz : Market}
    (hopt : m.optimalTrade r = .ok (opt, rem)) (hoptz : m.optimalTrade r 2000000 z = .ok (optz, remz)) :
    t.numOfDeals ≤ opt.numOfDeals ∧ optz.numOfDeals ≤ t.numOfDeals + 1 := by
  obtain ⟨h, hcat⟩ := tr_ok_inv ht
  have h' : r.length = m.sorted.length := by rw [m.sorted_length]; exact h
  obtain ⟨kz, hkz, hez⟩ := optimalTrade_eq h hcat 2000000 z
  rw [hez] at hoptz
  simp only [Except.ok.injEq, Prod.mk.injEq] at hoptz
  obtain ⟨rfl, rfl⟩ := hoptz
  obtain ⟨k, hk, hopt', hres⟩ := tr_outcome hpos hval ht
  rw [hopt'] at hopt
  simp only [Except.ok.injEq, Prod.mk.injEq] at hopt
  obtain ⟨rfl, rfl⟩ := hopt
  have hnum : ∀ k, TradeWithMaterialBalance.numOfDeals ⟨((List.range k).map (blk m.sorted r)).reverse⟩ = k := by
    intro k; simp [TradeWithMaterialBalance.numOfDeals]
  have hkk : kz ≤ k := by
    by_contra hlt
    have hle := hkz.le_max
    have h1 := hkz.taken k (by omega)
    rcases hk.stop (by omega) with h2 | h2
    · exact h2 h1.1
    · apply h2
      have := h1.2
      unfold Good at this ⊢
      push Not at this ⊢
      exact ⟨this.1, by simp⟩
  rw [hnum, hnum]
  rcases hres with ⟨q, rfl, hc⟩ | ⟨a, p, d, rfl, hT, hmax⟩
  · refine ⟨Nat.zero_le _, ?_⟩
    simp only [TradeWithSinglePrice.numOfDeals]
    rcases hc with hc | hc
    · omega
    · by_contra hlt
      have h1 := hkz.taken 0 (by omega)
      exact hc (pass_of_good h1.2 (clockSum_ge_blk h' h1.1 (fun l => by simp)))
  · simp only [TradeWithSinglePrice.numOfDeals]
    constructor
    · by_contra hlt
      have havd : ∀ i < m.sorted.length, (k + 1) * rAt r i ≤ a i := fun i hi =>
        le_trans (Nat.mul_le_mul_right _ (by omega)) (hT.dle i hi)
      have h0 := blocks_nonneg h' hT.plen hT.bal (fun i hi _ => hT.inside i hi) hT.alen (j := k) havd
      rcases hk.stopped h hN hpos with h1 | h1
      · exact h1 (fun i hi => le_trans (havd i hi) (hT.alen i))
      · apply h1
        unfold Good
        push Not
        exact ⟨h0, by simp⟩
    · by_contra hlt
      rcases hT.outside with ⟨K, hkK, -, hKav, haK⟩ | ⟨hnp, -⟩
      · have := hmax K (fun i _ => (haK i).ge)
        omega
      · have h1 := hkz.taken (d + 1) (by omega)
        exact hnp (pass_of_good h1.2 (clockSum_ge_blk h' h1.1 hT.leD))

/-- **C28**, gain. `gain_from_trade()` of the trade returned by trade reduction is at most the gain of the optimal trade, and at least
`(1 - 1/k)` of it, `k > 0` being the number of optimal deals (computed with the same treatment of zero-gain deals). -/
theorem trade_reduction_gain {m : Market} {r : List ℕ} {z : Bool} {t : TradeWithSinglePrice} (hpos : ∃ x ∈ r, 0 < x)
    (hval : ∀ c ∈ m.categories, ∀ v ∈ c.values, -MAX_VALUE ≤ v) (hN : m.numAgents ≤ 2000000) (ht : tradeReduction m r z = .ok t)
    {optz : TradeWithMaterialBalance} {remz : Market} (hoptz : m.optimalTrade r 2000000 z = .ok (optz, remz)) {g : ℚ}
    (hg : t.gainFromTrade = .ok g) :
    g ≤ optz.gainFromTrade ∧ (0 < optz.numOfDeals → (1 - 1 / (optz.numOfDeals : ℚ)) * optz.gainFromTrade ≤ g) := by
  obtain ⟨h, hcat⟩ := tr_ok_inv ht
  have h' : r.length = m.sorted.length := by rw [m.sorted_length]; exact h
  obtain ⟨k, hk, hopt', hres⟩ := tr_outcome hpos hval ht
  have hcount := trade_reduction_loses_at_most_one_deal hpos hval hN ht hopt' hoptz
  obtain ⟨kz, hkz, hez⟩ := optimalTrade_eq h hcat 2000000 z
  rw [hez] at hoptz
  simp only [Except.ok.injEq, Prod.mk.injEq] at hoptz
  obtain ⟨rfl, rfl⟩ := hoptz
  have hnum : ∀ k, TradeWithMaterialBalance.numOfDeals ⟨((List.range k).map (blk m.sorted r)).reverse⟩ = k := by
    intro k; simp [TradeWithMaterialBalance.numOfDeals]
  rw [hnum, hnum] at hcount
  rw [hnum, gain_blks]
  have hOPT0 : 0 ≤ ∑ j ∈ Finset.range kz, (blk m.sorted r j).sum :=
    Finset.sum_nonneg fun j hj => by
      have := (hkz.taken j (Finset.mem_range.1 hj)).2
      unfold Good at this; push Not at this; exact this.1
  have hzero : t.numOfDeals = 0 → g = 0 := by
    intro h0
    simpa [TradeWithSinglePrice.gainFromTrade, show t.numOfDealsCache = 0 from h0] using hg.symm
  rcases Nat.eq_zero_or_pos t.numOfDeals with hd0 | hd0
  · rw [hzero hd0]
    refine ⟨hOPT0, fun hk0 => ?_⟩
    have : kz = 1 := by omega
    subst this
    simp
  rcases hres with ⟨q, rfl, -⟩ | ⟨a, p, d, rfl, hT, hmax⟩
  · simp [TradeWithSinglePrice.numOfDeals] at hd0
  · simp only [TradeWithSinglePrice.numOfDeals] at hd0 hcount
    have hup := lottery_gain_upper h' hT.plen hT.alen hd0 hT.dle hg
    have hsl := fun n hn => (hkz.sum_le h (hkz.stopped h hN hpos) (n := n) hn).1
    refine ⟨le_trans hup (hsl d ?_), fun hk0 => ?_⟩
    · intro t' ht' i hi
      exact le_trans (Nat.mul_le_mul_right _ ht') (le_trans (hT.dle i hi) (hT.alen i))
    · have hkq : (0 : ℚ) < kz := by exact_mod_cast hk0
      rcases hT.outside with ⟨K, hkK, -, hKav, haK⟩ | ⟨-, hout⟩
      · -- every competing procurement-set trades
        have hKd : K ≤ d := hmax K (fun i _ => (haK i).ge)
        have hdK : d = K := by
          obtain ⟨x, hx, hx0⟩ := hpos
          obtain ⟨i₀, hi₀, rfl⟩ := List.getElem_of_mem hx
          rw [← rAt_eq_getElem hi₀] at hx0
          have h1 := hT.dle i₀ (by omega)
          rw [haK] at h1
          have := Nat.le_of_mul_le_mul_right h1 hx0
          omega
        subst hdK
        have hgain := outcome_gain h' hT.plen hT.alen hd0 hg
        simp only [if_true, sub_zero] at hgain
        have hall : g = ∑ j ∈ Finset.range d, (blk m.sorted r j).sum := by
          rw [hgain]
          simp_rw [blk_sum h']
          rw [Finset.sum_comm]
          refine Finset.sum_congr rfl fun i hi => ?_
          rw [seg_sums, haK]
          rcases Nat.eq_zero_or_pos (rAt r i) with h0 | h0
          · simp [h0]
          · have : ((d * rAt r i : ℕ) : ℚ) ≠ 0 := by exact_mod_cast (Nat.mul_pos hd0 h0).ne'
            rw [mul_comm (rAt r i) d, div_self this, mul_one]
        have hkd : ∑ j ∈ Finset.range kz, (blk m.sorted r j).sum ≤ g := by
          have hkz1 := hkz.sum_le h (hkz.stopped h hN hpos) (n := k) (fun t' ht' => hKav t' (by omega))
          have hk1 := hk.sum_le h (hk.stopped h hN hpos) (n := kz) (fun t' ht' => (hkz.taken t' ht').1)
          have hkd' : d = k := by omega
          rw [hall, hkd']
          exact hk1.1
        have : (1 - 1 / (kz : ℚ)) * ∑ j ∈ Finset.range kz, (blk m.sorted r j).sum
            ≤ 1 * ∑ j ∈ Finset.range kz, (blk m.sorted r j).sum := by
          refine mul_le_mul_of_nonneg_right ?_ hOPT0
          have : 0 ≤ 1 / (kz : ℚ) := by positivity
          linarith
        linarith
      · have hlow := separated_gain_lower h' hT.plen hT.bal hT.alen hd0 hT.dle (fun i _ _ => hT.leD i)
          (fun i hi _ => hT.inside i hi) (fun i hi _ => hout i hi) (k := kz) (fun t' ht' => (hkz.taken t' ht').1) hg
        refine le_trans (mul_le_mul_of_nonneg_right ?_ hOPT0) hlow
        have e : (d : ℚ) / (d + 1) = 1 - 1 / (d + 1) := by field_simp; ring
        rw [e]
        have hkd : (kz : ℚ) ≤ d + 1 := by exact_mod_cast hcount.2
        have := one_div_le_one_div_of_le hkq hkd
        linarith

/-- **C28**, addition: with a recipe of positive integers, the gain is always defined. -/
theorem trade_reduction_gain_defined {m : Market} {r : List ℕ} {z : Bool} {t : TradeWithSinglePrice} (hall : ∀ x ∈ r, 0 < x)
    (hval : ∀ c ∈ m.categories, ∀ v ∈ c.values, -MAX_VALUE ≤ v) (ht : tradeReduction m r z = .ok t) :
    ∃ g, t.gainFromTrade = .ok g := by
  obtain ⟨h, hcat⟩ := tr_ok_inv ht
  have h' : r.length = m.sorted.length := by rw [m.sorted_length]; exact h
  have hpos : ∃ x ∈ r, 0 < x := by
    cases r with
    | nil =>
      exfalso; apply hcat
      exact List.length_eq_zero_iff.1 (by simpa [Market.numCategories] using h.symm)
    | cons x r => exact ⟨x, by simp, hall x (by simp)⟩
  rcases Nat.eq_zero_or_pos t.numOfDeals with hd0 | hd0
  · exact ⟨0, by simp [TradeWithSinglePrice.gainFromTrade, show t.numOfDealsCache = 0 from hd0]⟩
  obtain ⟨k, -, -, ⟨q, rfl, -⟩ | ⟨a, p, d, rfl, hT, -⟩⟩ := tr_outcome hpos hval ht
  · simp [TradeWithSinglePrice.numOfDeals] at hd0
  · simp only [TradeWithSinglePrice.numOfDeals] at hd0
    unfold TradeWithSinglePrice.gainFromTrade
    simp only [show d ≠ 0 by omega, if_false]
    refine ⟨_, gftLoop_eq _ true rfl _ 0 (by simp [mkMarket_length, h']) (by simp [mkMarket_length, hT.plen]) ?_⟩
    intro c hc hnil
    obtain ⟨i, hi, rfl⟩ := List.getElem_of_mem hc
    rw [mkMarket_length] at hi
    have h1 := hT.dle i hi
    have h2 : 0 < rAt r i := by rw [rAt_eq_getElem (by omega)]; exact hall _ (List.getElem_mem _)
    have h3 : (vAt (mkMarket m.sorted a).categories i) = [] := by rw [vAt_eq_getElem (by rw [mkMarket_length]; exact hi)]; exact hnil
    rw [vAt_mkMarket] at h3
    have h4 := congrArg List.length h3
    rw [List.length_take, min_eq_left (hT.alen i)] at h4
    have := Nat.mul_pos hd0 h2
    simp at h4
    omega

/-! ## Index maps -/

/-- **C29**. For every position `q` of a procurement-set, `convert_category_index` returns a category `i` whose block of `recipe[i]`
consecutive positions (after those of the categories before it) contains `q`; the table `pivot_index_to_category_index` holds the
same category at that position; and the positions visited are `0, …, sum(recipe)-1`, each exactly once. -/
theorem pivot_indexing (r : List ℕ) :
    (∀ q < r.sum, ∃ i, (r.take i).sum ≤ q ∧ q < (r.take i).sum + r.getD i 0 ∧
      convertCategoryIndex r q = i ∧ (pivotIndexToCategoryIndex 0 r)[q]? = some i) ∧
    (pivotIndexes 0 r).Perm (List.range r.sum) ∧ (pivotIndexToCategoryIndex 0 r).length = r.sum := by
  refine ⟨?_, ?_, ?_⟩
  · intro q hq
    have key : ∀ (r : List ℕ) (q : ℕ), q < r.sum → ∃ i t, t < rAt r i ∧ q = start r i + t := by
      intro r
      induction r with
      | nil => simp
      | cons a r ih =>
        intro q hq
        by_cases hqa : q < a
        · exact ⟨0, q, by simpa using hqa, by simp [start]⟩
        · obtain ⟨i, t, h1, h2⟩ := ih (q - a) (by simp at hq; omega)
          exact ⟨i + 1, t, by simpa using h1, by rw [start_cons_succ]; omega⟩
    obtain ⟨i, t, h1, rfl⟩ := key r q hq
    have hc := convert_get r 0 i t h1
    have ht := toCategory_get r 0 i t h1
    rw [Nat.zero_add] at hc ht
    exact ⟨i, Nat.le_add_right _ _, Nat.add_lt_add_left h1 _, hc, ht⟩
  · have key : ∀ (r : List ℕ) (n : ℕ), (pivotIndexes n r).Perm ((List.range r.sum).map (fun x => n + x)) := by
      intro r
      induction r with
      | nil => simp [pivotIndexes]
      | cons a r ih =>
        intro n
        rw [pivotIndexes, List.sum_cons, List.range_add, List.map_append]
        refine List.Perm.append ?_ ((ih (n + a)).trans ?_)
        · exact (List.reverse_perm _).map _
        · rw [List.map_map]
          refine List.Perm.of_eq (List.map_congr_left fun x _ => ?_)
          simp only [Function.comp]; omega
    have := key r 0
    simpa using this
  · have key : ∀ (r : List ℕ) (n : ℕ), (pivotIndexToCategoryIndex n r).length = r.sum := by
      intro r
      induction r with
      | nil => simp [pivotIndexToCategoryIndex]
      | cons a r ih => intro n; simp [pivotIndexToCategoryIndex, ih]
    exact key r 0

/-! ## Truthfulness -/

/-- **C45**, the limit of truthfulness: with recipe `[1, 2]`, a buyer with true value 90 does not trade when it reports 90, and trades at
price 6 when it reports 101. -/
theorem trade_reduction_not_truthful :
    ∃ (m : Market) (tT tB : TradeWithSinglePrice),
      tradeReduction (withAgent m 0 90) [1, 2] = .ok tT ∧ tradeReduction (withAgent m 0 101) [1, 2] = .ok tB ∧
      utility tT 0 90 90 = 0 ∧ utility tB 0 90 101 = 84 := by
  refine ⟨⟨[⟨"buyer", [100]⟩, ⟨"seller", [-1, -2, -3]⟩]⟩,
    ⟨[⟨"buyer", [100]⟩, ⟨"seller", [-1, -2]⟩], [1, 2], some [6, -3], 1⟩,
    ⟨[⟨"buyer", [101]⟩, ⟨"seller", [-1, -2]⟩], [1, 2], some [6, -3], 1⟩, ?_⟩
  decide +kernel

/-- Non-vacuity of C26–C28: recipe `[1, 2]`, three optimal deals, two of which are made, the sellers by lottery. -/
example :
    let m : Market := ⟨[⟨"buyer", [17, 14, 13, 9, 6]⟩, ⟨"seller", [-1, -3, -4, -5, -6, -7, -20, -21]⟩]⟩
    ∃ t opt, tradeReduction m [1, 2] = .ok t ∧ m.optimalTrade [1, 2] = .ok opt ∧ t.numOfDeals = 2 ∧ opt.1.numOfDeals = 3 ∧
      m.numAgents ≤ 2000000 ∧ ∀ c ∈ m.categories, ∀ v ∈ c.values, -MAX_VALUE ≤ v := by
  refine ⟨⟨[⟨"buyer", [17, 14]⟩, ⟨"seller", [-1, -3, -4, -5, -6]⟩], [1, 2], some [13, -13/2], 2⟩,
    (⟨[[13, -6, -7], [14, -4, -5], [17, -1, -3]]⟩, ⟨[⟨"buyer", [9, 6]⟩, ⟨"seller", [-20, -21]⟩]⟩), ?_⟩
  decide +kernel

end Auctions.Props
