import Verif.Props.Ascending
import Mathlib.Algebra.Order.Field.Basic

set_option autoImplicit false

/-!
# C21 — the gain of the single-recipe ascending auction
-/

namespace Auctions.Props

open Auctions Spec Ascending

/-- In a balanced ending, no category has more agents than `d + 1` deals need. -/
theorem sizes_le {cs : List AgentCategory} {r : List ℕ} (h : r.length = cs.length) (hne : rel cs r ≠ [])
    {n : ℕ} {s : ℕ → ℕ} (hp : Path cs r n s) {p : List ℚ} (he : Ending cs r s p) {d : ℕ}
    (hmax : ∀ e, (∀ i < cs.length, e * rAt r i ≤ s i) → e ≤ d)
    (hval : ∀ i < cs.length, ∀ v ∈ vAt cs i, (r.sum : ℚ) * v < MAX_VALUE) :
    ∀ j ∈ rel cs r, s j ≤ (d + 1) * rAt r j := by
  have hinv := (hp.inv h hne).1
  rcases he.cases h hne hp with ⟨hpl, ⟨h0, -⟩ | ⟨c, hcm, hc0, harg, hbal, hoth, hc1, hc2⟩⟩
  · intro j hj; rw [h0 j hj]; omega
  have : ¬ ∀ i < cs.length, (d + 1) * rAt r i ≤ s i := fun hh => by have := hmax _ hh; omega
  push Not at this
  obtain ⟨i, hi, hsi⟩ := this
  have hrpos : 0 < rAt r i := by
    rcases Nat.eq_zero_or_pos (rAt r i) with h0 | h0
    · rw [h0] at hsi; omega
    · exact h0
  have him : i ∈ rel cs r := relevant_mem.2 ⟨hi, hrpos⟩
  intro j hj
  by_cases hlen : s i < (vAt cs i).length
  · have h1 := hinv.touched i him j hj hlen
    have h2 : (s i + 1) * rAt r j ≤ (d + 1) * rAt r i * rAt r j := Nat.mul_le_mul_right _ hsi
    have h3 : s j * rAt r i ≤ (d + 1) * rAt r j * rAt r i := by
      calc s j * rAt r i ≤ _ := h1
        _ ≤ _ := h2
        _ = _ := by ring
    exact Nat.le_of_mul_le_mul_right h3 hrpos
  · by_cases hic : i = c
    · subst hic
      have h1 := harg j hj
      have h2 : s i * rAt r j ≤ (d + 1) * rAt r i * rAt r j := Nat.mul_le_mul_right _ hsi.le
      have h3 : s j * rAt r i ≤ (d + 1) * rAt r j * rAt r i := by
        calc s j * rAt r i ≤ _ := h1
          _ ≤ _ := h2
          _ = _ := by ring
      exact Nat.le_of_mul_le_mul_right h3 hrpos
    · exfalso
      have hpi : p.getD i 0 = -MAX_VALUE := by
        rw [hoth i hi hic, clock_of_ge (by omega)]
      have hM : (0 : ℚ) < MAX_VALUE := by unfold MAX_VALUE; norm_num
      have hRpos : (0 : ℚ) ≤ (r.sum : ℚ) := by exact_mod_cast Nat.zero_le _
      have hclk : ∀ j < cs.length, ∀ k, (r.sum : ℚ) * clock (vAt cs j) k < MAX_VALUE := by
        intro j hj k
        by_cases hk : k < (vAt cs j).length
        · rw [clock_of_lt hk]; exact hval j hj _ (List.getElem_mem hk)
        · rw [clock_of_ge (by omega)]; nlinarith
      have hpj : ∀ j < cs.length, (r.sum : ℚ) * p.getD j 0 ≤ MAX_VALUE := by
        intro j hj
        by_cases hjc : j = c
        · subst hjc
          exact le_trans (mul_le_mul_of_nonneg_left hc2 hRpos) (hclk j hj _).le
        · rw [hoth j hj hjc]; exact (hclk j hj _).le
      have hsum : (r.sum : ℚ) = ∑ j ∈ Finset.range cs.length, (rAt r j : ℚ) := by
        have : ∀ l : List ℕ, (l.sum : ℚ) = ∑ j ∈ Finset.range l.length, (rAt l j : ℚ) := by
          intro l
          induction l with
          | nil => simp
          | cons a l ih => rw [List.length_cons, Finset.sum_range_succ']; simp [ih, add_comm]
        rw [this, h]
      have hle : (r.sum : ℚ) * recipeSum r p
          ≤ ∑ j ∈ Finset.range cs.length, (if j = i then -(rAt r i * r.sum * MAX_VALUE) else rAt r j * MAX_VALUE) := by
        rw [recipeSum_eq_sum h hpl, Finset.mul_sum]
        refine Finset.sum_le_sum fun j hj => ?_
        have hj' := Finset.mem_range.1 hj
        by_cases hji : j = i
        · rw [if_pos hji]; subst hji; rw [hpi]; apply le_of_eq; ring
        · rw [if_neg hji]
          have h1 := hpj j hj'
          have h2 : (0 : ℚ) ≤ rAt r j := by exact_mod_cast Nat.zero_le _
          have := mul_le_mul_of_nonneg_left h1 h2
          linarith
      have hle2 : ∑ j ∈ Finset.range cs.length,
          (if j = i then -((rAt r i : ℚ) * r.sum * MAX_VALUE) else rAt r j * MAX_VALUE)
          = r.sum * MAX_VALUE - rAt r i * MAX_VALUE - rAt r i * r.sum * MAX_VALUE := by
        rw [← Finset.add_sum_erase _ _ (Finset.mem_range.2 hi), if_pos rfl]
        have : ∑ j ∈ (Finset.range cs.length).erase i,
            (if j = i then -((rAt r i : ℚ) * r.sum * MAX_VALUE) else rAt r j * MAX_VALUE)
            = ∑ j ∈ (Finset.range cs.length).erase i, (rAt r j : ℚ) * MAX_VALUE := by
          refine Finset.sum_congr rfl fun j hj => ?_
          rw [if_neg (Finset.ne_of_mem_erase hj)]
        rw [this]
        have h3 : (r.sum : ℚ) * MAX_VALUE = ∑ j ∈ Finset.range cs.length, (rAt r j : ℚ) * MAX_VALUE := by
          rw [hsum, Finset.sum_mul]
        rw [h3, ← Finset.add_sum_erase _ _ (Finset.mem_range.2 hi)]
        ring
      rw [hle2, hbal, mul_zero] at hle
      have hr1 : (1 : ℚ) ≤ rAt r i := by exact_mod_cast hrpos
      have : (r.sum : ℚ) * MAX_VALUE ≤ rAt r i * r.sum * MAX_VALUE := by
        have := mul_le_mul_of_nonneg_right hr1 (mul_nonneg hRpos hM.le)
        linarith
      have : 0 < (rAt r i : ℚ) * MAX_VALUE := by positivity
      linarith

/-- Gain of an outcome, in closed form. -/
theorem outcome_gain {cs : List AgentCategory} {r : List ℕ} {s : ℕ → ℕ} {p : List ℚ}
    (h : r.length = cs.length) (hpl : p.length = cs.length) (hle : ∀ i, s i ≤ (vAt cs i).length)
    {d : ℕ} (hd0 : 0 < d) {b : Bool} {g : ℚ}
    (hg : TradeWithSinglePrice.gainFromTrade ⟨(mkMarket cs s).categories, r, some p, d⟩ b = .ok g) :
    g = ∑ i ∈ Finset.range cs.length, (((vAt cs i).take (s i)).sum * ((rAt r i * d : ℕ) / (s i : ℚ))
      - if b then 0 else p.getD i 0 * (rAt r i * d : ℕ)) := by
  unfold TradeWithSinglePrice.gainFromTrade at hg
  simp only [show d ≠ 0 by omega, if_false] at hg
  have hne : ∀ c ∈ (mkMarket cs s).categories, c.values ≠ [] := by
    intro c hc hnil
    obtain ⟨pre, post, hsplit⟩ := List.append_of_mem hc
    rw [hsplit] at hg
    have : ∀ (pre : List AgentCategory) (k : ℕ) (x : ℚ) (t : TradeWithSinglePrice), t.gftLoop b k (pre ++ c :: post) ≠ .ok x := by
      intro pre
      induction pre with
      | nil =>
        intro k x t h
        simp only [List.nil_append, TradeWithSinglePrice.gftLoop, TradeWithSinglePrice.gftStep, bind, Except.bind] at h
        cases hg : pyGet t.psRecipe k <;> simp [hg, hnil, pyDiv] at h
      | cons e pre ih =>
        intro k x t h
        simp only [List.cons_append, TradeWithSinglePrice.gftLoop, bind, Except.bind] at h
        cases h1 : t.gftStep b k e with
        | error e => simp [h1] at h
        | ok y =>
          cases h2 : t.gftLoop b (k + 1) (pre ++ c :: post) with
          | error e => simp [h1, h2] at h
          | ok z => exact ih _ _ _ h2
    exact this _ _ _ _ hg
  rw [gftLoop_eq _ b rfl _ 0 (by simp [mkMarket_length, h]) (by simp [mkMarket_length, hpl]) hne] at hg
  simp only [Except.ok.injEq, mkMarket_length, vAt_mkMarket, zero_add] at hg
  rw [← hg]
  refine Finset.sum_congr rfl fun i _ => ?_
  rw [List.length_take, min_eq_left (hle i)]

/-- **C21**. The gain of the auction is at most the optimal gain; and if values lie between `-MAX_VALUE` and
`MAX_VALUE / (sum of the recipe)`, it is at least `(1 - 1/k)` of the optimal gain, `k > 0` being the number of optimal deals. -/
theorem ascending_gain {m : Market} {r : List ℕ} {fuel N N' : ℕ} {t : TradeWithSinglePrice}
    {opt : TradeWithMaterialBalance} {rem : Market} {g : ℚ}
    (ht : auction m r fuel N = .ok (some t)) (hopt : m.optimalTrade r N' = .ok (opt, rem)) (hN : m.numAgents ≤ N')
    (hg : t.gainFromTrade = .ok g) :
    g ≤ opt.gainFromTrade ∧
    ((∀ c ∈ m.categories, ∀ v ∈ c.values, -MAX_VALUE ≤ v ∧ (r.sum : ℚ) * v < MAX_VALUE) → 0 < opt.numOfDeals →
      (1 - 1 / (opt.numOfDeals : ℚ)) * opt.gainFromTrade ≤ g) := by
  have hcount := ascending_loses_at_most_one_deal ht hopt hN
  obtain ⟨h, hcat, hpos⟩ := auction_ok_inv ht
  have h' : r.length = m.sorted.length := by rw [m.sorted_length]; exact h
  have hne := rel_ne_nil h hpos
  have hbb := @ascending_budget_balanced m r fuel N t ht
  obtain ⟨n, s, p, d, hp, he, rfl, hle, hmax⟩ := outcome_of_ok ht
  have hinv := (hp.inv h' hne).1
  obtain ⟨k, hk, hke⟩ := optimalTrade_eq h hcat N' true
  rw [hke] at hopt
  simp only [Except.ok.injEq, Prod.mk.injEq] at hopt
  obtain ⟨rfl, rfl⟩ := hopt
  have hnum : TradeWithMaterialBalance.numOfDeals ⟨((List.range k).map (blk m.sorted r)).reverse⟩ = k := by
    simp [TradeWithMaterialBalance.numOfDeals]
  rw [hnum] at hcount ⊢
  rw [gain_blks]
  have hOPT0 : 0 ≤ ∑ j ∈ Finset.range k, (blk m.sorted r j).sum :=
    Finset.sum_nonneg fun j hj => by
      have := (hk.taken j (Finset.mem_range.1 hj)).2
      unfold Good at this; push Not at this; exact this.1
  rcases Nat.eq_zero_or_pos d with hd0 | hd0
  · subst hd0
    have : g = 0 := by simpa [TradeWithSinglePrice.gainFromTrade] using hg.symm
    subst this
    refine ⟨hOPT0, fun _ hk0 => ?_⟩
    have : k = 1 := by have := hcount.1; simp only [TradeWithSinglePrice.numOfDeals] at this; omega
    subst this
    simp
  · obtain ⟨p', hp', hpl', hbal⟩ := hbb hd0
    obtain rfl : p = p' := by simpa using hp'
    have hpl : p.length = m.sorted.length := by rw [hpl', m.sorted_length]
    have hgain := outcome_gain h' hpl hinv.le hd0 hg
    simp only [if_true, sub_zero] at hgain
    -- sums of blocks as sums over categories
    have hblk : ∀ n, ∑ j ∈ Finset.range n, (blk m.sorted r j).sum
        = ∑ i ∈ Finset.range m.sorted.length, ((vAt m.sorted i).take (n * rAt r i)).sum := by
      intro n
      simp_rw [blk_sum h']
      rw [Finset.sum_comm]
      refine Finset.sum_congr rfl fun i _ => seg_sums _ _ _
    constructor
    · have h1 : g ≤ ∑ j ∈ Finset.range d, (blk m.sorted r j).sum := by
        rw [hgain, hblk]
        refine Finset.sum_le_sum fun i hi => ?_
        have hi' := Finset.mem_range.1 hi
        have hdi := hle i hi'
        rcases Nat.eq_zero_or_pos (rAt r i) with h0 | h0
        · simp [h0]
        · have hspos : (0 : ℚ) < s i := by
            have := Nat.mul_pos hd0 h0
            exact_mod_cast (by omega : 0 < s i)
          have hav := avg_prefix ((sorted_vAt m i).take (s i)) (n := d * rAt r i)
            (by rw [List.length_take, min_eq_left (hinv.le i)]; exact hdi)
          rw [List.length_take, min_eq_left (hinv.le i), List.take_take, min_eq_left hdi] at hav
          rw [mul_div_assoc', div_le_iff₀ hspos]
          rw [mul_comm (rAt r i) d]
          linarith
      refine le_trans h1 (hk.sum_le h (hk.stopped h hN hpos) ?_).1
      intro t ht' i hi
      exact le_trans (Nat.mul_le_mul_right _ ht') (le_trans (hle i hi) (hinv.le i))
    · intro hval hk0
      have hv : ∀ i < m.sorted.length, ∀ v ∈ vAt m.sorted i, -MAX_VALUE ≤ v ∧ (r.sum : ℚ) * v < MAX_VALUE := by
        intro i hi v hv
        have hi' : i < m.categories.length := by rw [m.sorted_length] at hi; exact hi
        rw [vAt_sorted, mem_sortDesc, vAt_eq_getElem hi'] at hv
        exact hval _ (List.getElem_mem hi') v hv
      have hsz := sizes_le h' hne hp he hmax (fun i hi v hv' => (hv i hi v hv').2)
      set A : ℕ → ℚ := fun i => if rAt r i = 0 then 0 else ((vAt m.sorted i).take (s i)).sum - s i * p.getD i 0 with hA
      have hdq : (0 : ℚ) < d := by exact_mod_cast hd0
      have hlow : ∀ i ∈ Finset.range m.sorted.length,
          d * (rAt r i * p.getD i 0) + d / (d + 1) * A i
            ≤ ((vAt m.sorted i).take (s i)).sum * ((rAt r i * d : ℕ) / (s i : ℚ)) := by
        intro i hi
        have hi' := Finset.mem_range.1 hi
        rcases Nat.eq_zero_or_pos (rAt r i) with h0 | h0
        · simp [hA, h0]
        · have hsep := (separation h' hne (sorted_vAt m) hp he hi').2 (fun v hv' => (hv i hi' v hv').1)
          have hAi : A i = ((vAt m.sorted i).take (s i)).sum - s i * p.getD i 0 := by simp [hA, h0.ne']
          have hA0 : 0 ≤ A i := by
            have := List.card_nsmul_le_sum _ _ hsep
            rw [List.length_take, min_eq_left (hinv.le i), nsmul_eq_mul] at this
            rw [hAi]; linarith
          have hspos : (0 : ℚ) < s i := by
            have := Nat.mul_pos hd0 h0
            have := hle i hi'
            exact_mod_cast (by omega : 0 < s i)
          have hsle : (s i : ℚ) ≤ (d + 1) * rAt r i := by exact_mod_cast hsz i (relevant_mem.2 ⟨hi', h0⟩)
          have e1 : ((vAt m.sorted i).take (s i)).sum = A i + s i * p.getD i 0 := by rw [hAi]; ring
          rw [e1]
          have e2 : (A i + s i * p.getD i 0) * ((rAt r i * d : ℕ) / (s i : ℚ))
              = d * (rAt r i * p.getD i 0) + A i * (rAt r i * d / s i) := by
            push_cast
            field_simp
            ring
          rw [e2]
          have e3 : (d : ℚ) / (d + 1) ≤ rAt r i * d / s i := by
            rw [div_le_div_iff₀ (by linarith) hspos]
            have := mul_le_mul_of_nonneg_left hsle hdq.le
            linarith
          have := mul_le_mul_of_nonneg_left e3 hA0
          linarith
      have hup : ∀ i ∈ Finset.range m.sorted.length,
          ((vAt m.sorted i).take (k * rAt r i)).sum ≤ k * (rAt r i * p.getD i 0) + A i := by
        intro i hi
        have hi' := Finset.mem_range.1 hi
        rcases Nat.eq_zero_or_pos (rAt r i) with h0 | h0
        · simp [hA, h0]
        · have hsep := separation h' hne (sorted_vAt m) hp he hi'
          have hAi : A i = ((vAt m.sorted i).take (s i)).sum - s i * p.getD i 0 := by simp [hA, h0.ne']
          have hkl : k * rAt r i ≤ (vAt m.sorted i).length := by
            have := (hk.taken (k - 1) (by omega)).1 i hi'
            rwa [show k - 1 + 1 = k by omega] at this
          have := prefix_shift (hinv.le i) (hsep.2 (fun v hv' => (hv i hi' v hv').1)) hsep.1 hkl
          rw [hAi]
          push_cast at this
          linarith
      have hs1 := Finset.sum_le_sum hlow
      have hs2 := Finset.sum_le_sum hup
      rw [← hgain, Finset.sum_add_distrib, ← Finset.mul_sum, ← Finset.mul_sum, ← recipeSum_eq_sum h' hpl, hbal] at hs1
      rw [Finset.sum_add_distrib, ← Finset.mul_sum, ← recipeSum_eq_sum h' hpl, hbal, ← hblk] at hs2
      set OPT := ∑ j ∈ Finset.range k, (blk m.sorted r j).sum
      set SA := ∑ i ∈ Finset.range m.sorted.length, A i
      have hkd : (k : ℚ) ≤ d + 1 := by exact_mod_cast hcount.1
      have hkq : (0 : ℚ) < k := by exact_mod_cast hk0
      have hfrac : 1 - 1 / (k : ℚ) ≤ d / (d + 1) := by
        have e : (d : ℚ) / (d + 1) = 1 - 1 / (d + 1) := by field_simp; ring
        rw [e]
        have := one_div_le_one_div_of_le hkq hkd
        linarith
      have hd1 : (0 : ℚ) ≤ (d : ℚ) / (d + 1) := div_nonneg hdq.le (by linarith)
      calc (1 - 1 / (k : ℚ)) * OPT ≤ d / (d + 1) * OPT := mul_le_mul_of_nonneg_right hfrac hOPT0
        _ ≤ d / (d + 1) * SA := mul_le_mul_of_nonneg_left (by linarith) hd1
        _ ≤ g := by linarith

/-- Non-vacuity of C16–C21: an auction with recipe `[1, 2]` that loses one of three optimal deals. All hypotheses hold. -/
example :
    let m : Market := ⟨[⟨"seller", [-4, -1, -3]⟩, ⟨"buyer", [9, 8, 7, 4, 2, 6]⟩]⟩
    auction m [1, 2] 10 = .ok (some ⟨[⟨"seller", [-1, -3]⟩, ⟨"buyer", [9, 8, 7, 6, 4, 2]⟩], [1, 2], some [-4, 2], 2⟩) ∧
      TradeWithSinglePrice.gainFromTrade
        ⟨[⟨"seller", [-1, -3]⟩, ⟨"buyer", [9, 8, 7, 6, 4, 2]⟩], [1, 2], some [-4, 2], 2⟩ = .ok 20 ∧
      m.optimalTrade [1, 2] = .ok (⟨[[-4, 4, 2], [-3, 7, 6], [-1, 9, 8]]⟩, ⟨[⟨"seller", []⟩, ⟨"buyer", []⟩]⟩) ∧
      m.numAgents < 10 ∧
      ∀ c ∈ m.categories, ∀ v ∈ c.values, -MAX_VALUE ≤ v ∧ (([1, 2] : List ℕ).sum : ℚ) * v < MAX_VALUE := by
  decide +kernel

end Auctions.Props
