import Verif.Proofs.Multirecipe
import Verif.Props.TreeAuction
import Mathlib.Algebra.Order.BigOperators.Group.Finset
import Mathlib.Algebra.BigOperators.Ring.Finset

set_option autoImplicit false

/-!
# C86 — the old auction with several recipes of zeros and ones
-/

namespace Auctions.Props

open Auctions Spec TreeAuction Auctions.Multirecipe

/-- **C86**. Recipes of the wrong length, with numbers other than 0 and 1, or with a category that is needed by some but not all recipes (more than one) are rejected: `ValueError`; so is an
empty list. -/
theorem multirecipe_rejects (order : List ℕ → List ℕ) (f : List (List ℕ) → ℚ → Py (List ℚ)) (m : Market) {R : List (List ℕ)} (h : ¬ MultiRecipes m.numCategories R)
    (fuel : ℕ) : Multirecipe.auction order f m R fuel = .error .valueError := by
  unfold Multirecipe.auction
  rw [auctionLoop]
  by_cases hv : validRecipes m.numCategories R = true
  · rw [if_neg (by simp [hv])]
    obtain ⟨h1, h2, h3⟩ := validRecipes_iff.1 hv
    have : analyzeRecipes m.numCategories R = .error .valueError := by
      apply analyze_error
      by_contra hno
      refine h ⟨h1, h2, h3, fun c hc => ?_⟩
      by_contra hc'
      exact hno ⟨c, hc, hc'⟩
    rw [this]; rfl
  · rw [if_pos (by simpa using hv)]

/-- **C86**. If some recipe has no category of its own, the auction raises an exception: it never returns. -/
theorem multirecipe_needs_own {order : List ℕ → List ℕ} (ho : ∀ l, (order l).Perm l) (f : List (List ℕ) → ℚ → Py (List ℚ)) (m : Market) {R : List (List ℕ)} (h : ¬ AllOwn R)
    (fuel : ℕ) (t : Multirecipe.Trade) : Multirecipe.auction order f m R fuel ≠ .ok (some t) := by
  by_cases hR : MultiRecipes m.numCategories R
  · obtain ⟨a, ha1, ha⟩ := analyze_ok hR
    have hnil : [] ∈ a.unique := by
      unfold AllOwn at h
      push Not at h
      obtain ⟨k, hk, hno⟩ := h
      have he : a.unique.getD k [] = [] := by
        rw [List.eq_nil_iff_forall_not_mem]
        intro c hc
        exact hno c ((ha.mem_unique hR hk).1 hc)
      have hk' : k < a.unique.length := by rw [ha.length]; exact hk
      rw [← he]
      exact by simp [List.getD_eq_getElem?_getD, hk']
    intro hok
    unfold Multirecipe.auction at hok
    rw [auctionLoop, if_neg (by simp [validRecipes_iff.2 ⟨hR.nonempty, hR.length, hR.binary⟩]), ha1] at hok
    obtain ⟨a', ha', hok⟩ := bind_ok_iff.1 hok
    cases ha'
    obtain ⟨rem, -, hok⟩ := bind_ok_iff.1 hok
    obtain ⟨p0, -, hok⟩ := bind_ok_iff.1 hok
    obtain ⟨ps, -, hok⟩ := bind_ok_iff.1 hok
    obtain ⟨o, hl, hok⟩ := bind_ok_iff.1 hok
    cases fuel with
    | zero => rw [Multirecipe.loop] at hl; cases hl; simp at hok
    | succ fuel =>
      rw [Multirecipe.loop] at hl
      obtain ⟨i, mm, hc, -⟩ := common_ok ho rem.categories a
      rw [hc, largestUnique_error ho _ hnil] at hl
      simp [bind, Except.bind] at hl
  · rw [multirecipe_rejects _ _ _ hR]; simp

theorem multirecipe_outcome {order : List ℕ → List ℕ} (ho : ∀ l, (order l).Perm l) {f : List (List ℕ) → ℚ → Py (List ℚ)} (hf : PriceContract f) {m : Market}
    (hval : ∀ l ∈ m.valueLists, ∀ x ∈ l, -MAX_VALUE ≤ x) {R : List (List ℕ)} {fuel : ℕ} {t : Multirecipe.Trade} (h : Multirecipe.auction order f m R fuel = .ok (some t)) :
    MultiRecipes m.numCategories R ∧ AllOwn R ∧ Returned m R t := by
  have hR : MultiRecipes m.numCategories R := by
    by_contra hR; rw [multirecipe_rejects _ _ _ hR] at h; simp at h
  have hown : AllOwn R := by
    by_contra hown; exact multirecipe_needs_own ho f m hown fuel t h
  refine ⟨hR, hown, ?_⟩
  unfold Multirecipe.auction at h
  rcases auction_end ho hf hval hR hown fuel (R.length + 1) (by omega) with ⟨_, _, -, -, -, -, e⟩ | ⟨-, e⟩ | ⟨-, e⟩ | ⟨t', e, e'⟩
  · rw [h] at e; simp at e
  · rw [h] at e; simp at e
  · rw [h] at e; simp at e
  · rw [h] at e; simp at e; rw [e]; exact e'

/-- The agents of category `i` in the outcome. -/
def multiRemaining (t : Multirecipe.Trade) (i : ℕ) : List ℚ := (t.categories.map AgentCategory.values).getD i []

theorem multiRemaining_eq (t : Multirecipe.Trade) (i : ℕ) : multiRemaining t i = valuesAt t.categories i := by
  unfold multiRemaining valuesAt
  rw [List.getD_eq_getElem?_getD, List.getElem?_map]
  cases t.categories[i]? <;> rfl

/-- **C86**. What is returned (for any order in which Python runs through a set, and any solver that meets the documented contract): a trade for some of the given recipes. If there are
deals, the prices of each of these recipes sum to 0. Every remaining agent has a value of at least the price of its category, and those who left have a value of at most that price; no
agent is added or lost. -/
theorem multirecipe_fair {order : List ℕ → List ℕ} (ho : ∀ l, (order l).Perm l) {f : List (List ℕ) → ℚ → Py (List ℚ)} (hf : PriceContract f) {m : Market}
    (hval : ∀ l ∈ m.valueLists, ∀ x ∈ l, -MAX_VALUE ≤ x) {R : List (List ℕ)} {fuel : ℕ} {t : Multirecipe.Trade} (h : Multirecipe.auction order f m R fuel = .ok (some t)) :
    (t.psRecipes.Sublist R ∧ t.psRecipes ≠ []) ∧
    (t.numOfDeals ≠ 0 → ∀ r ∈ t.psRecipes, recipeSum r t.prices = 0) ∧
    ∀ i, (∀ x ∈ multiRemaining t i, t.prices.getD i 0 ≤ x) ∧
      ∃ out : List ℚ, (multiRemaining t i ++ out).Perm (m.valueLists.getD i []) ∧ ∀ x ∈ out, x ≤ t.prices.getD i 0 := by
  obtain ⟨-, -, R', cats, v, s, h1, h2, h3, h4, h5, h6⟩ := multirecipe_outcome ho hf hval h
  obtain ⟨u, b, hi, hu, -⟩ := Multirecipe.init_ok h2 h3 h5.len v.prices
  rw [hi] at h4
  cases h4
  refine ⟨⟨h1, h2.nonempty⟩, ?_, fun i => ⟨?_, ?_⟩⟩
  · intro hd r hr
    rcases h6 with rfl | h6
    · exact h5.balanced r hr
    · exfalso; apply hd
      have : ∑ k ∈ Finset.range R'.length, u k = 0 := by
        refine Finset.sum_eq_zero fun k hk => ?_
        obtain ⟨-, c, hc, e⟩ := hu k (Finset.mem_range.1 hk)
        rw [e, h6 k (Finset.mem_range.1 hk) c hc]
      simp [this]
  · intro x hx
    rw [multiRemaining_eq] at hx
    exact h5.rational i x hx
  · obtain ⟨k, e1, e2⟩ := h5.left i
    refine ⟨(valuesAt m.sorted i).drop k, ?_, e2⟩
    rw [multiRemaining_eq]
    show (valuesAt cats i ++ _).Perm _
    rw [e1, List.take_append_drop, valuesAt_sorted]
    exact sortDesc_perm _

theorem exists_split (N : ℕ) (u : ℕ → ℕ) {b : ℕ} (h : b ≤ ∑ k ∈ Finset.range N, u k) : ∃ d : ℕ → ℕ, (∀ k, d k ≤ u k) ∧ ∑ k ∈ Finset.range N, d k = b := by
  induction N generalizing b with
  | zero =>
    simp only [Finset.range_zero, Finset.sum_empty, Nat.le_zero] at h
    exact ⟨fun _ => 0, fun _ => Nat.zero_le _, by simp [h]⟩
  | succ N ih =>
    rw [Finset.sum_range_succ] at h
    obtain ⟨d, h1, h2⟩ := ih (b := b - min (u N) b) (by omega)
    refine ⟨fun k => if k = N then min (u N) b else d k, fun k => ?_, ?_⟩
    · simp only
      split
      · rename_i e; subst e; exact min_le_left _ _
      · exact h1 k
    · rw [Finset.sum_range_succ]
      have : ∑ k ∈ Finset.range N, (if k = N then min (u N) b else d k) = ∑ k ∈ Finset.range N, d k := by
        refine Finset.sum_congr rfl fun k hk => ?_
        rw [if_neg]; have := Finset.mem_range.1 hk; omega
      rw [this, h2]; simp only [if_true]; omega

theorem count_le_one {n : ℕ} {R : List (List ℕ)} (hR : MultiRecipes n R) {k : ℕ} (hk : k < R.length) (c : ℕ) : (R.getD k []).getD c 0 = if Uses R k c then 1 else 0 := by
  split
  · rename_i h
    rw [List.getD_eq_getElem?_getD (l := R.getD k []), (uses_iff hR hk).2 h]; rfl
  · rename_i h
    unfold Uses at h; omega

/-- **C86**. The number of deals that is reported: procurement-sets of the remaining recipes can be formed from the remaining agents, that many in total; and never more (up to `MAX_VALUE`,
if no category is common). -/
theorem multirecipe_deals {order : List ℕ → List ℕ} (ho : ∀ l, (order l).Perm l) {f : List (List ℕ) → ℚ → Py (List ℚ)} (hf : PriceContract f) {m : Market}
    (hval : ∀ l ∈ m.valueLists, ∀ x ∈ l, -MAX_VALUE ≤ x) {R : List (List ℕ)} {fuel : ℕ} {t : Multirecipe.Trade} (h : Multirecipe.auction order f m R fuel = .ok (some t)) :
    (∃ deals, CanForm t.psRecipes (fun i => (multiRemaining t i).length) deals ∧ ∑ k ∈ Finset.range t.psRecipes.length, deals k = t.numOfDeals) ∧
    ∀ deals, CanForm t.psRecipes (fun i => (multiRemaining t i).length) deals → (∑ k ∈ Finset.range t.psRecipes.length, deals k ≤ 100000000) →
      ∑ k ∈ Finset.range t.psRecipes.length, deals k ≤ t.numOfDeals := by
  obtain ⟨-, -, R', cats, v, s, h1, h2, h3, h4, h5, h6⟩ := multirecipe_outcome ho hf hval h
  obtain ⟨u, b, hi, hu, hb, hb'⟩ := Multirecipe.init_ok h2 h3 h5.len v.prices
  rw [hi] at h4
  cases h4
  have hrem : ∀ ps dd i, (multiRemaining ⟨cats, R', ps, dd⟩ i).length = sizeAt cats i := by
    intro ps dd i; rw [multiRemaining_eq, sizeAt_eq]
  simp only [CanForm, hrem]
  constructor
  · obtain ⟨d, hd1, hd2⟩ := exists_split R'.length u (b := min (∑ k ∈ Finset.range R'.length, u k) b) (min_le_left _ _)
    refine ⟨d, fun c => ?_, hd2⟩
    by_cases hc : c < m.numCategories
    · rcases h2.shared c hc with hs | hs
      · by_cases hex : ∃ k < R'.length, Uses R' k c
        · obtain ⟨k, hk, huse⟩ := hex
          rw [Finset.sum_eq_single_of_mem k (Finset.mem_range.2 hk)]
          · rw [count_le_one h2 hk, if_pos huse, one_mul]
            exact (hd1 k).trans ((hu k hk).1 c ⟨huse, fun j hj uj => hs j hj k hk uj huse⟩)
          · intro j hj hjk
            rw [count_le_one h2 (Finset.mem_range.1 hj), if_neg, zero_mul]
            intro uj; exact hjk (hs j (Finset.mem_range.1 hj) k hk uj huse)
        · rw [Finset.sum_eq_zero]
          · exact Nat.zero_le _
          · intro k hk
            rw [count_le_one h2 (Finset.mem_range.1 hk), if_neg, zero_mul]
            exact fun uk => hex ⟨k, Finset.mem_range.1 hk, uk⟩
      · by_cases h2' : 2 ≤ R'.length
        · have : ∑ k ∈ Finset.range R'.length, (R'.getD k []).getD c 0 * d k = ∑ k ∈ Finset.range R'.length, d k := by
            refine Finset.sum_congr rfl fun k hk => ?_
            rw [count_le_one h2 (Finset.mem_range.1 hk), if_pos (hs k (Finset.mem_range.1 hk)), one_mul]
          rw [this, hd2]
          exact (min_le_right _ _).trans (hb c ⟨h2', hs⟩)
        · have hlen : R'.length = 1 := by
            have := List.length_pos_iff.2 h2.nonempty; omega
          rw [hlen, Finset.sum_range_one, count_le_one h2 (by omega), if_pos (hs 0 (by omega)), one_mul]
          exact (hd1 0).trans ((hu 0 (by omega)).1 c ⟨hs 0 (by omega), fun j hj _ => by omega⟩)
    · rw [Finset.sum_eq_zero]
      · exact Nat.zero_le _
      · intro k hk
        rw [count_le_one h2 (Finset.mem_range.1 hk), if_neg, zero_mul]
        exact fun uk => hc (uses_lt h2.length (Finset.mem_range.1 hk) uk)
  · intro d hd hle
    refine le_min ?_ ?_
    · refine Finset.sum_le_sum fun k hk => ?_
      obtain ⟨-, c, hc, e⟩ := hu k (Finset.mem_range.1 hk)
      rw [e]
      refine le_trans ?_ (hd c)
      have := Finset.single_le_sum (f := fun k => (R'.getD k []).getD c 0 * d k) (fun _ _ => Nat.zero_le _) hk
      simpa only [count_le_one h2 (Finset.mem_range.1 hk), if_pos hc.1, one_mul] using this
    · rcases hb' with ⟨c, hc, rfl⟩ | ⟨-, rfl⟩
      · refine le_trans (le_of_eq ?_) (hd c)
        refine Finset.sum_congr rfl fun k hk => ?_
        rw [count_le_one h2 (Finset.mem_range.1 hk), if_pos (hc.2 k (Finset.mem_range.1 hk)), one_mul]
      · exact hle

/-- Initial prices exist if every recipe has a category of its own. -/
theorem initial_prices_exist {n : ℕ} {R : List (List ℕ)} (hR : MultiRecipes n R) (hown : AllOwn R) : ∃ p, InitialPrices R (-MAX_VALUE) p := by
  classical
  choose! pick hpick using hown
  have hM := max_value_pos
  let cnt : ℕ → ℚ := fun k => ∑ c ∈ Finset.range n, ((R.getD k []).getD c 0 : ℚ)
  have hcnt : ∀ k < R.length, cnt k ≤ n := by
    intro k hk
    have : cnt k ≤ ∑ c ∈ Finset.range n, (1 : ℚ) := by
      refine Finset.sum_le_sum fun c _ => ?_
      rw [count_le_one hR hk]; split <;> norm_num
    simpa using this
  let pr : ℕ → ℚ := fun c => -MAX_VALUE - ∑ k ∈ Finset.range R.length, if pick k = c then MAX_VALUE * (n - cnt k) else 0
  refine ⟨(List.range n).map pr, ?_, ?_, -MAX_VALUE * n, ?_⟩
  · intro r hr; rw [hR.length r hr]; simp
  · intro x hx
    obtain ⟨c, -, rfl⟩ := List.mem_map.1 hx
    have : 0 ≤ ∑ k ∈ Finset.range R.length, if pick k = c then MAX_VALUE * (n - cnt k) else 0 := by
      refine Finset.sum_nonneg fun k hk => ?_
      split
      · exact mul_nonneg hM.le (by have := hcnt k (Finset.mem_range.1 hk); linarith)
      · exact le_refl _
    simp only [pr]; linarith
  · intro r hr
    obtain ⟨k, hk, rfl⟩ := List.getElem_of_mem hr
    have hrk : R[k] = R.getD k [] := by simp [List.getD_eq_getElem?_getD, hk]
    rw [hrk, recipeSum_eq_sum (n := n) (hR.length _ (Multirecipe.getD_mem hk)) (by simp)]
    have h1 : ∀ c ∈ Finset.range n, (rAt (R.getD k []) c : ℚ) * ((List.range n).map pr).getD c 0
        = -MAX_VALUE * ((R.getD k []).getD c 0 : ℚ) - ∑ j ∈ Finset.range R.length, if pick j = c then ((R.getD k []).getD c 0 : ℚ) * (MAX_VALUE * (n - cnt j)) else 0 := by
      intro c hc
      have hc' := Finset.mem_range.1 hc
      have e1 : ((List.range n).map pr).getD c 0 = pr c := by simp [List.getD_eq_getElem?_getD, hc']
      have e2 : rAt (R.getD k []) c = (R.getD k []).getD c 0 := rfl
      rw [e1, e2]
      simp only [pr]
      rw [mul_sub, Finset.mul_sum]
      congr 1
      · ring
      · refine Finset.sum_congr rfl fun j _ => ?_
        split <;> simp
    rw [Finset.sum_congr rfl h1, Finset.sum_sub_distrib, ← Finset.mul_sum, Finset.sum_comm]
    have h2 : ∑ j ∈ Finset.range R.length, ∑ c ∈ Finset.range n, (if pick j = c then ((R.getD k []).getD c 0 : ℚ) * (MAX_VALUE * (n - cnt j)) else 0) = MAX_VALUE * (n - cnt k) := by
      rw [Finset.sum_eq_single_of_mem k (Finset.mem_range.2 hk)]
      · rw [Finset.sum_ite_eq, if_pos (Finset.mem_range.2 (uses_lt hR.length hk (hpick k hk).1)), count_le_one hR hk, if_pos (hpick k hk).1]
        simp
      · intro j hj hjk
        rw [Finset.sum_ite_eq, if_pos (Finset.mem_range.2 (uses_lt hR.length (Finset.mem_range.1 hj) (hpick j (Finset.mem_range.1 hj)).1)), count_le_one hR hk, if_neg]
        · simp
        · intro hu
          exact hjk ((hpick j (Finset.mem_range.1 hj)).2 k hk hu).symm
    rw [h2]
    show -MAX_VALUE * cnt k - _ = _
    ring

/-- **C86**. With recipes that are accepted, each with a category of its own, the auction ends: it returns, or — only if a category is needed by all of at least two recipes — raises
`ValueError`. -/
theorem multirecipe_ends {order : List ℕ → List ℕ} (ho : ∀ l, (order l).Perm l) {f : List (List ℕ) → ℚ → Py (List ℚ)} (hf : PriceContract f) (hf' : PriceComplete f) {m : Market}
    (hval : ∀ l ∈ m.valueLists, ∀ x ∈ l, -MAX_VALUE ≤ x) {R : List (List ℕ)} (hR : MultiRecipes m.numCategories R) (hown : AllOwn R) {fuel : ℕ} (hfuel : m.numAgents < fuel) :
    (∃ t, Multirecipe.auction order f m R fuel = .ok (some t)) ∨
    ((∃ c, SharedByAll R c) ∧ Multirecipe.auction order f m R fuel = .error .valueError) := by
  unfold Multirecipe.auction
  rcases auction_end ho hf hval hR hown fuel (R.length + 1) (by omega) with ⟨e, R', -, h1, h2, h3, -⟩ | ⟨h1, -⟩ | h1 | ⟨t, h1, -⟩
  · obtain ⟨p, hp⟩ := hf' R' (-MAX_VALUE) (initial_prices_exist h1 h2)
    rw [hp] at h3; simp at h3
  · omega
  · exact Or.inr h1
  · exact Or.inl ⟨t, h1⟩

/-- **C86**. If the returned trade is for several recipes that share a category (as in all examples of the documentation with several recipes), it has no deals, unless values are huge. -/
theorem multirecipe_no_deals {order : List ℕ → List ℕ} (ho : ∀ l, (order l).Perm l) {f : List (List ℕ) → ℚ → Py (List ℚ)} (hf : PriceContract f) {m : Market}
    (hval : ∀ l ∈ m.valueLists, ∀ x ∈ l, -MAX_VALUE ≤ x ∧ m.numCategories * x ≤ MAX_VALUE) {R : List (List ℕ)} {fuel : ℕ} {t : Multirecipe.Trade}
    (h : Multirecipe.auction order f m R fuel = .ok (some t)) {c : ℕ} (hc : SharedByAll t.psRecipes c) :
    t.numOfDeals = 0 ∧ t.repr = some "No trade" ∧ t.gainFromTrade = some 0 := by
  have key : t.numOfDeals = 0 := by
    by_contra hd
    obtain ⟨-, -, R', cats, v, s, h1, h2, h3, h4, h5, h6⟩ := multirecipe_outcome ho hf (fun l hl x hx => (hval l hl x hx).1) h
    have hbal := (multirecipe_fair ho hf (fun l hl x hx => (hval l hl x hx).1) h).2.1 hd
    obtain ⟨u, b, hi, -⟩ := Multirecipe.init_ok h2 h3 h5.len v.prices
    rw [hi] at h4
    cases h4
    have hc : SharedByAll R' c := hc
    have hpos : 0 < R'.length := by have := hc.1; omega
    have h0 := hbal _ (Multirecipe.getD_mem hpos)
    have hcn : c < m.numCategories := uses_lt h2.length hpos (hc.2 0 hpos)
    have hM := max_value_pos
    have hn : (0 : ℚ) < m.numCategories := by exact_mod_cast (by omega : 0 < m.numCategories)
    rw [recipeSum_eq_sum (n := m.numCategories) (h2.length _ (Multirecipe.getD_mem hpos)) h5.plen] at h0
    have hle : ∀ i ∈ Finset.range m.numCategories, (rAt (R'.getD 0 []) i : ℚ) * v.prices.getD i 0 ≤ if i = c then -MAX_VALUE else MAX_VALUE / m.numCategories := by
      intro i hi
      have hi' := Finset.mem_range.1 hi
      have e2 : rAt (R'.getD 0 []) i = (R'.getD 0 []).getD i 0 := rfl
      by_cases hic : i = c
      · subst hic
        rw [if_pos rfl, e2, count_le_one h2 hpos, if_pos (hc.2 0 hpos)]
        have := h5.untouched i hc
        simpa [priceAt] using this
      · rw [if_neg hic, e2, count_le_one h2 hpos]
        split
        · simp only [Nat.cast_one, one_mul]
          rcases h5.low i hi' with hl | ⟨x, hx, hl⟩
          · exact le_trans hl (by have := div_nonneg hM.le hn.le; linarith)
          · refine le_trans hl ?_
            rw [le_div_iff₀ hn]
            rw [valuesAt_sorted, mem_sortDesc] at hx
            have hil : i < m.valueLists.length := by simpa [Market.valueLists, Market.numCategories] using hi'
            have := (hval (m.valueLists.getD i []) (by rw [List.getD_eq_getElem?_getD, List.getElem?_eq_getElem hil]; exact List.getElem_mem hil) x hx).2
            linarith
        · simp only [Nat.cast_zero, zero_mul]
          exact div_nonneg hM.le hn.le
    have hsum := Finset.sum_le_sum hle
    rw [h0, ← Finset.add_sum_erase _ _ (Finset.mem_range.2 hcn), if_pos rfl] at hsum
    have : ∑ i ∈ (Finset.range m.numCategories).erase c, (if i = c then -MAX_VALUE else MAX_VALUE / m.numCategories)
        = (m.numCategories - 1 : ℚ) * (MAX_VALUE / m.numCategories) := by
      rw [Finset.sum_congr rfl (fun i hi => if_neg (Finset.ne_of_mem_erase hi)), Finset.sum_const, Finset.card_erase_of_mem (Finset.mem_range.2 hcn), Finset.card_range, nsmul_eq_mul]
      congr 1
      rw [Nat.cast_sub (by omega)]; simp
    rw [this] at hsum
    have e : (m.numCategories - 1 : ℚ) * (MAX_VALUE / m.numCategories) = MAX_VALUE - MAX_VALUE / m.numCategories := by
      field_simp
    rw [e] at hsum
    have := div_pos hM hn
    linarith
  exact ⟨key, by simp [Multirecipe.Trade.repr, key], by simp [Multirecipe.Trade.gainFromTrade, key]⟩

/-- **C86**. If all of at least two recipes need a category `c`, which has at least as many agents as any own categories of the recipes (one of each) together, and these are not all empty:
`ValueError`, whatever the values are. -/
theorem multirecipe_common_error {order : List ℕ → List ℕ} (ho : ∀ l, (order l).Perm l) {f : List (List ℕ) → ℚ → Py (List ℚ)} (hf : PriceContract f) (hf' : PriceComplete f) {m : Market}
    (hval : ∀ l ∈ m.valueLists, ∀ x ∈ l, -MAX_VALUE ≤ x) {R : List (List ℕ)} (hR : MultiRecipes m.numCategories R) (hown : AllOwn R) {c : ℕ} (hc : SharedByAll R c)
    (hne : ∃ k < R.length, ∃ i, Owns R k i ∧ m.valueLists.getD i [] ≠ [])
    (hle : ∀ own : ℕ → ℕ, (∀ k < R.length, Owns R k (own k)) → ∑ k ∈ Finset.range R.length, (m.valueLists.getD (own k) []).length ≤ (m.valueLists.getD c []).length)
    {fuel : ℕ} (hfuel : 0 < fuel) : Multirecipe.auction order f m R fuel = .error .valueError := by
  obtain ⟨fuel, rfl⟩ : ∃ k, fuel = k + 1 := ⟨fuel - 1, by omega⟩
  unfold Multirecipe.auction
  obtain ⟨a, ha, heq⟩ := auctionLoop_eq hR hown order f (fuel + 1) R.length
  obtain ⟨p0, hp⟩ := hf' R (-MAX_VALUE) (initial_prices_exist hR hown)
  obtain ⟨s, hs, hinv⟩ := start hR hown (hf _ _ _ hp) hval
  have hsize : ∀ i, sizeAt m.sorted i = (m.valueLists.getD i []).length := by
    intro i; rw [sizeAt_eq, valuesAt_sorted, sortDesc_length]
  rw [heq, hp]
  simp only [bind, Except.bind]
  rw [loop_common ho hR hown ha hinv hs fuel hc]
  · obtain ⟨k, hk, i, hi, h0⟩ := hne
    exact ⟨k, hk, i, hi, by rw [hsize]; exact fun e => h0 (List.length_eq_zero_iff.1 e)⟩
  · intro L hL
    have h1 := hle (fun k => L.getD k 0) hL.owns
    have h2 : ∀ l : List ℕ, (l.map (sizeAt m.sorted)).sum = ∑ k ∈ Finset.range l.length, sizeAt m.sorted (l.getD k 0) := by
      intro l
      induction l with
      | nil => simp
      | cons x l ih => rw [List.length_cons, Finset.sum_range_succ', List.map_cons, List.sum_cons, ih]; simp [add_comm]
    rw [h2, hL.length]
    simp only [hsize]
    exact h1

/-- The two recipes of the unit tests and the documentation. -/
theorem two_recipes : (MultiRecipes 3 [[1, 1, 0], [1, 0, 1]] ∧ AllOwn [[1, 1, 0], [1, 0, 1]] ∧ SharedByAll [[1, 1, 0], [1, 0, 1]] 0) ∧
    MultiRecipes 4 [[1, 1, 0, 0], [1, 0, 1, 1]] ∧ AllOwn [[1, 1, 0, 0], [1, 0, 1, 1]] ∧ SharedByAll [[1, 1, 0, 0], [1, 0, 1, 1]] 0 := by
  refine ⟨⟨⟨by simp, by decide, by decide, by decide⟩, ?_, by decide, by decide⟩, ⟨by simp, by decide, by decide, by decide⟩, ?_, by decide, by decide⟩
  · intro k hk
    match k, hk with
    | 0, _ => exact ⟨1, by decide, by decide⟩
    | 1, _ => exact ⟨2, by decide, by decide⟩
  · intro k hk
    match k, hk with
    | 0, _ => exact ⟨1, by decide, by decide⟩
    | 1, _ => exact ⟨2, by decide, by decide⟩

/-- **C86**. The recipes `[1,1,0]` and `[1,0,1]` of the unit tests: whenever there are at least as many buyers as sellers of both kinds together, and a seller, the auction raises
`ValueError` — on all markets of these unit tests (which expect deals). -/
theorem multirecipe_unit_tests {order : List ℕ → List ℕ} (ho : ∀ l, (order l).Perm l) {f : List (List ℕ) → ℚ → Py (List ℚ)} (hf : PriceContract f) (hf' : PriceComplete f)
    {nb na ns : String} {buyers sellersA sellersB : List ℚ} (hval : ∀ x ∈ buyers ++ sellersA ++ sellersB, -MAX_VALUE ≤ x)
    (h0 : 0 < sellersA.length + sellersB.length) (hle : sellersA.length + sellersB.length ≤ buyers.length) {fuel : ℕ} (hfuel : 0 < fuel) :
    Multirecipe.auction order f ⟨[⟨nb, buyers⟩, ⟨na, sellersA⟩, ⟨ns, sellersB⟩]⟩ [[1, 1, 0], [1, 0, 1]] fuel = .error .valueError := by
  obtain ⟨⟨h1, h2, h3⟩, -⟩ := two_recipes
  have o0 : ∀ c, Owns [[1, 1, 0], [1, 0, 1]] 0 c → c = 1 := by
    rintro c ⟨hc, hc'⟩
    match c with
    | 0 => exact absurd (hc' 1 (by decide) (by decide)) (by decide)
    | 1 => rfl
    | 2 => exact absurd hc (by decide)
    | c + 3 => simp [Uses] at hc
  have o1 : ∀ c, Owns [[1, 1, 0], [1, 0, 1]] 1 c → c = 2 := by
    rintro c ⟨hc, hc'⟩
    match c with
    | 0 => exact absurd (hc' 0 (by decide) (by decide)) (by decide)
    | 1 => exact absurd hc (by decide)
    | 2 => rfl
    | c + 3 => simp [Uses] at hc
  refine multirecipe_common_error (m := ⟨[⟨nb, buyers⟩, ⟨na, sellersA⟩, ⟨ns, sellersB⟩]⟩) ho hf hf' ?_ h1 h2 h3 ?_ ?_ hfuel
  · intro l hl x hx
    simp only [Market.valueLists, List.map_cons, List.map_nil, List.mem_cons, List.not_mem_nil, or_false] at hl
    rcases hl with rfl | rfl | rfl
    · exact hval x (by simp [hx])
    · exact hval x (by simp [hx])
    · exact hval x (by simp [hx])
  · by_cases hA : sellersA = []
    · refine ⟨1, by decide, 2, ⟨by decide, by decide⟩, ?_⟩
      simp only [Market.valueLists, List.map_cons, List.map_nil]
      intro e
      have : sellersB = [] := e
      simp [hA, this] at h0
    · exact ⟨0, by decide, 1, ⟨by decide, by decide⟩, hA⟩
  · intro own ho
    have e0 := o0 _ (ho 0 (by decide))
    have e1 := o1 _ (ho 1 (by decide))
    simp only [List.length_cons, List.length_nil, Finset.sum_range_succ, Finset.range_zero, Finset.sum_empty, e0, e1, zero_add]
    simpa [Market.valueLists] using hle

/-- Non-vacuity of C86: two recipes without a common category trade (`[1,1,0,0]` and `[0,0,1,1]`); of two recipes with a common category, one is deleted, and the rest trades; and a unit test. -/
example :
    let f := fixedSolver [-100000000, -100000000, -100000000, -100000000]
    let g := fixedSolver [-100000000, -100000000, -100000000]
    let m : Market := ⟨[⟨"buyer", [19, 17, 15]⟩, ⟨"seller", [-12, -10, -8]⟩, ⟨"b2", [9, 8]⟩, ⟨"s2", [-3, -4]⟩]⟩
    let m' : Market := ⟨[⟨"buyer", [19, 17]⟩, ⟨"A", [-12, -10, -8]⟩, ⟨"B", []⟩]⟩
    MultiRecipes 4 [[1, 1, 0, 0], [0, 0, 1, 1]] ∧
    (Multirecipe.auction id f m [[1, 1, 0, 0], [0, 0, 1, 1]] 100).map (fun o => o.map (fun t => (t.numOfDeals, t.prices, t.psRecipes)))
      = .ok (some (3, [15, -15, 8, -8], [[1, 1, 0, 0], [0, 0, 1, 1]])) ∧
    (Multirecipe.auction id g m' [[1, 1, 0], [1, 0, 1]] 100).map (fun o => o.map (fun t => (t.numOfDeals, t.prices, t.psRecipes)))
      = .ok (some (2, [12, -12, -100000000], [[1, 1, 0]])) ∧
    Multirecipe.auction id g ⟨[⟨"buyer", [9, 8]⟩, ⟨"sellerA", [-4]⟩, ⟨"sellerB", [-3]⟩]⟩ [[1, 1, 0], [1, 0, 1]] 100 = .error .valueError := by
  intro f g m m'
  refine ⟨⟨by simp, by decide, by decide, by decide⟩, ?_, ?_, ?_⟩ <;> decide +kernel

end Auctions.Props
