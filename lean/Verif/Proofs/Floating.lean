import Verif.Proofs.FloatingBasic

set_option autoImplicit false

/-! # The optimal trade and the ascending auction with rounded arithmetic -/

namespace Auctions.Floating

open Auctions.Spec

/-- All values are whole numbers of absolute value at most `M`. -/
def SmallMarket (M : ℕ) (cs : List AgentCategory) : Prop := ∀ c ∈ cs, ∀ v ∈ c.values, Small M v

theorem highest_small {M : ℕ} {cs : List AgentCategory} (h : SmallMarket M cs) {r : List ℕ} {ps : List ℚ} (hps : Market.getHighestAgentsLoop cs r = .ok (some ps)) :
    (∀ v ∈ ps, Small M v) ∧ ps.length ≤ r.sum := by
  induction cs generalizing r ps with
  | nil =>
    simp only [Market.getHighestAgentsLoop, Except.ok.injEq, Option.some.injEq] at hps
    subst hps
    simp
  | cons c cs ih =>
    cases r with
    | nil => simp [Market.getHighestAgentsLoop] at hps
    | cons n r =>
      unfold Market.getHighestAgentsLoop at hps
      split_ifs at hps with hsz
      · simp at hps
      cases hrec : Market.getHighestAgentsLoop cs r with
      | error e => rw [hrec] at hps; simp [bind, Except.bind] at hps
      | ok o =>
        rw [hrec] at hps
        cases o with
        | none => simp [bind, Except.bind] at hps
        | some qs =>
          simp only [bind, Except.bind, Except.ok.injEq, Option.some.injEq] at hps
          subst hps
          obtain ⟨h1, h2⟩ := ih (fun d hd => h d (by simp [hd])) hrec
          refine ⟨fun v hv => ?_, ?_⟩
          · rcases List.mem_append.1 hv with hv | hv
            · exact h c (by simp) v (List.mem_of_mem_take hv)
            · exact h1 v hv
          · simp only [List.length_append, AgentCategory.highestAgentValues, List.length_take, List.sum_cons]
            omega

theorem removeHighest_small {M : ℕ} {c : AgentCategory} (h : ∀ v ∈ c.values, Small M v) {n : ℕ} {c' : AgentCategory} (hc : c.removeHighestAgents n = .ok c') :
    (∀ v ∈ c'.values, Small M v) ∧ c'.values.length ≤ c.values.length := by
  induction n generalizing c with
  | zero =>
    simp only [AgentCategory.removeHighestAgents, Except.ok.injEq] at hc
    subst hc
    exact ⟨h, le_refl _⟩
  | succ n ih =>
    unfold AgentCategory.removeHighestAgents AgentCategory.removeHighestAgent at hc
    cases hv : c.values with
    | nil => rw [hv] at hc; simp [bind, Except.bind] at hc
    | cons v vs =>
      rw [hv] at hc
      simp only [bind, Except.bind] at hc
      obtain ⟨h1, h2⟩ := ih (c := { c with values := vs }) (fun w hw => h w (by rw [hv]; simp [show w ∈ vs from hw])) hc
      refine ⟨h1, h2.trans ?_⟩
      simp

theorem removeHighestLoop_small {M : ℕ} {cs : List AgentCategory} (h : SmallMarket M cs) {r : List ℕ} {cs' : List AgentCategory}
    (hcs : Market.removeHighestAgentsLoop cs r = .ok cs') : SmallMarket M cs' := by
  induction cs generalizing r cs' with
  | nil =>
    simp only [Market.removeHighestAgentsLoop, Except.ok.injEq] at hcs
    subst hcs
    exact h
  | cons c cs ih =>
    cases r with
    | nil => simp [Market.removeHighestAgentsLoop] at hcs
    | cons n r =>
      unfold Market.removeHighestAgentsLoop at hcs
      cases h1 : c.removeHighestAgents n with
      | error e => rw [h1] at hcs; simp [bind, Except.bind] at hcs
      | ok c' =>
        rw [h1] at hcs
        simp only [bind, Except.bind] at hcs
        cases h2 : Market.removeHighestAgentsLoop cs r with
        | error e => rw [h2] at hcs; simp at hcs
        | ok ds =>
          rw [h2] at hcs
          simp only [Except.ok.injEq] at hcs
          subst hcs
          intro d hd
          rcases List.mem_cons.1 hd with rfl | hd
          · exact (removeHighest_small (h c (by simp)) h1).1
          · exact ih (fun d hd => h d (by simp [hd])) h2 d hd

theorem removeHighestAgents_small {M : ℕ} {m m' : Market} (h : SmallMarket M m.categories) {r : List ℕ} (hm : m.removeHighestAgents r = .ok m') : SmallMarket M m'.categories := by
  unfold Market.removeHighestAgents at hm
  cases h1 : Market.removeHighestAgentsLoop m.categories r with
  | error e => rw [h1] at hm; simp [bind, Except.bind] at hm
  | ok cs =>
    rw [h1] at hm
    simp only [bind, Except.bind, Except.ok.injEq] at hm
    subst hm
    exact removeHighestLoop_small h h1

theorem clone_small {M : ℕ} {m m' : Market} (h : SmallMarket M m.categories) (hm : m.clone = .ok m') : SmallMarket M m'.categories := by
  unfold Market.clone Market.init at hm
  have h1 : SmallMarket M (m.categories.map AgentCategory.clone) := by
    intro c hc
    obtain ⟨d, hd, rfl⟩ := List.mem_map.1 hc
    intro v hv
    exact h d hd v ((List.mem_insertionSort _).1 hv)
  split at hm
  · simp at hm
  · rename_i hcs
    simp only [Except.ok.injEq] at hm
    subst hm
    exact h1

theorem sort_congr {α : Type} {p q : α → α → Prop} [DecidableRel p] [DecidableRel q] {l : List α} (h : ∀ x ∈ l, ∀ y ∈ l, p x y ↔ q x y) :
    l.insertionSort p = l.insertionSort q := by
  induction l with
  | nil => rfl
  | cons x l ih =>
    rw [List.insertionSort_cons, List.insertionSort_cons, ih fun a ha b hb => h a (by simp [ha]) b (by simp [hb])]
    have h1 : ∀ y ∈ l.insertionSort q, p x y ↔ q x y := fun y hy => h x (by simp) y (by simp [(List.mem_insertionSort _).1 hy])
    generalize l.insertionSort q = s at h1
    induction s with
    | nil => rfl
    | cons y s ih2 =>
      by_cases hq : q x y
      · rw [List.orderedInsert_cons_of_le _ _ hq, List.orderedInsert_cons_of_le _ _ ((h1 y (by simp)).2 hq)]
      · rw [List.orderedInsert_of_not_le _ _ hq, List.orderedInsert_of_not_le _ _ (fun hc => hq ((h1 y (by simp)).1 hc)), ih2 fun z hz => h1 z (by simp [hz])]

section
variable {f : ℚ → ℚ} (hf : Rounding f) {M : ℕ} {r : List ℕ} (hb : 4 * M * r.sum ≤ 2 ^ 53)
include hf hb

theorem flSum_ps {ps : List ℚ} (h : ∀ v ∈ ps, Small M v) (hl : ps.length ≤ r.sum) : flSum f ps = ps.sum ∧ Small (M * r.sum) ps.sum := by
  have h1 : M * ps.length ≤ M * r.sum := Nat.mul_le_mul_left M hl
  have h2 : 4 * M * r.sum = 4 * (M * r.sum) := by ring
  obtain ⟨h3, h4⟩ := flSum_eq hf h (by omega)
  exact ⟨h3, h4.mono h1⟩

/-- The loop of the optimal trade, and what the deals consist of. -/
theorem optimalTradeLoop_eq (z : Bool) (n : ℕ) {m : Market} (hm : SmallMarket M m.categories) {trade : List (List ℚ)} (ht : ∀ ps ∈ trade, (∀ v ∈ ps, Small M v) ∧ ps.length ≤ r.sum) :
    optimalTradeLoop f r z n m trade = Market.optimalTradeLoop r z n m trade ∧
    ∀ t m', Market.optimalTradeLoop r z n m trade = .ok (t, m') → (∀ ps ∈ t, (∀ v ∈ ps, Small M v) ∧ ps.length ≤ r.sum) ∧ SmallMarket M m'.categories := by
  induction n generalizing m trade with
  | zero =>
    refine ⟨rfl, fun t m' h => ?_⟩
    simp only [Market.optimalTradeLoop, Except.ok.injEq, Prod.mk.injEq] at h
    obtain ⟨rfl, rfl⟩ := h
    exact ⟨ht, hm⟩
  | succ n ih =>
    unfold optimalTradeLoop Market.optimalTradeLoop
    cases hps : m.getHighestAgents r with
    | error e => exact ⟨rfl, fun t m' h => by simp [bind, Except.bind] at h⟩
    | ok o =>
      cases o with
      | none =>
        refine ⟨rfl, fun t m' h => ?_⟩
        simp only [bind, Except.bind, Except.ok.injEq, Prod.mk.injEq] at h
        obtain ⟨rfl, rfl⟩ := h
        exact ⟨ht, hm⟩
      | some ps =>
        obtain ⟨h1, h2⟩ := highest_small hm hps
        simp only [bind, Except.bind]
        rw [(flSum_ps hf hb h1 h2).1]
        split_ifs
        · refine ⟨rfl, fun t m' h => ?_⟩
          simp only [Except.ok.injEq, Prod.mk.injEq] at h
          obtain ⟨rfl, rfl⟩ := h
          exact ⟨ht, hm⟩
        · cases hr : m.removeHighestAgents r with
          | error e => exact ⟨rfl, fun t m' h => by simp at h⟩
          | ok m1 =>
            refine ih (removeHighestAgents_small hm hr) ?_
            intro qs hqs
            rcases List.mem_append.1 hqs with h | h
            · exact ht qs h
            · rw [List.mem_singleton.1 h]
              exact ⟨h1, h2⟩

theorem optimalTrade_eq' (m : Market) (hm : SmallMarket M m.categories) (n : ℕ) (z : Bool) :
    optimalTrade f m r n z = m.optimalTrade r n z ∧
    ∀ t m', m.optimalTrade r n z = .ok (t, m') → (∀ ps ∈ t.procurementSets, (∀ v ∈ ps, Small M v) ∧ ps.length ≤ r.sum) ∧ SmallMarket M m'.categories := by
  unfold optimalTrade Market.optimalTrade
  split_ifs with hl
  · exact ⟨rfl, fun t m' h => by simp at h⟩
  · cases hc : m.clone with
    | error e => exact ⟨rfl, fun t m' h => by simp [bind, Except.bind] at h⟩
    | ok m1 =>
      obtain ⟨h1, h2⟩ := optimalTradeLoop_eq hf hb z n (clone_small hm hc) (trade := []) (by simp)
      simp only [bind, Except.bind]
      rw [h1]
      cases ho : Market.optimalTradeLoop r z n m1 [] with
      | error e => exact ⟨rfl, fun t m' h => by simp at h⟩
      | ok tm =>
        obtain ⟨t, m2⟩ := tm
        obtain ⟨h3, h4⟩ := h2 t m2 ho
        dsimp only
        constructor
        · congr 3
          unfold sortBySum
          refine sort_congr fun a ha b hb' => ?_
          rw [(flSum_ps hf hb (h3 a ha).1 (h3 a ha).2).1, (flSum_ps hf hb (h3 b hb').1 (h3 b hb').2).1]
        · intro t' m' h
          simp only [Except.ok.injEq, Prod.mk.injEq] at h
          obtain ⟨rfl, rfl⟩ := h
          exact ⟨fun ps hps => h3 ps ((List.mem_insertionSort _).1 hps), h4⟩

/-! ### The ascending auction -/

theorem without_eq {p : AscendingPriceVector} (hr : p.psRecipe = r) (hp : ∀ q ∈ p.prices, Small M q) (i : ℕ) :
    priceSumWithoutCategory f p i = p.priceSumWithoutCategory i ∧ ∀ s, p.priceSumWithoutCategory i = .ok s → Small (2 * (M * r.sum)) s := by
  have h4 : 4 * M * r.sum = 4 * (M * r.sum) := by ring
  unfold priceSumWithoutCategory AscendingPriceVector.priceSumWithoutCategory AscendingPriceVector.priceSum
  subst hr
  cases h1 : pyGet p.psRecipe i with
  | error e => exact ⟨rfl, fun s h => by simp [bind, Except.bind] at h⟩
  | ok n =>
    cases h2 : pyGet p.prices i with
    | error e => exact ⟨rfl, fun s h => by simp [bind, Except.bind] at h⟩
    | ok q =>
      have hq : Small M q := by
        unfold pyGet at h2
        split at h2
        · rename_i x hx
          simp only [Except.ok.injEq] at h2
          subst h2
          exact hp _ (List.mem_of_getElem? hx)
        · simp at h2
      have hn : n ≤ p.psRecipe.sum := by
        unfold pyGet at h1
        split at h1
        · rename_i x hx
          simp only [Except.ok.injEq] at h1
          subst h1
          exact List.le_sum_of_mem (List.mem_of_getElem? hx)
        · simp at h1
      have hnM : M * n ≤ M * p.psRecipe.sum := Nat.mul_le_mul_left M hn
      obtain ⟨h5, h6⟩ := flDot_eq hf hp (r := p.psRecipe) (by omega)
      have h7 : Small (M * n) ((n : ℚ) * q) := by rw [mul_comm (n : ℚ) q]; exact hq.mulNat n
      have h8 : Small (2 * (M * p.psRecipe.sum)) (dot p.prices p.psRecipe - n * q) := (h6.sub h7).mono (by omega)
      simp only [bind, Except.bind]
      refine ⟨?_, fun s h => ?_⟩
      · rw [h5, h7.fl hf (by omega), h8.fl hf (by omega)]
      · simp only [Except.ok.injEq] at h
        rw [← h]
        exact h8

/-- Rounding of prices. -/
def roundPrices (f : ℚ → ℚ) (p : AscendingPriceVector) : AscendingPriceVector := { p with prices := p.prices.map f }

omit hb in
theorem map_small (hM : M ≤ 2 ^ 53) {l : List ℚ} (h : ∀ q ∈ l, Small M q) : l.map f = l := by
  rw [List.map_congr_left (g := id) fun q hq => (h q hq).fl hf hM, List.map_id]

omit hf hb in
theorem set_small {l : List ℚ} (h : ∀ q ∈ l, Small M q) {x : ℚ} (hx : Small M x) (i : ℕ) : ∀ q ∈ l.set i x, Small M q := by
  intro q hq
  rcases List.mem_or_eq_of_mem_set hq with h' | h'
  · exact h q h'
  · rw [h']; exact hx

theorem increase_eq (hM0 : 0 < M) (hM : M ≤ 2 ^ 53) {p : AscendingPriceVector} (hr : p.psRecipe = r) (hp : ∀ q ∈ p.prices, Small M q) (i : ℕ) {x : ℚ} (hx : Small M x) :
    increasePriceUpToBalance f p i x = (p.increasePriceUpToBalance i x).map (roundPrices f) ∧
    (∀ p', p.increasePriceUpToBalance i x = .ok p' → p'.status ≠ some .stoppedAtZeroSum → p'.psRecipe = r ∧ (∀ q ∈ p'.prices, Small M q) ∧ p'.prices.map f = p'.prices) ∧
    ((∀ n ∈ r, BinaryNumber n) → ∀ p', p.increasePriceUpToBalance i x = .ok p' → ∀ q ∈ p'.prices, Double q) := by
  have h4 : 4 * M * r.sum = 4 * (M * r.sum) := by ring
  obtain ⟨h1, h2⟩ := without_eq hf hb hr hp i
  unfold increasePriceUpToBalance AscendingPriceVector.increasePriceUpToBalance
  rw [h1]
  cases hn : pyGet p.psRecipe i with
  | error e => exact ⟨rfl, fun p' h => by simp [bind, Except.bind] at h, fun _ p' h => by simp [bind, Except.bind] at h⟩
  | ok n =>
    cases hs : p.priceSumWithoutCategory i with
    | error e => exact ⟨rfl, fun p' h => by simp [bind, Except.bind] at h, fun _ p' h => by simp [bind, Except.bind] at h⟩
    | ok s =>
      have h5 := h2 s hs
      have hmem : n ∈ r := by
        rw [hr] at hn
        unfold pyGet at hn
        split at hn
        · rename_i y hy
          simp only [Except.ok.injEq] at hn
          subst hn
          exact List.mem_of_getElem? hy
        · simp at hn
      have hn' : n ≤ r.sum := List.le_sum_of_mem hmem
      have hnM : M * n ≤ M * r.sum := Nat.mul_le_mul_left M hn'
      have h7 : Small (M * n) ((n : ℚ) * x) := by rw [mul_comm (n : ℚ) x]; exact hx.mulNat n
      simp only [bind, Except.bind]
      rw [h7.fl hf (by omega), (h5.add h7).fl hf (by omega), (Small.zero (a := 0) |>.sub h5).fl hf (by omega)]
      split_ifs with hge
      · refine ⟨?_, fun p' h hst => ?_, fun hbin p' h => ?_⟩
        · unfold flDiv pyDiv
          split_ifs
          · rfl
          · simp only [Except.map, roundPrices, List.map_set, map_small hf hM hp]
        · exfalso
          apply hst
          unfold pyDiv at h
          split_ifs at h
          · simp only [Except.ok.injEq] at h
            rw [← h]
        · unfold pyDiv at h
          split_ifs at h with hn0
          simp only [Except.ok.injEq] at h
          subst h
          intro q hq
          rcases List.mem_or_eq_of_mem_set hq with h' | rfl
          · exact (hp q h').double hM
          · refine (Small.zero (a := 0) |>.sub h5).quotient (by omega) (hbin n hmem) (by exact_mod_cast hn0) ?_
            have : n ≤ M * n := Nat.le_mul_of_pos_left n hM0
            omega
      · refine ⟨?_, fun p' h _ => ?_, fun _ p' h => ?_⟩
        · simp only [Except.map, roundPrices, List.map_set, map_small hf hM hp, hx.fl hf hM]
        · simp only [Except.ok.injEq] at h
          subst h
          exact ⟨hr, set_small hp hx i, map_small hf hM (set_small hp hx i)⟩
        · simp only [Except.ok.injEq] at h
          subst h
          exact fun q hq => (set_small hp hx i q hq).double hM

/-- The sizes of the categories are moderate. -/
def Sizes (cs : List AgentCategory) (r : List ℕ) : Prop := ∀ c ∈ cs, ∀ n ∈ r, 4 * (c.values.length + 1) * n ^ 2 ≤ 2 ^ 53

omit hb in
theorem main_eq {m : Market} (hsz : Sizes m.categories r) {relevant : List ℕ} (hrel : ∀ i ∈ relevant, i < m.numCategories ∧ 0 < Ascending.recipeAt r i) :
    pyMaxBy (fractionalPotentialPs f m r) relevant = pyMaxBy (Ascending.fractionalPotentialPs m r) relevant := by
  refine pyMaxBy_order fun i hi j hj => ?_
  have key : ∀ i ∈ relevant, ∃ c ∈ m.categories, ∃ n ∈ r, Ascending.sizeAt m i = c.values.length ∧ Ascending.recipeAt r i = n ∧ 0 < n := by
    intro i hi
    obtain ⟨h1, h2⟩ := hrel i hi
    refine ⟨m.categories[i], List.getElem_mem h1, Ascending.recipeAt r i, ?_, ?_, rfl, h2⟩
    · unfold Ascending.recipeAt at h2 ⊢
      split
      · rename_i hx; exact List.mem_of_getElem? hx
      · rename_i hx; rw [hx] at h2; simp at h2
    · simp [Ascending.sizeAt, List.getElem?_eq_getElem (show i < m.categories.length from h1), AgentCategory.size]
      rfl
  obtain ⟨c, hc, n, hn, e1, e2, hpos⟩ := key i hi
  obtain ⟨c', hc', n', hn', e1', e2', hpos'⟩ := key j hj
  unfold fractionalPotentialPs Ascending.fractionalPotentialPs
  rw [e1, e2, e1', e2']
  exact quotient_lt hf hpos hpos' (hsz c hc n hn) (hsz c hc n' hn') (hsz c' hc' n hn) (hsz c' hc' n' hn')

theorem ascendingLoop_eq (hM0 : 0 < M) (hM : M ≤ 2 ^ 53) {relevant : List ℕ} (fuel : ℕ) {m : Market} (hsz : Sizes m.categories r) (hm : SmallMarket M m.categories)
    (hrel : ∀ i ∈ relevant, i < m.numCategories ∧ 0 < Ascending.recipeAt r i)
    {p : AscendingPriceVector} (hr : p.psRecipe = r) (hp : ∀ q ∈ p.prices, Small M q) :
    ascendingLoop f r relevant fuel m p = (Ascending.loop r relevant fuel m p).map (Option.map fun x => (x.1, roundPrices f x.2)) ∧
    ∀ m' p', Ascending.loop r relevant fuel m p = .ok (some (m', p')) → Sizes m'.categories r ∧ ((∀ n ∈ r, BinaryNumber n) → ∀ q ∈ p'.prices, Double q) := by
  induction fuel generalizing m p with
  | zero => exact ⟨rfl, fun m' p' h => by simp [Ascending.loop] at h⟩
  | succ fuel ih =>
    unfold ascendingLoop Ascending.loop
    rw [main_eq hf hsz hrel]
    cases hmain : pyMaxBy (Ascending.fractionalPotentialPs m r) relevant with
    | error e => exact ⟨rfl, fun m' p' h => by simp [bind, Except.bind] at h⟩
    | ok main =>
      simp only [bind, Except.bind]
      cases hc : pyGet m.categories main with
      | error e => exact ⟨rfl, fun m' p' h => by simp at h⟩
      | ok c =>
        have hcm : c ∈ m.categories := by
          unfold pyGet at hc
          split at hc
          · rename_i y hy
            simp only [Except.ok.injEq] at hc
            subst hc
            exact List.mem_of_getElem? hy
          · simp at hc
        dsimp only
        split_ifs with h0
        · refine ⟨?_, fun m' p' h => ?_⟩
          · simp only [Except.map, Option.map, roundPrices, map_small hf hM hp]
          · simp only [Except.ok.injEq, Option.some.injEq, Prod.mk.injEq] at h
            rw [← h.1, ← h.2]; exact ⟨hsz, fun _ q hq => (hp q hq).double hM⟩
        · cases ht : c.lowestAgentValue with
          | error e => exact ⟨rfl, fun m' p' h => by simp at h⟩
          | ok t =>
            have hts : Small M t := by
              unfold AgentCategory.lowestAgentValue at ht
              split at ht
              · simp at ht
              · rename_i v hv
                simp only [Except.ok.injEq] at ht
                subst ht
                exact hm c hcm _ (List.mem_of_getLast? hv)
            obtain ⟨h1, h2, h2'⟩ := increase_eq hf hb hM0 hM hr hp main hts
            dsimp only
            rw [h1]
            cases hi : p.increasePriceUpToBalance main t with
            | error e => exact ⟨rfl, fun m' p' h => by simp at h⟩
            | ok p1 =>
              simp only [Except.map]
              by_cases hz : p1.status = some .stoppedAtZeroSum
              · rw [if_pos (show (roundPrices f p1).status = _ from hz), if_pos hz]
                refine ⟨rfl, fun m' p' h => ?_⟩
                simp only [Except.ok.injEq, Option.some.injEq, Prod.mk.injEq] at h
                rw [← h.1, ← h.2]; exact ⟨hsz, fun hbin => h2' hbin p1 hi⟩
              · obtain ⟨h3, h4, h5⟩ := h2 p1 hi hz
                have h6 : roundPrices f p1 = p1 := by simp only [roundPrices, h5]
                rw [h6, if_neg hz, if_neg hz]
                cases hrm : c.removeLowestAgent with
                | error e => exact ⟨rfl, fun m' p' h => by simp at h⟩
                | ok c' =>
                  have hc' : ∀ v ∈ c'.values, v ∈ c.values := by
                    unfold AgentCategory.removeLowestAgent at hrm
                    split at hrm
                    · simp at hrm
                    · simp only [Except.ok.injEq] at hrm
                      subst hrm
                      intro v hv
                      exact List.mem_of_mem_dropLast hv
                  have hl' : c'.values.length ≤ c.values.length := by
                    unfold AgentCategory.removeLowestAgent at hrm
                    split at hrm
                    · simp at hrm
                    · simp only [Except.ok.injEq] at hrm
                      subst hrm
                      simp
                  refine ih ?_ ?_ ?_ h3 h4
                  · intro d hd n hn
                    rcases List.mem_or_eq_of_mem_set hd with h' | h'
                    · exact hsz d h' n hn
                    · rw [h']
                      exact (Nat.mul_le_mul_right _ (by omega)).trans (hsz c hcm n hn)
                  · intro d hd v hv
                    rcases List.mem_or_eq_of_mem_set hd with h' | h'
                    · exact hm d h' v hv
                    · rw [h'] at hv
                      exact hm c hcm v (hc' v hv)
                  · intro i hi
                    simpa [Market.numCategories] using hrel i hi

omit hb in
theorem potentialDeals_eq {cs : List AgentCategory} (hsz : Sizes cs r) : potentialDeals f cs r = TradeWithSinglePrice.potentialDeals cs r := by
  induction cs generalizing r with
  | nil => rfl
  | cons c cs ih =>
    cases r with
    | nil => rfl
    | cons n r =>
      unfold potentialDeals TradeWithSinglePrice.potentialDeals
      rw [ih fun d hd k hk => hsz d (by simp [hd]) k (by simp [hk])]
      split_ifs with h0
      · rw [floor_quotient (a := c.size) hf h0 (hsz c (by simp) n (by simp))]
      · rfl

/-- A trade with rounded prices. -/
def roundTrade (f : ℚ → ℚ) (t : TradeWithSinglePrice) : TradeWithSinglePrice := { t with prices := t.prices.map (List.map f) }

omit hb in
theorem initTrade_eq {cs : List AgentCategory} (hsz : Sizes cs r) (ps : Option (List ℚ)) :
    initTrade f cs r (ps.map (List.map f)) = (TradeWithSinglePrice.init cs r ps).map (roundTrade f) := by
  unfold initTrade TradeWithSinglePrice.init
  rw [potentialDeals_eq hf hsz]
  cases pyMinNat (TradeWithSinglePrice.potentialDeals cs r) <;> rfl

/-- All prices of the trade are floats. -/
def FloatPrices (t : TradeWithSinglePrice) : Prop := ∀ l, t.prices = some l → ∀ q ∈ l, Double q

omit hb in
theorem FloatPrices.round {t : TradeWithSinglePrice} (h : FloatPrices t) : roundTrade f t = t := by
  obtain ⟨a, b, p, d⟩ := t
  cases p with
  | none => rfl
  | some l =>
    simp only [roundTrade, Option.map_some]
    rw [List.map_congr_left (g := id) fun q hq => hf.exact q (h l rfl q hq), List.map_id]

omit hf hb in
theorem init_floatPrices {cs : List AgentCategory} {ps : Option (List ℚ)} (h : ∀ l, ps = some l → ∀ q ∈ l, Double q) {t : TradeWithSinglePrice} (ht : TradeWithSinglePrice.init cs r ps = .ok t) :
    FloatPrices t := by
  unfold TradeWithSinglePrice.init at ht
  cases hm : pyMinNat (TradeWithSinglePrice.potentialDeals cs r) with
  | error e => rw [hm] at ht; simp [bind, Except.bind] at ht
  | ok d =>
    rw [hm] at ht
    simp only [bind, Except.bind, Except.ok.injEq] at ht
    subst ht
    exact h

theorem ascending_eq (hM : 100000000 ≤ M) (hM' : M ≤ 2 ^ 53) {m : Market} (hsz : Sizes m.categories r) (hm : SmallMarket M m.categories) (fuel maxIterations : ℕ) :
    ascendingAuction f m r fuel maxIterations = (Ascending.auction m r fuel maxIterations).map (Option.map (roundTrade f)) ∧
    ((∀ n ∈ r, BinaryNumber n) → ∀ t, Ascending.auction m r fuel maxIterations = .ok (some t) → FloatPrices t) := by
  unfold ascendingAuction Ascending.auction
  split_ifs with hl
  · exact ⟨rfl, fun _ t h => by simp at h⟩
  rw [(optimalTrade_eq' hf hb m hm maxIterations true).1]
  cases m.optimalTrade r maxIterations with
  | error e => exact ⟨rfl, fun _ t h => by simp [bind, Except.bind] at h⟩
  | ok _ =>
    simp only [bind, Except.bind]
    cases hc : m.clone with
    | error e => exact ⟨rfl, fun _ t h => by simp [bind, Except.bind] at h⟩
    | ok m1 =>
      have hm1 := clone_small hm hc
      have hm1c : m1.categories = m.categories.map AgentCategory.clone := by
        unfold Market.clone Market.init at hc
        split at hc
        · simp at hc
        · rename_i hcs
          simp only [Except.ok.injEq] at hc
          subst hc
          rfl
      have hsz1 : Sizes m1.categories r := by
        rw [hm1c]
        intro c hcm
        obtain ⟨d, hd, rfl⟩ := List.mem_map.1 hcm
        intro n hn
        have := hsz d hd n hn
        simpa [AgentCategory.clone, AgentCategory.init, sortDesc] using this
      have hMAX : Small M (-MAX_VALUE) := by
        refine ⟨-100000000, by simp [MAX_VALUE], ?_⟩
        simp only [abs_neg]
        exact_mod_cast hM
      obtain ⟨h1, h2⟩ := ascendingLoop_eq hf hb (by omega) hM' fuel hsz1 hm1 (relevant := Ascending.relevantCategoryIndices m r) (by
          intro i hi
          unfold Ascending.relevantCategoryIndices at hi
          rw [List.mem_filter, List.mem_range] at hi
          refine ⟨?_, by simpa using hi.2⟩
          simpa [Market.numCategories, hm1c] using hi.1) (p := AscendingPriceVector.init r (-MAX_VALUE)) rfl (by
          intro q hq
          rw [List.eq_of_mem_replicate hq]
          exact hMAX)
      dsimp only
      rw [h1]
      cases hloop : Ascending.loop r (Ascending.relevantCategoryIndices m r) fuel m1 (AscendingPriceVector.init r (-MAX_VALUE)) with
      | error e => exact ⟨rfl, fun _ t h => by simp [bind, Except.bind] at h⟩
      | ok o =>
        cases o with
        | none => exact ⟨rfl, fun _ t h => by simp at h⟩
        | some x =>
          obtain ⟨m2, p2⟩ := x
          have h3 := h2 m2 p2 hloop
          simp only [Except.map, Option.map]
          have h4 := initTrade_eq hf h3.1 (some p2.prices)
          rw [Option.map_some] at h4
          rw [show (roundPrices f p2).prices = p2.prices.map f from rfl, h4]
          cases hi : TradeWithSinglePrice.init m2.categories r (some p2.prices) with
          | error e => exact ⟨rfl, fun _ t h => by simp at h⟩
          | ok t' =>
            refine ⟨rfl, fun hbin t h => ?_⟩
            simp only [Except.ok.injEq, Option.some.injEq] at h
            subst h
            exact init_floatPrices (fun l hl => by
              simp only [Option.some.injEq] at hl
              subst hl
              exact h3.2 hbin) hi

end

end Auctions.Floating
