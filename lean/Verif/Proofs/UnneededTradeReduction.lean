import Verif.Proofs.Unneeded
import Verif.Proofs.TradeReduction

set_option autoImplicit false

/-! # Helper lemmas: trade reduction without the categories that the recipe does not need -/

namespace Auctions

open Auctions.Spec Auctions.TradeReduction

theorem foldlM_sim {σ τ α : Type} (φ : σ → τ) (I : σ → Prop) (f : σ → α → Py σ) (f' : τ → α → Py τ) (l : List α)
    (h : ∀ s, I s → ∀ a ∈ l, f' (φ s) a = (f s a).map φ ∧ ∀ s', f s a = .ok s' → I s') (s : σ) (hs : I s) :
    l.foldlM f' (φ s) = (l.foldlM f s).map φ ∧ ∀ s', l.foldlM f s = .ok s' → I s' := by
  induction l generalizing s with
  | nil =>
    refine ⟨rfl, ?_⟩
    intro s' h'
    simp only [List.foldlM_nil, pure, Except.pure, Except.ok.injEq] at h'
    rw [← h']; exact hs
  | cons a l ih =>
    obtain ⟨h1, h2⟩ := h s hs a (by simp)
    rw [List.foldlM_cons, List.foldlM_cons, h1]
    cases hf : f s a with
    | error e => exact ⟨rfl, by intro s' h'; cases h'⟩
    | ok s1 => exact ih (fun s hs b hb => h s hs b (by simp [hb])) s1 (h2 s1 hf)

theorem pivotIndexes_needed (r : List ℕ) (k : ℕ) : pivotIndexes k (needed r r) = pivotIndexes k r := by
  have : ∀ (r l : List ℕ), l = r → ∀ k, pivotIndexes k (needed r l) = pivotIndexes k l := by
    intro r
    induction r with
    | nil => rintro l rfl k; rfl
    | cons n r ih =>
      rintro l rfl k
      rcases Nat.eq_zero_or_pos n with rfl | hn
      · rw [needed_zero, ih r rfl, pivotIndexes]; simp
      · rw [needed_pos hn, pivotIndexes, pivotIndexes, ih r rfl]
  exact this r r rfl k

theorem toCategory_shift (r : List ℕ) (i k : ℕ) : pivotIndexToCategoryIndex (i + k) r = (pivotIndexToCategoryIndex i r).map (· + k) := by
  induction r generalizing i with
  | nil => rfl
  | cons n r ih =>
    rw [pivotIndexToCategoryIndex, pivotIndexToCategoryIndex, List.map_append, List.map_replicate, ← ih]
    congr 2
    omega

theorem toCategory_needed (r : List ℕ) : pivotIndexToCategoryIndex 0 (needed r r) = (pivotIndexToCategoryIndex 0 r).map (rk r) := by
  induction r with
  | nil => rfl
  | cons n r ih =>
    have hshift : ∀ l : List ℕ, (l.map (· + 1)).map (rk (n :: r)) = (l.map (rk r)).map (· + if 0 < n then 1 else 0) := by
      intro l
      rw [List.map_map, List.map_map]
      exact List.map_congr_left fun i _ => rk_cons_succ n r i
    rw [pivotIndexToCategoryIndex, toCategory_shift r 0 1, List.map_append, hshift, ← ih, List.map_replicate, rk_zero]
    rcases Nat.eq_zero_or_pos n with rfl | hn
    · rw [needed_zero]; simp
    · rw [needed_pos hn, pivotIndexToCategoryIndex, toCategory_shift _ 0 1, if_pos hn]

theorem convert_shift (r : List ℕ) (i k p : ℕ) (hp : p < r.sum) : convertCategoryIndexLoop (i + k) p r = convertCategoryIndexLoop i p r + k := by
  induction r generalizing i p with
  | nil => simp at hp
  | cons n r ih =>
    rw [convertCategoryIndexLoop, convertCategoryIndexLoop]
    split_ifs with h
    · rfl
    · rw [show i + k + 1 = (i + 1) + k by omega, ih (i + 1) (p - n) (by rw [List.sum_cons] at hp; omega)]

theorem convert_needed (r : List ℕ) {p : ℕ} (hp : p < r.sum) :
    convertCategoryIndex (needed r r) p = rk r (convertCategoryIndex r p) ∧ 0 < rAt r (convertCategoryIndex r p) ∧ (pivotIndexToCategoryIndex 0 r)[p]? = some (convertCategoryIndex r p) ∧ p < (needed r r).sum := by
  unfold convertCategoryIndex
  induction r generalizing p with
  | nil => simp at hp
  | cons n r ih =>
    rw [convertCategoryIndexLoop, pivotIndexToCategoryIndex]
    rcases Nat.eq_zero_or_pos n with rfl | hn
    · have hp' : p < r.sum := by simpa using hp
      obtain ⟨h1, h2, h3, h4⟩ := ih hp'
      rw [if_neg (by omega), needed_zero, Nat.sub_zero, convert_shift r 0 1 p hp', rk_cons_succ, h1]
      refine ⟨by simp, by simpa [rAt] using h2, ?_, h4⟩
      rw [toCategory_shift r 0 1]
      simpa using h3
    · rw [needed_pos hn, convertCategoryIndexLoop]
      split_ifs with hlt
      · refine ⟨rfl, by simpa [rAt] using hn, ?_, by rw [List.sum_cons]; omega⟩
        rw [List.getElem?_append_left (by simpa using hlt)]
        simp [hlt]
      · have hp' : p - n < r.sum := by rw [List.sum_cons] at hp; omega
        obtain ⟨h1, h2, h3, h4⟩ := ih hp'
        rw [convert_shift r 0 1 _ hp', convert_shift _ 0 1 _ h4, rk_cons_succ, h1, if_pos hn]
        refine ⟨rfl, by simpa [rAt] using h2, ?_, by rw [List.sum_cons]; omega⟩
        rw [List.getElem?_append_right (by simpa using hlt), toCategory_shift r 0 1, List.length_replicate, List.getElem?_map, h3]
        rfl

theorem mem_pivots (r : List ℕ) (k : ℕ) {p : ℕ} (hp : p ∈ pivotIndexes k r) : p < k + r.sum := by
  induction r generalizing k with
  | nil => simp [pivotIndexes] at hp
  | cons n r ih =>
    rw [pivotIndexes, List.mem_append] at hp
    rw [List.sum_cons]
    rcases hp with hp | hp
    · simp only [List.mem_map, List.mem_reverse, List.mem_range] at hp
      obtain ⟨i, hi, rfl⟩ := hp
      omega
    · have := ih _ hp
      omega

theorem weighted_needed {x : List ℚ} {r : List ℕ} (h : x.length = r.length) : Market.weightedSum (needed r x) (needed r r) = Market.weightedSum x r := by
  induction r generalizing x with
  | nil => cases x with
    | nil => rfl
    | cons => simp at h
  | cons n r ih =>
    cases x with
    | nil => simp at h
    | cons y x =>
      have := ih (x := x) (by simpa using h)
      rcases Nat.eq_zero_or_pos n with rfl | hn
      · rw [needed_zero, needed_zero, this, Market.weightedSum]
        cases Market.weightedSum x r with
        | error e => rfl
        | ok s => simp [bind, Except.bind]
      · rw [needed_pos hn, needed_pos hn, Market.weightedSum, Market.weightedSum, this]

theorem best_needed {cs : List AgentCategory} {r : List ℕ} (hl : cs.length = r.length) (hne : ∀ c ∈ cs, c.values ≠ []) (c c' : ℕ) (v : ℚ) (i i' : ℕ)
    (hc : ∀ k, 0 < rAt r k → (i + k = c ↔ i' + rk r k = c')) :
    Market.bestContainingPSLoop c' v i' (needed r cs) = (Market.bestContainingPSLoop c v i cs).map (needed r) := by
  induction r generalizing cs i i' with
  | nil => cases cs with
    | nil => rfl
    | cons => simp at hl
  | cons n r ih =>
    cases cs with
    | nil => simp at hl
    | cons a cs =>
      have hne' : ∀ c ∈ cs, c.values ≠ [] := fun c hc => hne c (by simp [hc])
      rw [Market.bestContainingPSLoop]
      have hhigh : ∃ x, a.highestAgentValue = .ok x := by
        have := hne a (by simp)
        unfold AgentCategory.highestAgentValue
        cases ha : a.values with
        | nil => exact absurd ha this
        | cons x l => exact ⟨x, by simp⟩
      obtain ⟨x, hx⟩ := hhigh
      rcases Nat.eq_zero_or_pos n with rfl | hn
      · have := ih (cs := cs) (by simpa using hl) hne' (i + 1) i' (by
          intro k hk
          have := hc (k + 1) (by simpa [rAt] using hk)
          rw [rk_cons_succ, if_neg (by omega), Nat.add_zero (rk r k)] at this
          rw [← this]
          omega)
        rw [needed_zero, this]
        rw [hx]
        cases Market.bestContainingPSLoop c v (i + 1) cs with
        | error e => split_ifs <;> rfl
        | ok l => split_ifs <;> simp [bind, Except.bind, Except.map, needed_zero]
      · have := ih (cs := cs) (by simpa using hl) hne' (i + 1) (i' + 1) (by
          intro k hk
          have := hc (k + 1) (by simpa [rAt] using hk)
          rw [rk_cons_succ, if_pos hn] at this
          rw [show i + 1 + k = i + (k + 1) by omega, this]
          omega)
        have h0 := hc 0 (by simpa [rAt] using hn)
        rw [rk_zero, Nat.add_zero, Nat.add_zero] at h0
        rw [needed_pos hn, Market.bestContainingPSLoop, this, hx]
        simp only [h0]
        split_ifs
        · cases Market.bestContainingPSLoop c v (i + 1) cs with
          | error e => rfl
          | ok l => simp [bind, Except.bind, Except.map, needed_pos hn]
        · cases Market.bestContainingPSLoop c v (i + 1) cs with
          | error e => rfl
          | ok l => simp [bind, Except.bind, Except.map, needed_pos hn]

theorem best_length {cs : List AgentCategory} {c i : ℕ} {v : ℚ} {l : List ℚ} (h : Market.bestContainingPSLoop c v i cs = .ok l) : l.length = cs.length := by
  induction cs generalizing i l with
  | nil => cases h; rfl
  | cons a cs ih =>
    rw [Market.bestContainingPSLoop] at h
    cases h2 : Market.bestContainingPSLoop c v (i + 1) cs with
    | error e =>
      rw [h2] at h
      split_ifs at h
      · cases h
      · cases h3 : a.highestAgentValue <;> rw [h3] at h <;> cases h
    | ok l' =>
      rw [h2] at h
      split_ifs at h
      · cases h; simp [ih h2]
      · cases h3 : a.highestAgentValue with
        | error e => rw [h3] at h; cases h
        | ok x => rw [h3] at h; cases h; simp [ih h2]

theorem rk_inj {r : List ℕ} {i j : ℕ} (hi : 0 < rAt r i) (hj : 0 < rAt r j) : i = j ↔ rk r i = rk r j := by
  refine ⟨fun h => by rw [h], fun h => ?_⟩
  have h1 := needed_get (l := List.range r.length) hi
  have h2 := needed_get (l := List.range r.length) hj
  rw [h, h2] at h1
  rw [List.getElem?_range (rAt_pos_lt hj), List.getElem?_range (rAt_pos_lt hi)] at h1
  simpa using h1.symm

theorem prices_needed {m : Market} {r : List ℕ} (h : r.length = m.numCategories) {best : List ℚ} (hb : best.length = r.length) {c : ℕ} (hc : 0 < rAt r c) (v : ℚ) :
    (neededMarket r m).calculatePricesByExternalCompetition (rk r c) v (needed r best) (needed r r) = (m.calculatePricesByExternalCompetition c v best r).map (needed r) := by
  unfold Market.calculatePricesByExternalCompetition
  have hlt := rAt_pos_lt hc
  have hlen : (neededMarket r m).numCategories = (needed r r).length := needed_length h.symm
  have hbl : (needed r best).length = (needed r r).length := needed_length hb
  have hget : r[c]? = some (rAt r c) := by
    unfold rAt; simp [List.getD_eq_getElem?_getD, List.getElem?_eq_getElem hlt]
  have hne : ((rAt r c : ℕ) : ℚ) ≠ 0 := by exact_mod_cast hc.ne'
  have hsum : recipeSum (needed r r) (needed r best) = recipeSum r best := by
    have := weighted_needed hb
    rw [weightedSum_eq (by omega), weightedSum_eq (by omega)] at this
    simpa using this
  have hx : pyDiv (v * (rAt r c : ℕ) - recipeSum r best) (rAt r c : ℕ) = .ok ((v * (rAt r c : ℕ) - recipeSum r best) / (rAt r c : ℕ)) := by
    unfold pyDiv; rw [if_neg hne]
  rw [pricesLoop_eq (c := c) (v := v) (best := best) (r := r) (by omega) m.numCategories 0 (by omega) (fun _ _ => ⟨_, hget, hx⟩),
    pricesLoop_eq (c := rk r c) (v := v) (best := needed r best) (r := needed r r) (by omega) _ 0 (by omega) (fun _ _ => ⟨rAt r c, by rw [needed_get hc, hget], by rw [hsum]; exact hx⟩)]
  simp only [List.drop_zero, Except.map, needed_set hc]

/-- The state of the loop without the categories that are not needed. -/
def neededState (r : List ℕ) (s : State) : State := ⟨neededMarket r s.remaining, needed r s.actualTraders, s.latestPrices.map (needed r), s.foundExternal⟩

/-- The lists have an entry per category, and the remaining categories are not empty. -/
structure FullState (r : List ℕ) (s : State) : Prop where
  remaining : s.remaining.categories.length = r.length
  traders : s.actualTraders.length = r.length
  nonempty : ∀ c ∈ s.remaining.categories, c.values ≠ []
  unneeded : ∀ i c, rAt r i = 0 → s.actualTraders[i]? = some c → c.values = []

theorem append_needed {r : List ℕ} {traders : List AgentCategory} {p : ℕ} (hp : p < r.sum) (v : ℚ) :
    TradeReduction.appendTrader (needed r traders) (pivotIndexToCategoryIndex 0 (needed r r)) p v = (TradeReduction.appendTrader traders (pivotIndexToCategoryIndex 0 r) p v).map (needed r) ∧
      ∀ t', TradeReduction.appendTrader traders (pivotIndexToCategoryIndex 0 r) p v = .ok t' → t'.length = traders.length ∧ ∀ i, rAt r i = 0 → t'[i]? = traders[i]? := by
  obtain ⟨-, h2, h3, -⟩ := convert_needed r hp
  have e1 : pyGet (pivotIndexToCategoryIndex 0 r) p = .ok (convertCategoryIndex r p) := by unfold pyGet; rw [h3]
  have e2 : pyGet (pivotIndexToCategoryIndex 0 (needed r r)) p = .ok (rk r (convertCategoryIndex r p)) := by
    unfold pyGet; rw [toCategory_needed, List.getElem?_map, h3]; rfl
  unfold TradeReduction.appendTrader
  rw [e1, e2]
  simp only [bind, Except.bind]
  rw [pyGet_needed h2]
  cases pyGet traders (convertCategoryIndex r p) with
  | error e => exact ⟨rfl, by intro t' h'; cases h'⟩
  | ok c =>
    refine ⟨by simp only [Except.map, needed_set h2], ?_⟩
    intro t' h'
    cases h'
    refine ⟨by simp, ?_⟩
    intro i hi
    rw [List.getElem?_set_ne]
    intro he
    rw [he, hi] at h2
    omega

theorem compete_needed {m : Market} {r : List ℕ} (h : r.length = m.numCategories) (z : Bool) (ps : List ℚ) {s : State} (hs : FullState r s) {p : ℕ} (hp : p < r.sum) :
    competeStep (neededMarket r m) (needed r r) (pivotIndexToCategoryIndex 0 (needed r r)) z ps (neededState r s) p =
      (competeStep m r (pivotIndexToCategoryIndex 0 r) z ps s p).map (neededState r) ∧
    ∀ s', competeStep m r (pivotIndexToCategoryIndex 0 r) z ps s p = .ok s' → FullState r s' := by
  obtain ⟨h1, h2, h3, -⟩ := convert_needed r hp
  unfold competeStep
  cases pyGet ps p with
  | error e => exact ⟨rfl, by intro s' h'; cases h'⟩
  | ok v =>
    simp only [bind, Except.bind]
    obtain ⟨a1, a2⟩ := append_needed (r := r) (traders := s.actualTraders) hp v
    rw [show (neededState r s).actualTraders = needed r s.actualTraders from rfl, a1, show (neededState r s).foundExternal = s.foundExternal from rfl]
    by_cases hf : s.foundExternal = true
    · rw [if_pos hf, if_pos hf]
      cases hap : TradeReduction.appendTrader s.actualTraders (pivotIndexToCategoryIndex 0 r) p v with
      | error e => exact ⟨rfl, by intro s' h'; cases h'⟩
      | ok t' =>
        refine ⟨rfl, ?_⟩
        intro s' h'
        cases h'
        exact ⟨hs.remaining, by rw [← hs.traders]; exact (a2 t' hap).1, hs.nonempty, fun i c hi hc => hs.unneeded i c hi (by rw [← (a2 t' hap).2 i hi]; exact hc)⟩
    · rw [if_neg hf, if_neg hf, h1]
      rw [show (neededMarket r m).categories = needed r m.categories from rfl, pyGet_needed h2]
      cases pyGet m.categories (convertCategoryIndex r p) with
      | error e => exact ⟨rfl, by intro s' h'; cases h'⟩
      | ok _ =>
        dsimp only
        have hb : (neededState r s).remaining.bestContainingPS (rk r (convertCategoryIndex r p)) v = (s.remaining.bestContainingPS (convertCategoryIndex r p) v).map (needed r) := by
          unfold Market.bestContainingPS
          refine best_needed hs.remaining hs.nonempty _ _ v 0 0 ?_
          intro k hk
          rw [Nat.zero_add, Nat.zero_add]
          exact rk_inj hk h2
        rw [hb]
        cases hbest : s.remaining.bestContainingPS (convertCategoryIndex r p) v with
        | error e => exact ⟨rfl, by intro s' h'; cases h'⟩
        | ok best =>
          have hbl : best.length = r.length := by rw [← hs.remaining]; exact best_length hbest
          simp only [Except.map]
          rw [weighted_needed hbl]
          cases Market.weightedSum best r with
          | error e => exact ⟨rfl, by intro s' h'; cases h'⟩
          | ok g =>
            dsimp only
            split_ifs with hg
            · rw [prices_needed h hbl h2]
              cases m.calculatePricesByExternalCompetition (convertCategoryIndex r p) v best r with
              | error e => exact ⟨rfl, by intro s' h'; cases h'⟩
              | ok q =>
                simp only [Except.map]
                cases hap : TradeReduction.appendTrader s.actualTraders (pivotIndexToCategoryIndex 0 r) p v with
                | error e => exact ⟨rfl, by intro s' h'; cases h'⟩
                | ok t' =>
                  refine ⟨rfl, ?_⟩
                  intro s' h'
                  cases h'
                  exact ⟨hs.remaining, by rw [← hs.traders]; exact (a2 t' hap).1, hs.nonempty, fun i c hi hc => hs.unneeded i c hi (by rw [← (a2 t' hap).2 i hi]; exact hc)⟩
            · unfold Market.appendTrader
              rw [show (neededState r s).remaining.categories = needed r s.remaining.categories from rfl, needed_get h2]
              cases hci : s.remaining.categories[convertCategoryIndex r p]? with
              | none => exact ⟨rfl, by intro s' h'; cases h'⟩
              | some c =>
                refine ⟨?_, ?_⟩
                · simp only [neededState, neededMarket, needed_set h2]
                · intro s' h'
                  cases h'
                  refine ⟨by simpa using hs.remaining, hs.traders, ?_, hs.unneeded⟩
                  intro x hx
                  rcases List.mem_or_eq_of_mem_set hx with hx | rfl
                  · exact hs.nonempty x hx
                  · unfold AgentCategory.append
                    intro hnil
                    have := congrArg List.length hnil
                    simp [sortDesc] at this

theorem tradeStep_needed {r : List ℕ} (ps : List ℚ) {s : State} (hs : FullState r s) {p : ℕ} (hp : p < r.sum) :
    tradeStep (pivotIndexToCategoryIndex 0 (needed r r)) ps (neededState r s) p = (tradeStep (pivotIndexToCategoryIndex 0 r) ps s p).map (neededState r) ∧
    ∀ s', tradeStep (pivotIndexToCategoryIndex 0 r) ps s p = .ok s' → FullState r s' := by
  unfold tradeStep
  cases pyGet ps p with
  | error e => exact ⟨rfl, by intro s' h'; cases h'⟩
  | ok v =>
    simp only [bind, Except.bind]
    obtain ⟨a1, a2⟩ := append_needed (r := r) (traders := s.actualTraders) hp v
    rw [show (neededState r s).actualTraders = needed r s.actualTraders from rfl, a1]
    cases hap : TradeReduction.appendTrader s.actualTraders (pivotIndexToCategoryIndex 0 r) p v with
    | error e => exact ⟨rfl, by intro s' h'; cases h'⟩
    | ok t' =>
      refine ⟨rfl, ?_⟩
      intro s' h'
      cases h'
      exact ⟨hs.remaining, by rw [← hs.traders]; exact (a2 t' hap).1, hs.nonempty, fun i c hi hc => hs.unneeded i c hi (by rw [← (a2 t' hap).2 i hi]; exact hc)⟩

theorem psStep_needed {m : Market} {r : List ℕ} (h : r.length = m.numCategories) (z : Bool) {s : State} (hs : FullState r s) (ps : List ℚ) :
    psStep (neededMarket r m) (needed r r) (pivotIndexes 0 (needed r r)) (pivotIndexToCategoryIndex 0 (needed r r)) z (neededState r s) ps =
      (psStep m r (pivotIndexes 0 r) (pivotIndexToCategoryIndex 0 r) z s ps).map (neededState r) ∧
    ∀ s', psStep m r (pivotIndexes 0 r) (pivotIndexToCategoryIndex 0 r) z s ps = .ok s' → FullState r s' := by
  unfold psStep
  rw [pivotIndexes_needed]
  have hpv : ∀ p ∈ pivotIndexes 0 r, p < r.sum := fun p hp => by have := mem_pivots r 0 hp; omega
  cases hl : s.latestPrices with
  | none =>
    rw [show (neededState r s).latestPrices = none by simp [neededState, hl]]
    exact foldlM_sim (neededState r) (FullState r) _ _ _ (fun s hs p hp => compete_needed h z ps hs (hpv p hp)) s hs
  | some q =>
    rw [show (neededState r s).latestPrices = some (needed r q) by simp [neededState, hl]]
    exact foldlM_sim (neededState r) (FullState r) _ _ _ (fun s hs p hp => tradeStep_needed ps hs (hpv p hp)) s hs

theorem pad_needed (r : List ℕ) (m : Market) : McAfee.padEmpty (neededMarket r m) = neededMarket r (McAfee.padEmpty m) := by
  unfold McAfee.padEmpty neededMarket
  rw [needed_map]

theorem pad_nonempty (m : Market) : ∀ c ∈ (McAfee.padEmpty m).categories, c.values ≠ [] := by
  intro c hc
  obtain ⟨d, hd, rfl⟩ := List.mem_map.1 hc
  split_ifs with h
  · unfold AgentCategory.append
    intro hnil
    have := congrArg List.length hnil
    simp [sortDesc] at this
  · intro hnil
    exact h (by simp [AgentCategory.size, hnil])

theorem optimal_length {m m' : Market} {r : List ℕ} {N : ℕ} {z : Bool} {o : TradeWithMaterialBalance} (h : m.optimalTrade r N z = .ok (o, m')) : m'.categories.length = m.categories.length := by
  have hloop : ∀ (N : ℕ) (m : Market) (acc : List (List ℚ)) (t : List (List ℚ)) (m' : Market), Market.optimalTradeLoop r z N m acc = .ok (t, m') → m'.categories.length = m.categories.length := by
    intro N
    induction N with
    | zero => intro m acc t m' h; cases h; rfl
    | succ N ih =>
      intro m acc t m' h
      rw [Market.optimalTradeLoop] at h
      cases h1 : m.getHighestAgents r with
      | error e => rw [h1] at h; cases h
      | ok o =>
        rw [h1] at h
        cases o with
        | none => cases h; rfl
        | some ps =>
          simp only [bind, Except.bind] at h
          split_ifs at h
          · cases h; rfl
          · cases h3 : m.removeHighestAgents r with
            | error e => rw [h3] at h; cases h
            | ok m1 =>
              rw [h3] at h
              dsimp only at h
              rw [ih _ _ _ _ h]
              unfold Market.removeHighestAgents at h3
              cases h4 : Market.removeHighestAgentsLoop m.categories r with
              | error e => rw [h4] at h3; cases h3
              | ok cs' =>
                rw [h4] at h3
                cases h3
                exact remove_length h4
  unfold Market.optimalTrade at h
  split_ifs at h
  by_cases hc : m.categories = []
  · have he : m.clone = .error .valueError := by unfold Market.clone; rw [hc]; rfl
    rw [he] at h; cases h
  · rw [Market.clone_eq hc] at h
    simp only [bind, Except.bind] at h
    cases h2 : Market.optimalTradeLoop r z N ⟨m.sorted⟩ [] with
    | error e => rw [h2] at h; cases h
    | ok x =>
      rw [h2] at h
      cases h
      rw [hloop N _ _ x.1 x.2 h2]
      exact m.sorted_length

theorem tradeReduction_needed_eq {r : List ℕ} {m : Market} (h : r.length = m.numCategories) (hpos : ∃ x ∈ r, 0 < x) (z : Bool) :
    tradeReduction (neededMarket r m) (needed r r) z = (tradeReduction m r z).map (neededTrade r) ∧
      ∀ t, tradeReduction m r z = .ok t → t.psRecipe = r ∧ t.categories.length = r.length ∧ ∀ i c, rAt r i = 0 → t.categories[i]? = some c → c.values = [] := by
  have hl : m.categories.length = r.length := h.symm
  have hl' : (needed r r).length = (neededMarket r m).numCategories := (needed_length hl).symm
  have hempty : (neededMarket r m).emptyAgentCategories = needed r m.emptyAgentCategories := by
    unfold Market.emptyAgentCategories neededMarket
    rw [needed_map]
  have hemptyl : m.emptyAgentCategories.length = r.length := by unfold Market.emptyAgentCategories; rw [List.length_map, hl]
  have hemptyv : ∀ i c, rAt r i = 0 → m.emptyAgentCategories[i]? = some c → c.values = [] := by
    intro i c _ hc
    obtain ⟨d, -, rfl⟩ := List.mem_map.1 (List.mem_of_getElem? hc)
    rfl
  have hinit : ∀ (cs : List AgentCategory) (q : Option (List ℚ)), cs.length = r.length → (∀ i c, rAt r i = 0 → cs[i]? = some c → c.values = []) → ∀ t, TradeWithSinglePrice.init cs r q = .ok t →
      t.psRecipe = r ∧ t.categories.length = r.length ∧ ∀ i c, rAt r i = 0 → t.categories[i]? = some c → c.values = [] := by
    intro cs q h1 h2 t ht
    unfold TradeWithSinglePrice.init at ht
    cases hp : pyMinNat (TradeWithSinglePrice.potentialDeals cs r) with
    | error e => rw [hp] at ht; cases ht
    | ok d => rw [hp] at ht; cases ht; exact ⟨rfl, h1, h2⟩
  unfold tradeReduction
  rw [if_neg (by simpa using hl'), if_neg (by simpa using h), optimal_needed h hpos, hempty]
  cases hopt : m.optimalTrade r 2000000 true with
  | error e => exact ⟨rfl, by intro t ht; cases ht⟩
  | ok o =>
    obtain ⟨opt, rem⟩ := o
    have hrem : rem.categories.length = r.length := by rw [optimal_length hopt, hl]
    simp only [bind, Except.bind, Except.map]
    split_ifs with h0
    · have := init_needed (r := r) hemptyl (some (List.replicate r.length 0))
      have h2 : needed r (List.replicate r.length (0 : ℚ)) = List.replicate (needed r r).length 0 := by
        have h3 : List.replicate r.length (0 : ℚ) = r.map fun _ => 0 := by simp
        rw [h3, needed_map]; simp
      simp only [Option.map] at this
      rw [h2] at this
      exact ⟨this, hinit _ _ hemptyl hemptyv⟩
    · have h1 : (neededMarket r rem).getHighestAgents (needed r r) = rem.getHighestAgents r := highest_needed hrem
      have h2 : (neededMarket r rem).removeHighestAgents (needed r r) = (rem.removeHighestAgents r).map (neededMarket r) := by
        unfold Market.removeHighestAgents
        rw [show (neededMarket r rem).categories = needed r rem.categories from rfl, remove_needed hrem]
        cases Market.removeHighestAgentsLoop rem.categories r <;> rfl
      have key : ∀ (sets : List (List ℚ)) (rem : Market), rem.categories.length = r.length →
          Except.bind (List.foldlM (psStep (neededMarket r m) (needed r r) (pivotIndexes 0 (needed r r)) (pivotIndexToCategoryIndex 0 (needed r r)) z)
              ({ remaining := McAfee.padEmpty (neededMarket r rem), actualTraders := needed r m.emptyAgentCategories, latestPrices := none, foundExternal := false } : State) sets)
            (fun s => TradeWithSinglePrice.init s.actualTraders (needed r r) s.latestPrices) =
          (Except.bind (List.foldlM (psStep m r (pivotIndexes 0 r) (pivotIndexToCategoryIndex 0 r) z)
              ({ remaining := McAfee.padEmpty rem, actualTraders := m.emptyAgentCategories, latestPrices := none, foundExternal := false } : State) sets)
            (fun s => TradeWithSinglePrice.init s.actualTraders r s.latestPrices)).map (neededTrade r) ∧
          ∀ t, (Except.bind (List.foldlM (psStep m r (pivotIndexes 0 r) (pivotIndexToCategoryIndex 0 r) z)
              ({ remaining := McAfee.padEmpty rem, actualTraders := m.emptyAgentCategories, latestPrices := none, foundExternal := false } : State) sets)
            (fun s => TradeWithSinglePrice.init s.actualTraders r s.latestPrices)) = .ok t →
            t.psRecipe = r ∧ t.categories.length = r.length ∧ ∀ i c, rAt r i = 0 → t.categories[i]? = some c → c.values = [] := by
        intro sets rem hrem
        obtain ⟨k1, k2⟩ := foldlM_sim (neededState r) (FullState r) (psStep m r (pivotIndexes 0 r) (pivotIndexToCategoryIndex 0 r) z)
          (psStep (neededMarket r m) (needed r r) (pivotIndexes 0 (needed r r)) (pivotIndexToCategoryIndex 0 (needed r r)) z) sets
          (fun s hs ps _ => psStep_needed h z hs ps)
          { remaining := McAfee.padEmpty rem, actualTraders := m.emptyAgentCategories, latestPrices := none, foundExternal := false }
          ⟨by unfold McAfee.padEmpty; simpa using hrem, hemptyl, pad_nonempty rem, hemptyv⟩
        rw [pad_needed]
        rw [show (⟨neededMarket r (McAfee.padEmpty rem), needed r m.emptyAgentCategories, none, false⟩ : State) =
          neededState r ⟨McAfee.padEmpty rem, m.emptyAgentCategories, none, false⟩ from rfl, k1]
        cases hfold : List.foldlM (psStep m r (pivotIndexes 0 r) (pivotIndexToCategoryIndex 0 r) z)
          ({ remaining := McAfee.padEmpty rem, actualTraders := m.emptyAgentCategories, latestPrices := none, foundExternal := false } : State) sets with
        | error e => exact ⟨rfl, by intro t ht; cases ht⟩
        | ok s => exact ⟨init_needed (k2 s hfold).traders s.latestPrices, hinit _ _ (k2 s hfold).traders (k2 s hfold).unneeded⟩
      rw [h1]
      cases rem.getHighestAgents r with
      | error e => exact ⟨rfl, by intro t ht; cases ht⟩
      | ok hn =>
        rcases hn with _ | (_ | ⟨x, xs⟩)
        · exact key opt.procurementSets _ hrem
        · exact key opt.procurementSets _ hrem
        · dsimp only
          rw [h2]
          cases h3 : rem.removeHighestAgents r with
          | error e => exact ⟨rfl, by intro t ht; cases ht⟩
          | ok rem' =>
            refine key ((x :: xs) :: opt.procurementSets) rem' ?_
            unfold Market.removeHighestAgents at h3
            cases h4 : Market.removeHighestAgentsLoop rem.categories r with
            | error e => rw [h4] at h3; cases h3
            | ok cs' =>
              rw [h4] at h3
              cases h3
              rw [← hrem]
              exact remove_length h4

end Auctions
