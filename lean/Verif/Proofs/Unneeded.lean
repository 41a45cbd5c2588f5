import Verif.Spec.Unneeded
import Verif.Proofs.Prices
import Verif.Proofs.Ascending

set_option autoImplicit false

/-! # Helper lemmas: leaving out the categories that the recipe does not need -/

namespace Auctions

open Auctions.Spec

section lists
variable {α β : Type}

@[simp] theorem needed_nil (r : List ℕ) : needed r ([] : List α) = [] := by simp [needed]
theorem needed_nil_left (l : List α) : needed [] l = [] := by simp [needed]
theorem needed_zero (r : List ℕ) (x : α) (l : List α) : needed (0 :: r) (x :: l) = needed r l := by simp [needed]
theorem needed_pos {n : ℕ} (hn : 0 < n) (r : List ℕ) (x : α) (l : List α) : needed (n :: r) (x :: l) = x :: needed r l := by simp [needed, hn]

theorem needed_map (f : α → β) (r : List ℕ) (l : List α) : needed r (l.map f) = (needed r l).map f := by
  induction r generalizing l with
  | nil => simp [needed_nil_left]
  | cons n r ih =>
    cases l with
    | nil => simp
    | cons x l =>
      rcases Nat.eq_zero_or_pos n with rfl | hn
      · rw [List.map_cons, needed_zero, needed_zero, ih]
      · rw [List.map_cons, needed_pos hn, needed_pos hn, ih, List.map_cons]

theorem needed_length {r : List ℕ} {l : List α} (h : l.length = r.length) : (needed r l).length = (needed r r).length := by
  induction r generalizing l with
  | nil => simp [needed_nil_left]
  | cons n r ih =>
    cases l with
    | nil => simp at h
    | cons x l =>
      rcases Nat.eq_zero_or_pos n with rfl | hn
      · rw [needed_zero, needed_zero, ih (by simpa using h)]
      · rw [needed_pos hn, needed_pos hn, List.length_cons, List.length_cons, ih (by simpa using h)]

/-- The new place of category `i`. -/
def rk (r : List ℕ) (i : ℕ) : ℕ := (r.take i).countP (0 < ·)

theorem rk_cons_succ (n : ℕ) (r : List ℕ) (i : ℕ) : rk (n :: r) (i + 1) = rk r i + if 0 < n then 1 else 0 := by
  unfold rk
  rw [List.take_succ_cons, List.countP_cons]
  simp

theorem rk_zero (r : List ℕ) : rk r 0 = 0 := rfl

theorem needed_get {r : List ℕ} {l : List α} {i : ℕ} (hi : 0 < rAt r i) : (needed r l)[rk r i]? = l[i]? := by
  induction r generalizing l i with
  | nil => simp [rAt] at hi
  | cons n r ih =>
    cases l with
    | nil => simp
    | cons x l =>
      cases i with
      | zero =>
        have hn : 0 < n := by simpa [rAt] using hi
        rw [needed_pos hn, rk_zero]; rfl
      | succ i =>
        have hi' : 0 < rAt r i := by simpa [rAt] using hi
        rw [rk_cons_succ]
        rcases Nat.eq_zero_or_pos n with rfl | hn
        · rw [needed_zero, if_neg (by omega), Nat.add_zero, ih hi']; rfl
        · rw [needed_pos hn, if_pos hn, List.getElem?_cons_succ, ih hi', List.getElem?_cons_succ]

theorem needed_set {r : List ℕ} {l : List α} {i : ℕ} (hi : 0 < rAt r i) (x : α) : needed r (l.set i x) = (needed r l).set (rk r i) x := by
  induction r generalizing l i with
  | nil => simp [rAt] at hi
  | cons n r ih =>
    cases l with
    | nil => simp
    | cons y l =>
      cases i with
      | zero =>
        have hn : 0 < n := by simpa [rAt] using hi
        rw [List.set_cons_zero, needed_pos hn, needed_pos hn, rk_zero, List.set_cons_zero]
      | succ i =>
        have hi' : 0 < rAt r i := by simpa [rAt] using hi
        rw [rk_cons_succ, List.set_cons_succ]
        rcases Nat.eq_zero_or_pos n with rfl | hn
        · rw [needed_zero, needed_zero, if_neg (by omega), Nat.add_zero, ih hi']
        · rw [needed_pos hn, needed_pos hn, if_pos hn, List.set_cons_succ, ih hi']

theorem rank_relevant (r : List ℕ) : ((List.range r.length).filter fun i => 0 < rAt r i).map (rk r) = List.range (needed r r).length := by
  induction r with
  | nil => simp
  | cons n r ih =>
    have h1 : (List.filter (fun i => decide (0 < rAt (n :: r) i)) (List.map Nat.succ (List.range r.length))) = ((List.range r.length).filter fun i => 0 < rAt r i).map Nat.succ := by
      rw [List.filter_map]
      rfl
    have h2 : ∀ l : List ℕ, (l.map Nat.succ).map (rk (n :: r)) = (l.map (rk r)).map fun k => k + if 0 < n then 1 else 0 := by
      intro l
      rw [List.map_map, List.map_map]
      refine List.map_congr_left fun i _ => ?_
      exact rk_cons_succ n r i
    rw [List.length_cons, List.range_succ_eq_map]
    rcases Nat.eq_zero_or_pos n with rfl | hn
    · rw [List.filter_cons_of_neg (by simp [rAt]), h1, h2, ih, needed_zero]
      simp
    · rw [List.filter_cons_of_pos (by simpa [rAt] using hn), List.map_cons, h1, h2, ih, needed_pos hn, List.length_cons, List.range_succ_eq_map, rk_zero]
      simp [hn]

theorem pyMaxBy_map {γ : Type} (f : γ → ℚ) (g : α → γ) (l : List α) : pyMaxBy f (l.map g) = (pyMaxBy (fun x => f (g x)) l).map g := by
  cases l with
  | nil => rfl
  | cons x l =>
    simp only [List.map_cons, pyMaxBy, Except.map, Except.ok.injEq]
    induction l generalizing x with
    | nil => rfl
    | cons y l ih =>
      rw [List.map_cons, List.foldl_cons, List.foldl_cons, ← ih]
      congr 1
      split_ifs <;> rfl

theorem dot_needed {p : List ℚ} {r : List ℕ} (h : p.length = r.length) : dot (needed r p) (needed r r) = dot p r := by
  induction r generalizing p with
  | nil => cases p with
    | nil => rfl
    | cons => simp at h
  | cons n r ih =>
    cases p with
    | nil => simp at h
    | cons x p =>
      have := ih (p := p) (by simpa using h)
      rcases Nat.eq_zero_or_pos n with rfl | hn
      · rw [needed_zero, needed_zero, this, dot]; simp
      · rw [needed_pos hn, needed_pos hn, dot, this, dot]

end lists

/-! ## The optimal trade -/

theorem highest_needed {cs : List AgentCategory} {r : List ℕ} (h : cs.length = r.length) :
    Market.getHighestAgentsLoop (needed r cs) (needed r r) = Market.getHighestAgentsLoop cs r := by
  induction r generalizing cs with
  | nil => cases cs with
    | nil => rfl
    | cons => simp at h
  | cons n r ih =>
    cases cs with
    | nil => simp at h
    | cons c cs =>
      have := ih (cs := cs) (by simpa using h)
      rcases Nat.eq_zero_or_pos n with rfl | hn
      · rw [needed_zero, needed_zero, this, Market.getHighestAgentsLoop, if_neg (by omega)]
        cases Market.getHighestAgentsLoop cs r with
        | error e => rfl
        | ok o => cases o <;> rfl
      · rw [needed_pos hn, needed_pos hn, Market.getHighestAgentsLoop, this, Market.getHighestAgentsLoop]

theorem remove_needed {cs : List AgentCategory} {r : List ℕ} (h : cs.length = r.length) :
    Market.removeHighestAgentsLoop (needed r cs) (needed r r) = (Market.removeHighestAgentsLoop cs r).map (needed r) := by
  induction r generalizing cs with
  | nil => cases cs with
    | nil => rfl
    | cons => simp at h
  | cons n r ih =>
    cases cs with
    | nil => simp at h
    | cons c cs =>
      have := ih (cs := cs) (by simpa using h)
      rcases Nat.eq_zero_or_pos n with rfl | hn
      · rw [needed_zero, needed_zero, this, Market.removeHighestAgentsLoop]
        cases Market.removeHighestAgentsLoop cs r with
        | error e => rfl
        | ok o => simp [AgentCategory.removeHighestAgents, bind, Except.bind, Except.map, needed_zero]
      · rw [needed_pos hn, needed_pos hn, Market.removeHighestAgentsLoop, this, Market.removeHighestAgentsLoop]
        cases c.removeHighestAgents n with
        | error e => rfl
        | ok c' =>
          cases Market.removeHighestAgentsLoop cs r with
          | error e => rfl
          | ok o => simp [bind, Except.bind, Except.map, needed_pos hn]

theorem remove_length {cs cs' : List AgentCategory} {r : List ℕ} (h : Market.removeHighestAgentsLoop cs r = .ok cs') : cs'.length = cs.length := by
  induction cs generalizing r cs' with
  | nil => cases r <;> simp_all [Market.removeHighestAgentsLoop]
  | cons c cs ih =>
    cases r with
    | nil => simp [Market.removeHighestAgentsLoop] at h
    | cons n r =>
      unfold Market.removeHighestAgentsLoop at h
      simp only [bind, Except.bind] at h
      cases h1 : c.removeHighestAgents n with
      | error e => rw [h1] at h; simp at h
      | ok c' =>
        rw [h1] at h
        cases h2 : Market.removeHighestAgentsLoop cs r with
        | error e => rw [h2] at h; simp at h
        | ok o => rw [h2] at h; simp only [Except.ok.injEq] at h; rw [← h, List.length_cons, ih h2, List.length_cons]

theorem optimalLoop_needed {r : List ℕ} (z : Bool) (N : ℕ) {m : Market} (h : m.categories.length = r.length) (acc : List (List ℚ)) :
    Market.optimalTradeLoop (needed r r) z N (neededMarket r m) acc = (Market.optimalTradeLoop r z N m acc).map fun x => (x.1, neededMarket r x.2) := by
  induction N generalizing m acc with
  | zero => rfl
  | succ N ih =>
    have h1 : (neededMarket r m).getHighestAgents (needed r r) = m.getHighestAgents r := highest_needed h
    have h2 : (neededMarket r m).removeHighestAgents (needed r r) = (m.removeHighestAgents r).map (neededMarket r) := by
      unfold Market.removeHighestAgents
      rw [show (neededMarket r m).categories = needed r m.categories from rfl, remove_needed h]
      cases Market.removeHighestAgentsLoop m.categories r <;> rfl
    rw [Market.optimalTradeLoop, Market.optimalTradeLoop, h1, h2]
    cases m.getHighestAgents r with
    | error e => rfl
    | ok o =>
      cases o with
      | none => rfl
      | some ps =>
        simp only [bind, Except.bind]
        split_ifs
        · rfl
        · cases h3 : m.removeHighestAgents r with
          | error e => rfl
          | ok m' =>
            simp only [Except.map]
            refine ih ?_ _
            unfold Market.removeHighestAgents at h3
            cases h4 : Market.removeHighestAgentsLoop m.categories r with
            | error e => rw [h4] at h3; simp [bind, Except.bind] at h3
            | ok cs' =>
              rw [h4] at h3
              simp only [bind, Except.bind, Except.ok.injEq] at h3
              rw [← h3, ← h]
              exact remove_length h4

theorem needed_ne_nil {α : Type} {r : List ℕ} {l : List α} (h : l.length = r.length) (hpos : ∃ x ∈ r, 0 < x) : needed r l ≠ [] := by
  induction r generalizing l with
  | nil => simp at hpos
  | cons n r ih =>
    cases l with
    | nil => simp at h
    | cons x l =>
      rcases Nat.eq_zero_or_pos n with rfl | hn
      · rw [needed_zero]
        refine ih (by simpa using h) ?_
        obtain ⟨y, hy, hy'⟩ := hpos
        rcases List.mem_cons.1 hy with rfl | hy
        · omega
        · exact ⟨y, hy, hy'⟩
      · rw [needed_pos hn]; simp

theorem sorted_needed (r : List ℕ) (m : Market) : (neededMarket r m).sorted = needed r m.sorted := by
  unfold Market.sorted neededMarket
  rw [needed_map]

theorem optimal_needed {r : List ℕ} {m : Market} (h : r.length = m.numCategories) (hpos : ∃ x ∈ r, 0 < x) (N : ℕ) (z : Bool) :
    (neededMarket r m).optimalTrade (needed r r) N z = (m.optimalTrade r N z).map fun x => (x.1, neededMarket r x.2) := by
  have hc : m.categories ≠ [] := by
    rintro h0
    rw [Market.numCategories, h0, List.length_nil, List.length_eq_zero_iff] at h
    simp [h] at hpos
  have hl : m.categories.length = r.length := h.symm
  have hl' : (needed r r).length = (neededMarket r m).numCategories := (needed_length hl).symm
  unfold Market.optimalTrade
  rw [if_neg (by simpa using hl'), if_neg (by simpa using h), Market.clone_eq hc, Market.clone_eq (m := neededMarket r m) (needed_ne_nil hl hpos), sorted_needed]
  simp only [bind, Except.bind]
  have := optimalLoop_needed (r := r) z N (m := ⟨m.sorted⟩) (by rw [m.sorted_length, h]) []
  rw [show (⟨needed r m.sorted⟩ : Market) = neededMarket r ⟨m.sorted⟩ from rfl, this]
  cases Market.optimalTradeLoop r z N ⟨m.sorted⟩ [] <;> rfl

/-! ## The ascending auction -/

/-- The price vector without the categories that are not needed. -/
def neededVec (r : List ℕ) (p : AscendingPriceVector) : AscendingPriceVector := ⟨needed r p.psRecipe, needed r p.prices, p.status⟩

theorem pyGet_needed {α : Type} {r : List ℕ} {l : List α} {i : ℕ} (hi : 0 < rAt r i) : pyGet (needed r l) (rk r i) = pyGet l i := by
  unfold pyGet; rw [needed_get hi]

theorem increase_needed {p : AscendingPriceVector} (h : p.prices.length = p.psRecipe.length) {i : ℕ} (hi : 0 < rAt p.psRecipe i) (v : ℚ) :
    (neededVec p.psRecipe p).increasePriceUpToBalance (rk p.psRecipe i) v = (p.increasePriceUpToBalance i v).map (neededVec p.psRecipe) := by
  have hs : (neededVec p.psRecipe p).priceSum = p.priceSum := dot_needed h
  unfold AscendingPriceVector.increasePriceUpToBalance AscendingPriceVector.priceSumWithoutCategory
  rw [hs]
  simp only [show (neededVec p.psRecipe p).psRecipe = needed p.psRecipe p.psRecipe from rfl, show (neededVec p.psRecipe p).prices = needed p.psRecipe p.prices from rfl, pyGet_needed hi]
  simp only [bind, Except.bind]
  cases pyGet p.psRecipe i with
  | error e => rfl
  | ok n =>
    cases pyGet p.prices i with
    | error e => rfl
    | ok q =>
      dsimp only
      split_ifs
      · cases pyDiv (0 - (p.priceSum - n * q)) n with
        | error e => rfl
        | ok x => simp only [Except.map, neededVec, needed_set hi]
      · simp only [Except.map, neededVec, needed_set hi]

theorem increase_recipe {p p' : AscendingPriceVector} {i : ℕ} {v : ℚ} (h : p.increasePriceUpToBalance i v = .ok p') :
    p'.psRecipe = p.psRecipe ∧ p'.prices.length = p.prices.length := by
  unfold AscendingPriceVector.increasePriceUpToBalance at h
  simp only [bind, Except.bind] at h
  cases h1 : pyGet p.psRecipe i with
  | error e => rw [h1] at h; simp at h
  | ok n =>
    rw [h1] at h
    dsimp only at h
    cases h2 : p.priceSumWithoutCategory i with
    | error e => rw [h2] at h; simp at h
    | ok s =>
      rw [h2] at h
      dsimp only at h
      split_ifs at h
      · cases h3 : pyDiv (0 - s) n with
        | error e => rw [h3] at h; simp at h
        | ok x => rw [h3] at h; cases h; simp
      · cases h; simp

theorem loop_needed {r rel : List ℕ} (hrel : ∀ i ∈ rel, 0 < rAt r i) (fuel : ℕ) {m : Market} {p : AscendingPriceVector} (hm : m.categories.length = r.length) (hr : p.psRecipe = r) (hp : p.prices.length = r.length) :
    Ascending.loop (needed r r) (rel.map (rk r)) fuel (neededMarket r m) (neededVec r p) =
      (Ascending.loop r rel fuel m p).map (Option.map fun x => (neededMarket r x.1, neededVec r x.2)) := by
  induction fuel generalizing m p with
  | zero => rfl
  | succ fuel ih =>
    rw [Ascending.loop, Ascending.loop, pyMaxBy_map]
    have hf : pyMaxBy (fun i => Ascending.fractionalPotentialPs (neededMarket r m) (needed r r) (rk r i)) rel = pyMaxBy (Ascending.fractionalPotentialPs m r) rel := by
      refine Ascending.pyMaxBy_congr fun i hi => ?_
      unfold Ascending.fractionalPotentialPs Ascending.sizeAt Ascending.recipeAt
      rw [show (neededMarket r m).categories = needed r m.categories from rfl, needed_get (hrel i hi), needed_get (hrel i hi)]
    rw [hf]
    cases hmain : pyMaxBy (Ascending.fractionalPotentialPs m r) rel with
    | error e => rfl
    | ok i =>
      have hne : rel ≠ [] := by rintro rfl; cases hmain
      have hi : 0 < rAt r i := by
        obtain ⟨x, hx, hx1, -⟩ := Ascending.pyMaxBy_spec (Ascending.fractionalPotentialPs m r) hne
        rw [hmain] at hx
        cases hx
        exact hrel _ hx1
      simp only [bind, Except.bind, Except.map]
      rw [show (neededMarket r m).categories = needed r m.categories from rfl, pyGet_needed hi]
      cases pyGet m.categories i with
      | error e => rfl
      | ok c =>
        dsimp only
        split_ifs with hz
        · rfl
        · cases c.lowestAgentValue with
          | error e => rfl
          | ok v =>
            dsimp only
            have hinc := increase_needed (p := p) (i := i) (by rw [hp, hr]) (by rw [hr]; exact hi) v
            rw [hr] at hinc
            rw [hinc]
            cases hinc' : p.increasePriceUpToBalance i v with
            | error e => rfl
            | ok p' =>
              obtain ⟨e1, e2⟩ := increase_recipe hinc'
              simp only [Except.map, show (neededVec r p').status = p'.status from rfl]
              split_ifs with hst
              · rfl
              · cases c.removeLowestAgent with
                | error e => rfl
                | ok c' =>
                  dsimp only
                  have := ih (m := ⟨m.categories.set i c'⟩) (p := p') (by simpa using hm) (by rw [e1, hr]) (by rw [e2, hp])
                  rw [show neededMarket r ⟨m.categories.set i c'⟩ = ⟨(needed r m.categories).set (rk r i) c'⟩ by unfold neededMarket; rw [needed_set hi]] at this
                  exact this

theorem needed_self_pos {r : List ℕ} {j : ℕ} (hj : j < (needed r r).length) : 0 < rAt (needed r r) j := by
  have : ∀ x ∈ needed r r, 0 < x := by
    intro x hx
    unfold needed at hx
    obtain ⟨⟨a, b⟩, hy, rfl⟩ := List.mem_map.1 hx
    rw [List.mem_filter] at hy
    obtain ⟨h1, h2⟩ := hy
    have h2 : 0 < b := by simpa using h2
    have : a = b := by
      obtain ⟨k, hk, he⟩ := List.mem_iff_getElem.1 h1
      rw [List.getElem_zip] at he
      cases he; rfl
    rw [this]; exact h2
  have h := this _ (List.getElem_mem hj)
  unfold rAt
  simpa [List.getD_eq_getElem?_getD, List.getElem?_eq_getElem hj] using h

theorem potential_needed {cs : List AgentCategory} {r : List ℕ} (h : cs.length = r.length) :
    TradeWithSinglePrice.potentialDeals (needed r cs) (needed r r) = TradeWithSinglePrice.potentialDeals cs r := by
  induction r generalizing cs with
  | nil => cases cs with
    | nil => rfl
    | cons => simp at h
  | cons n r ih =>
    cases cs with
    | nil => simp at h
    | cons c cs =>
      have := ih (cs := cs) (by simpa using h)
      rcases Nat.eq_zero_or_pos n with rfl | hn
      · rw [needed_zero, needed_zero, this, TradeWithSinglePrice.potentialDeals, if_neg (by omega)]
      · rw [needed_pos hn, needed_pos hn, TradeWithSinglePrice.potentialDeals, TradeWithSinglePrice.potentialDeals, if_pos hn, if_pos hn, this]

theorem init_needed {cs : List AgentCategory} {r : List ℕ} (h : cs.length = r.length) (p : Option (List ℚ)) :
    TradeWithSinglePrice.init (needed r cs) (needed r r) (p.map (needed r)) = (TradeWithSinglePrice.init cs r p).map (neededTrade r) := by
  unfold TradeWithSinglePrice.init
  rw [potential_needed h]
  cases pyMinNat (TradeWithSinglePrice.potentialDeals cs r) <;> rfl

theorem loop_lengths {r rel : List ℕ} (fuel : ℕ) {m m' : Market} {p p' : AscendingPriceVector} (h : Ascending.loop r rel fuel m p = .ok (some (m', p'))) :
    m'.categories.length = m.categories.length := by
  induction fuel generalizing m p with
  | zero => cases h
  | succ fuel ih =>
    rw [Ascending.loop] at h
    simp only [bind, Except.bind] at h
    cases h1 : pyMaxBy (Ascending.fractionalPotentialPs m r) rel with
    | error e => rw [h1] at h; cases h
    | ok i =>
      rw [h1] at h; dsimp only at h
      cases h2 : pyGet m.categories i with
      | error e => rw [h2] at h; cases h
      | ok c =>
        rw [h2] at h; dsimp only at h
        split_ifs at h
        · cases h; rfl
        · cases h3 : c.lowestAgentValue with
          | error e => rw [h3] at h; cases h
          | ok v =>
            rw [h3] at h; dsimp only at h
            cases h4 : p.increasePriceUpToBalance i v with
            | error e => rw [h4] at h; cases h
            | ok q =>
              rw [h4] at h; dsimp only at h
              split_ifs at h
              · cases h; rfl
              · cases h5 : c.removeLowestAgent with
                | error e => rw [h5] at h; cases h
                | ok c' =>
                  rw [h5] at h; dsimp only at h
                  have := ih h
                  simpa using this

theorem relevant_needed {r : List ℕ} {m : Market} (h : r.length = m.numCategories) :
    Ascending.relevantCategoryIndices (neededMarket r m) (needed r r) = (Ascending.relevantCategoryIndices m r).map (rk r) := by
  unfold Ascending.relevantCategoryIndices
  have h1 : (neededMarket r m).numCategories = (needed r r).length := needed_length h.symm
  simp only [Ascending.recipeAt_eq, gt_iff_lt]
  rw [← h, rank_relevant, h1, List.filter_eq_self.2]
  intro j hj
  simpa using needed_self_pos (List.mem_range.1 hj)

theorem init_vec_needed (r : List ℕ) (q : ℚ) : AscendingPriceVector.init (needed r r) q = neededVec r (AscendingPriceVector.init r q) := by
  unfold AscendingPriceVector.init neededVec
  congr 1
  have : List.replicate r.length q = r.map fun _ => q := by simp
  rw [this, needed_map]
  simp

theorem ascending_needed_eq {r : List ℕ} {m : Market} (h : r.length = m.numCategories) (hpos : ∃ x ∈ r, 0 < x) (fuel N : ℕ) :
    Ascending.auction (neededMarket r m) (needed r r) fuel N = (Ascending.auction m r fuel N).map (Option.map (neededTrade r)) := by
  have hc : m.categories ≠ [] := by
    rintro h0
    rw [Market.numCategories, h0, List.length_nil, List.length_eq_zero_iff] at h
    simp [h] at hpos
  have hl : m.categories.length = r.length := h.symm
  have hl' : (needed r r).length = (neededMarket r m).numCategories := (needed_length hl).symm
  unfold Ascending.auction
  rw [if_neg (by simpa using hl'), if_neg (by simpa using h), Market.clone_eq hc, Market.clone_eq (m := neededMarket r m) (needed_ne_nil hl hpos), sorted_needed, optimal_needed h hpos,
    relevant_needed h, init_vec_needed]
  simp only [bind, Except.bind]
  cases m.optimalTrade r N with
  | error e => rfl
  | ok o =>
    simp only [Except.map]
    have hlen : (⟨m.sorted⟩ : Market).categories.length = r.length := by rw [h]; exact m.sorted_length
    have := loop_needed (r := r) (rel := Ascending.relevantCategoryIndices m r) (by
      intro i hi
      unfold Ascending.relevantCategoryIndices at hi
      have := (List.mem_filter.1 hi).2
      rw [Ascending.recipeAt_eq] at this
      simpa using this) fuel (m := ⟨m.sorted⟩) (p := AscendingPriceVector.init r (-MAX_VALUE)) hlen rfl (by simp [AscendingPriceVector.init])
    rw [show (⟨needed r m.sorted⟩ : Market) = neededMarket r ⟨m.sorted⟩ from rfl, this]
    cases hloop : Ascending.loop r (Ascending.relevantCategoryIndices m r) fuel ⟨m.sorted⟩ (AscendingPriceVector.init r (-MAX_VALUE)) with
    | error e => rfl
    | ok o =>
      cases o with
      | none => rfl
      | some x =>
        obtain ⟨m', p'⟩ := x
        simp only [Except.map, Option.map]
        have := init_needed (cs := m'.categories) (r := r) (by rw [loop_lengths fuel hloop]; exact hlen) (some p'.prices)
        simp only [Option.map] at this
        rw [show (neededMarket r m').categories = needed r m'.categories from rfl, show (neededVec r p').prices = needed r p'.prices from rfl, this]
        cases TradeWithSinglePrice.init m'.categories r (some p'.prices) <;> rfl

end Auctions
