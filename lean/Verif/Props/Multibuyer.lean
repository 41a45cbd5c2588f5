import Verif.Proofs.Multibuyer

set_option autoImplicit false

/-!
# C83 — the old auction with several buyer categories never trades
-/

namespace Auctions.Props

open Auctions Spec Auctions.Multibuyer

/-- **C83**. The recipes: exactly the documented ones are accepted, and a buyer's number of units is the number of sellers in its recipe. All others raise `ValueError`. -/
theorem multibuyer_recipes {n : ℕ} (hn : 0 < n) (rs : List (List ℕ)) :
    (BuyerRecipes n rs → convertRecipesToSellerCounts rs n = .ok ((List.range (n - 1)).map (unitsOf rs))) ∧
    (¬ BuyerRecipes n rs → convertRecipesToSellerCounts rs n = .error .valueError) :=
  ⟨convert_eq hn, convert_error hn⟩

/-- **C83**. Whenever the auction returns there is no deal: the text is `No trade`, and the gain is 0. -/
theorem multibuyer_never_trades {m : Market} {rs : List (List ℕ)} {fuel : ℕ} {t : Multibuyer.Trade} (h : Multibuyer.auction m rs fuel = .ok (some t)) :
    t.numOfDeals = 0 ∧ t.repr = some "No trade" ∧ t.gainFromTrade = some 0 := by
  have key : t.numOfDeals = 0 := by
    unfold Multibuyer.auction at h
    obtain ⟨counts, -, h⟩ := bind_ok_iff.1 h
    obtain ⟨remaining, -, h⟩ := bind_ok_iff.1 h
    dsimp only at h
    split at h
    · obtain ⟨seller, h1, -⟩ := bind_ok_iff.1 h
      simp at h1
    obtain ⟨seller, -, h⟩ := bind_ok_iff.1 h
    obtain ⟨o, ho, h⟩ := bind_ok_iff.1 h
    cases o with
    | none => simp at h
    | some s =>
      simp only at h
      obtain ⟨p0, -, h⟩ := bind_ok_iff.1 h
      obtain ⟨p1, -, h⟩ := bind_ok_iff.1 h
      simp only [Except.ok.injEq, Option.some.injEq] at h
      subst h
      have := run_end ho
      simp only [Trade.numOfDeals, Trade.init]
      rcases this with h1 | h1 <;> rw [h1] <;> simp
  refine ⟨key, ?_, ?_⟩
  · simp [Trade.repr, key]
  · simp [Trade.gainFromTrade, key]

theorem sorted_split {m : Market} (hm : 0 < m.numCategories) : ∃ (buyers : List AgentCategory) (seller : AgentCategory), m.sorted = buyers ++ [seller] ∧
    buyers.length = m.numCategories - 1 ∧ (∀ i (hi : i < buyers.length), buyers[i].values = sortDesc (m.valueLists.getD i [])) ∧
    agents ⟨buyers, seller, AscendingPriceVector.init [1, 1] (-MAX_VALUE)⟩ = m.numAgents := by
  have hl : m.sorted.length = m.numCategories := m.sorted_length
  have hne : m.sorted ≠ [] := by intro h0; rw [h0] at hl; simp at hl; omega
  refine ⟨m.sorted.dropLast, m.sorted.getLast hne, (List.dropLast_append_getLast hne).symm, by rw [List.length_dropLast, hl], ?_, ?_⟩
  · intro i hi
    rw [List.length_dropLast] at hi
    have h1 : vAt m.sorted i = sortDesc (m.valueLists.getD i []) := vAt_sorted m i
    rw [← h1, List.getElem_dropLast]
    unfold vAt
    simp [show i < m.sorted.length by omega]
  · unfold agents
    have h1 : m.sorted.map AgentCategory.size = m.valueLists.map List.length := by
      unfold Market.sorted Market.valueLists
      simp [AgentCategory.size, AgentCategory.clone, AgentCategory.init, sortDesc_length]
    have h2 : (m.sorted.map AgentCategory.size).sum = (m.sorted.dropLast.map AgentCategory.size).sum + (m.sorted.getLast hne).size := by
      conv_lhs => rw [← List.dropLast_append_getLast hne]
      simp
    unfold Market.numAgents
    rw [← h1, h2]

theorem wanted_eq {m : Market} {rs : List (List ℕ)} {buyers : List AgentCategory} (hl : buyers.length = m.numCategories - 1)
    (hv : ∀ i (hi : i < buyers.length), buyers[i].values = sortDesc (m.valueLists.getD i [])) :
    unitsDemanded ((List.range (m.numCategories - 1)).map (unitsOf rs)) buyers = unitsWanted m rs := by
  unfold unitsDemanded unitsWanted
  congr 1
  refine List.ext_getElem (by simp [hl]) fun i hi hi' => ?_
  simp only [List.getElem_zipWith, List.getElem_map, List.getElem_range, AgentCategory.size]
  rw [hv, sortDesc_length]

/-- The auction on a market with categories. -/
theorem auction_eq {m : Market} {rs : List (List ℕ)} (h : BuyerRecipes m.numCategories rs) {buyers : List AgentCategory} {seller : AgentCategory}
    (hs : m.sorted = buyers ++ [seller]) (fuel : ℕ) :
    Multibuyer.auction m rs fuel = (do
      match ← run ((List.range (m.numCategories - 1)).map (unitsOf rs)) fuel true
          (min (unitsDemanded ((List.range (m.numCategories - 1)).map (unitsOf rs)) buyers) seller.size) ⟨buyers, seller, AscendingPriceVector.init [1, 1] (-MAX_VALUE)⟩ with
      | none => .ok none
      | some s => do
        let buyerPrice ← pyGet s.prices.prices 0
        let sellerPrice ← pyGet s.prices.prices 1
        .ok (some (Trade.init s.buyers s.seller ((List.range (m.numCategories - 1)).map (unitsOf rs))
          (((List.range (m.numCategories - 1)).map (unitsOf rs)).map (fun (k : ℕ) => buyerPrice * (k : ℚ)) ++ [sellerPrice])))) := by
  have hm : 0 < m.numCategories := by have := m.sorted_length; rw [hs] at this; simp at this; omega
  have hc : m.categories ≠ [] := by intro h0; simp [Market.numCategories, h0] at hm
  unfold Multibuyer.auction
  rw [convert_eq hm h, Market.clone_eq hc]
  simp only [bind, Except.bind, hs, List.getLast?_append, List.getLast?_singleton, Option.some_or, List.dropLast_concat]
  rfl

/-- **C83**. If no unit is wanted, the auction returns the market as it is, at the initial prices. -/
theorem multibuyer_no_demand {m : Market} {rs : List (List ℕ)} (hm : 0 < m.numCategories) (h : BuyerRecipes m.numCategories rs) (h0 : unitsWanted m rs = 0) {fuel : ℕ}
    (hf : 0 < fuel) :
    ∃ t, Multibuyer.auction m rs fuel = .ok (some t) ∧ t.categories = m.sorted ∧
      t.prices = (List.range (m.numCategories - 1)).map (fun i => -MAX_VALUE * (unitsOf rs i : ℚ)) ++ [-MAX_VALUE] := by
  obtain ⟨buyers, seller, hs, hl, hv, -⟩ := sorted_split hm
  obtain ⟨k, rfl⟩ : ∃ k, fuel = k + 1 := ⟨fuel - 1, by omega⟩
  rw [auction_eq h hs, wanted_eq hl hv, h0, run, if_pos (by rw [wanted_eq hl hv, h0])]
  refine ⟨_, rfl, hs.symm, ?_⟩
  simp [Trade.init, AscendingPriceVector.init]

/-- **C83**. With one buyer category the auction always returns (and, by `multibuyer_never_trades`, without a deal). -/
theorem multibuyer_one_buyer_category {m : Market} {rs : List (List ℕ)} (hm : m.numCategories = 2) (h : BuyerRecipes m.numCategories rs) {fuel : ℕ}
    (hf : 3 * m.numAgents + 3 ≤ fuel) : ∃ t, Multibuyer.auction m rs fuel = .ok (some t) ∧ t.numOfDeals = 0 := by
  obtain ⟨buyers, seller, hs, hl, hv, ha⟩ := sorted_split (m := m) (by omega)
  have hex : ∃ t, Multibuyer.auction m rs fuel = .ok (some t) := by
    rw [auction_eq h hs]
    rw [hm] at hl ⊢
    obtain ⟨b, rfl⟩ : ∃ b, buyers = [b] := List.length_eq_one_iff.1 (by omega)
    have hle : seller.size ≤ m.numAgents := by rw [← ha]; simp [agents]
    simp only [show List.range (2 - 1) = [0] from rfl, List.map_cons, List.map_nil]
    obtain ⟨s', h1, -, h2, h3⟩ := run_single (x := unitsOf rs 0) (fuel := fuel) (phase := true)
      (target := min (unitsDemanded [unitsOf rs 0] [b]) seller.size) (b := b) (s := ⟨[b], seller, AscendingPriceVector.init [1, 1] (-MAX_VALUE)⟩) rfl
      ⟨rfl, rfl⟩ (by simp) (fun h0 => by show 0 < seller.size; omega) (by simp only [if_true]; omega)
    rw [h1]
    obtain ⟨x, y, hxy⟩ := List.length_eq_two.1 h3
    simp only [bind, Except.bind, hxy]
    exact ⟨_, rfl⟩
  obtain ⟨t, ht⟩ := hex
  exact ⟨t, ht, (multibuyer_never_trades ht).1⟩

/-- **C83**. With two or more buyer categories, if any unit is wanted, the auction always raises an exception: `ZeroDivisionError` if all buyer categories have agents but some of them has no
recipe, `IndexError` otherwise. -/
theorem multibuyer_raises {m : Market} {rs : List (List ℕ)} (hm : 3 ≤ m.numCategories) (h : BuyerRecipes m.numCategories rs) (h0 : 0 < unitsWanted m rs) {fuel : ℕ}
    (hf : 3 * m.numAgents + 3 ≤ fuel) :
    Multibuyer.auction m rs fuel = .error (if (∀ i < m.numCategories - 1, m.valueLists.getD i [] ≠ []) ∧ (∃ i < m.numCategories - 1, unitsOf rs i = 0)
      then .zeroDivisionError else .indexError) := by
  obtain ⟨buyers, seller, hs, hl, hv, ha⟩ := sorted_split (m := m) (by omega)
  have hle : seller.size ≤ m.numAgents := by rw [← ha]; simp [agents]
  rw [auction_eq h hs, run_raises (by simp [hl]) (by simp; omega) ⟨rfl, rfl⟩ (by rw [wanted_eq hl hv]; exact h0) (by simp)
    (fun h1 => by show 0 < seller.size; omega) (by simp only [if_true]; omega)]
  simp only [bind, Except.bind]
  congr 1
  refine if_congr (and_congr ?_ ?_) rfl rfl
  · constructor
    · intro hb i hi hnil
      have := hb buyers[i] (List.getElem_mem (by omega))
      rw [hv i (by omega), hnil] at this
      exact this rfl
    · intro hb c hc hnil
      obtain ⟨i, hi, rfl⟩ := List.getElem_of_mem hc
      rw [hv i hi] at hnil
      refine hb i (by omega) ?_
      have := congrArg List.length hnil
      rw [sortDesc_length] at this
      exact List.length_eq_zero_iff.1 (by simpa using this)
  · simp only [List.mem_map, List.mem_range]

/-- **C83**. Malformed recipes raise `ValueError`. -/
theorem multibuyer_malformed {m : Market} {rs : List (List ℕ)} (hm : 0 < m.numCategories) (h : ¬ BuyerRecipes m.numCategories rs) (fuel : ℕ) :
    Multibuyer.auction m rs fuel = .error .valueError := by
  unfold Multibuyer.auction
  rw [convert_error hm h]; rfl

/-- **C83**, negative results (and non-vacuity): three of the examples in the documentation of the auction promise a trade (one seller and one buyer at price 4; one buyer at price 8;
one buyer and two sellers at prices 8 and -4). The prices are the promised ones, but all buyers are sent away and nobody trades. -/
theorem multibuyer_documented_examples :
    Multibuyer.auction ⟨[⟨"buyer", [9]⟩, ⟨"seller", [-4, -3]⟩]⟩ [[1, 1]] 100 = .ok (some ⟨[⟨"buyer", []⟩, ⟨"seller", [-3]⟩], [4, -4], 1, 0⟩) ∧
    Multibuyer.auction ⟨[⟨"buyer", [9, 8]⟩, ⟨"seller", [-4, -3]⟩]⟩ [[1, 1]] 100 = .ok (some ⟨[⟨"buyer", []⟩, ⟨"seller", [-3]⟩], [8, -8], 1, 0⟩) ∧
    Multibuyer.auction ⟨[⟨"buyer", [9, 8, 7, 6]⟩, ⟨"seller", [-6, -5, -4, -3, -2, -1]⟩]⟩ [[1, 2]] 100 =
      .ok (some ⟨[⟨"buyer", []⟩, ⟨"seller", [-1, -2]⟩], [8, -4], 2, 0⟩) := by
  decide +kernel

/-- Non-vacuity: the recipes of the documentation, for two buyer categories; the auction raises `IndexError`. -/
example : BuyerRecipes 3 [[1, 0, 1], [0, 1, 2]] ∧ convertRecipesToSellerCounts [[1, 0, 1], [0, 1, 2]] 3 = .ok [1, 2] ∧
    unitsWanted ⟨[⟨"b", [9, 8]⟩, ⟨"c", [7]⟩, ⟨"s", [-3, -2, -1]⟩]⟩ [[1, 0, 1], [0, 1, 2]] = 4 ∧
    Multibuyer.auction ⟨[⟨"b", [9, 8]⟩, ⟨"c", [7]⟩, ⟨"s", [-3, -2, -1]⟩]⟩ [[1, 0, 1], [0, 1, 2]] 100 = .error .indexError ∧
    Multibuyer.auction ⟨[⟨"b", [9, 8]⟩, ⟨"c", [7]⟩, ⟨"s", [-3, -2, -1]⟩]⟩ [[1, 0, 1]] 100 = .error .zeroDivisionError := by
  refine ⟨⟨by simp, by simp, ?_⟩, by decide, by decide +kernel, by decide +kernel, by decide +kernel⟩
  simp only [List.pairwise_cons, List.mem_singleton, forall_eq, List.not_mem_nil, false_imp_iff, implies_true, List.Pairwise.nil, and_true]
  intro i h1 h2
  match i with
  | 0 => simp at h2
  | 1 => simp at h1
  | i + 2 => simp at h1

end Auctions.Props
