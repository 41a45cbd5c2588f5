import Verif.Model.BadInputSearch
import Verif.Spec.BadInputSearch
import Verif.Props.Experiment

set_option autoImplicit false

/-!
# C92 — the search for a market in which the auction makes too many deals
-/

namespace Auctions.Props

open Auctions Spec BadInputSearch

theorem removeSecondsFrom_eq (n : ℕ) (l : List ℚ) (i : ℕ) :
    removeSecondsFrom n i l = ((List.range l.length).filter (fun j => ¬ n ∣ i + j)).map (fun j => l.getD j 0) := by
  induction l generalizing i with
  | nil => rfl
  | cons p l ih =>
    rw [removeSecondsFrom, ih (i + 1), List.length_cons, List.range_succ_eq_map]
    have e : ((List.range l.length).map Nat.succ).filter (fun j => ¬ n ∣ i + j)
        = ((List.range l.length).filter (fun j => ¬ n ∣ i + 1 + j)).map Nat.succ := by
      rw [List.filter_map]
      congr 1
      refine List.filter_congr fun j _ => ?_
      simp only [Function.comp, Nat.succ_eq_add_one]
      rw [decide_eq_decide, show i + (j + 1) = i + 1 + j by ring]
    have e2 : (fun j => (p :: l).getD j 0) ∘ Nat.succ = fun j => l.getD j 0 := by
      funext j; simp [Function.comp]
    by_cases h : n ∣ i
    · rw [if_neg (by simpa using Nat.mod_eq_zero_of_dvd h), List.filter_cons_of_neg (by simpa using h), e, List.map_map, e2]
    · rw [if_pos (fun h0 => h (Nat.dvd_of_mod_eq_zero h0)), List.filter_cons_of_pos (by simpa using h), List.map_cons, e, List.map_map, e2]
      simp

theorem removeSeconds_eq (l : List ℚ) (n : ℕ) : removeSeconds l n = withoutMultiples n l := by
  rw [removeSeconds, removeSecondsFrom_eq, withoutMultiples]
  simp

theorem withoutMultiples_mem {n : ℕ} {l : List ℚ} {v : ℚ} (h : v ∈ withoutMultiples n l) : v ∈ l := by
  rw [withoutMultiples, List.mem_map] at h
  obtain ⟨i, hi, rfl⟩ := h
  have hl : i < l.length := by simpa using (List.mem_filter.1 hi).1
  rw [List.getD_eq_getElem?_getD, List.getElem?_eq_getElem hl, Option.getD_some]
  exact List.getElem_mem hl

theorem withoutMultiples_length (n : ℕ) (l : List ℚ) : (withoutMultiples n l).length ≤ l.length := by
  rw [withoutMultiples, List.length_map]
  exact le_trans (List.length_filter_le _ _) (by simp)

/-- The values allowed: those that the auction is made for. -/
structure SearchInput (buyers sellers : List ℚ) (recipe : List ℕ) : Prop where
  pair : ∃ a b, 0 < a ∧ 0 < b ∧ recipe = [a, b]
  low : ∀ v ∈ buyers ++ sellers, -MAX_VALUE ≤ v
  high : ∀ v ∈ buyers ++ sellers, (recipe.sum : ℚ) * v < MAX_VALUE
  agents : (buyers ++ sellers).length ≤ 2000000

/-- One round of the search. -/
theorem round_ok {buyers sellers : List ℚ} {recipe : List ℕ} (h : SearchInput buyers sellers recipe) {shuffle : ℕ → List ℚ → List ℚ}
    (hs : ∀ k l, (shuffle k l).Perm l) {fuel : ℕ} (hf : (buyers ++ sellers).length < fuel) (s : State) :
    ∃ s', BadInputSearch.round buyers sellers recipe shuffle fuel s = .ok (some s') ∧ s'.reduceNumber = s.reduceNumber + 1 ∧ s'.rounds = s.rounds + 1 ∧
      s'.auctionDeals ≤ s'.optimalDeals ∧ s'.optimalDeals ≤ s'.auctionDeals + 1 ∧
      (∃ p : List ℚ, p.Perm buyers ∧ s'.buyers = withoutMultiples s'.reduceNumber p) ∧ (∃ p : List ℚ, p.Perm sellers ∧ s'.sellers = withoutMultiples s'.reduceNumber p) := by
  obtain ⟨a, b, ha, hb, rfl⟩ := h.pair
  set B := removeSeconds (shuffle (2 * s.rounds) buyers) (s.reduceNumber + 1) with hB
  set S := removeSeconds (shuffle (2 * s.rounds + 1) sellers) (s.reduceNumber + 1) with hS
  have hBm : ∀ v ∈ B, v ∈ buyers ++ sellers := fun v hv => by
    rw [hB, removeSeconds_eq] at hv
    exact List.mem_append_left _ ((hs _ _).mem_iff.1 (withoutMultiples_mem hv))
  have hSm : ∀ v ∈ S, v ∈ buyers ++ sellers := fun v hv => by
    rw [hS, removeSeconds_eq] at hv
    exact List.mem_append_right _ ((hs _ _).mem_iff.1 (withoutMultiples_mem hv))
  have hBl : B.length ≤ buyers.length := by
    rw [hB, removeSeconds_eq, ← (hs (2 * s.rounds) buyers).length_eq]; exact withoutMultiples_length _ _
  have hSl : S.length ≤ sellers.length := by
    rw [hS, removeSeconds_eq, ← (hs (2 * s.rounds + 1) sellers).length_eq]; exact withoutMultiples_length _ _
  set m : Market := ⟨[AgentCategory.init "buyer" B, AgentCategory.init "seller" S]⟩ with hm
  have hvals : ∀ c ∈ m.categories, ∀ v ∈ c.values, v ∈ buyers ++ sellers := by
    intro c hc v hv
    simp only [hm, List.mem_cons, List.not_mem_nil, or_false] at hc
    rcases hc with rfl | rfl
    · exact hBm v ((sortDesc_perm _).mem_iff.1 hv)
    · exact hSm v ((sortDesc_perm _).mem_iff.1 hv)
  have hu : Usable [a, b] B.length ((buyers ++ sellers).length) m := by
    refine ⟨rfl, ⟨0, by simp [hm], ?_⟩, fun c hc v hv => h.low v (hvals c hc v hv), fun c hc v hv => h.high v (hvals c hc v hv), ?_⟩
    · simp only [hm, List.getElem_cons_zero, AgentCategory.init, AgentCategory.size, sortDesc_length, List.getD_cons_zero]
      nlinarith
    · simp only [hm, Market.numAgents, Market.valueLists, AgentCategory.init, List.map_cons, List.map_nil, List.sum_cons, List.sum_nil, sortDesc_length, AgentCategory.size, List.length_append]
      omega
  obtain ⟨x, ⟨opt, rem, t, h1, h2, h3, h4, -⟩, hfine, -⟩ := ascending_fine (r := [a, b]) (by simp [ha, hb]) (by simp) hu h.agents hf
  refine ⟨⟨t.numOfDeals, opt.numOfDeals, s.reduceNumber + 1, s.rounds + 1, B, S⟩, ?_, rfl, rfl, ?_, ?_, ⟨_, hs _ _, removeSeconds_eq _ _⟩, ⟨_, hs _ _, removeSeconds_eq _ _⟩⟩
  · unfold BadInputSearch.round
    simp only [Market.init]
    rw [← hB, ← hS, ← hm]
    show (do let r ← Ascending.auction m [a, b] fuel; _) = _
    rw [show Ascending.auction m [a, b] fuel = .ok (some t) from h2]
    show (do let r ← m.optimalTrade [a, b]; _) = _
    rw [h1]
    rfl
  · have := hfine.deals_le; rw [h3, h4] at this; exact this
  · have := hfine.one; rw [h3, h4] at this; exact this

/-- **C92**. For any two lists of values, any recipe of two categories and any outcomes of the shuffles, the search makes exactly nine rounds and ends without having found a market in which the
auction makes more deals than the optimal trade. -/
theorem search_finds_nothing {buyers sellers : List ℚ} {recipe : List ℕ} (h : SearchInput buyers sellers recipe) {shuffle : ℕ → List ℚ → List ℚ}
    (hs : ∀ k l, (shuffle k l).Perm l) {fuel : ℕ} (hf : (buyers ++ sellers).length < fuel) {n : ℕ} (hn : 9 ≤ n) :
    ∃ s, search buyers sellers recipe shuffle fuel n = .ok (some s) ∧ s.reduceNumber = 10 ∧ s.rounds = 9 ∧
      s.auctionDeals ≤ s.optimalDeals ∧ s.optimalDeals ≤ s.auctionDeals + 1 ∧
      (∃ p : List ℚ, p.Perm buyers ∧ s.buyers = withoutMultiples 10 p) ∧ (∃ p : List ℚ, p.Perm sellers ∧ s.sellers = withoutMultiples 10 p) := by
  have key : ∀ (k n : ℕ) (s : State), s.reduceNumber + (k + 1) = 10 → s.rounds + (k + 1) = 9 → s.auctionDeals ≤ s.optimalDeals → k + 1 ≤ n →
      ∃ s', loop buyers sellers recipe shuffle fuel n s = .ok (some s') ∧ s'.reduceNumber = 10 ∧ s'.rounds = 9 ∧
        s'.auctionDeals ≤ s'.optimalDeals ∧ s'.optimalDeals ≤ s'.auctionDeals + 1 ∧
        (∃ p : List ℚ, p.Perm buyers ∧ s'.buyers = withoutMultiples 10 p) ∧ (∃ p : List ℚ, p.Perm sellers ∧ s'.sellers = withoutMultiples 10 p) := by
    intro k
    induction k with
    | zero =>
      intro n s h1 h2 h3 h4
      obtain ⟨s', g1, g2, g3, g4, g5, g6, g7⟩ := round_ok h hs hf s
      have g8 : s'.reduceNumber = 10 := by omega
      refine ⟨s', ?_, g8, by omega, g4, g5, g8 ▸ g6, g8 ▸ g7⟩
      obtain ⟨n, rfl⟩ := Nat.exists_eq_add_of_le' h4
      unfold loop
      rw [if_pos ⟨h3, by omega⟩]
      show (do let r ← BadInputSearch.round buyers sellers recipe shuffle fuel s; _) = _
      rw [g1]
      show loop buyers sellers recipe shuffle fuel _ s' = _
      unfold loop
      rw [if_neg (by rintro ⟨-, h⟩; omega)]
    | succ k ih =>
      intro n s h1 h2 h3 h4
      obtain ⟨s', g1, g2, g3, g4, -⟩ := round_ok h hs hf s
      obtain ⟨n, rfl⟩ := Nat.exists_eq_add_of_le' (show 1 ≤ n by omega)
      obtain ⟨s'', i1, i2⟩ := ih n s' (by omega) (by omega) g4 (by omega)
      refine ⟨s'', ?_, i2⟩
      unfold loop
      rw [if_pos ⟨h3, by omega⟩]
      show (do let r ← BadInputSearch.round buyers sellers recipe shuffle fuel s; _) = _
      rw [g1]
      exact i1
  exact key 8 n ⟨1, 2, 1, 0, [], []⟩ rfl rfl (by decide) hn

/-- **C92**, the script as it is: the search with these lists and the recipe `[1,4]` ends in round nine without a result, and the last market has two buyers and eight sellers. -/
theorem search_script {shuffle : ℕ → List ℚ → List ℚ} (hs : ∀ k l, (shuffle k l).Perm l) :
    ∃ s, search scriptBuyers scriptSellers [1, 4] shuffle 13 9 = .ok (some s) ∧ s.reduceNumber = 10 ∧ s.auctionDeals ≤ s.optimalDeals ∧
      s.buyers.length = 2 ∧ s.sellers.length = 8 := by
  have h : SearchInput scriptBuyers scriptSellers [1, 4] :=
    ⟨⟨1, 4, by decide, by decide, rfl⟩, by decide +kernel, by decide +kernel, by decide⟩
  obtain ⟨s, h1, h2, -, h3, -, ⟨p, hp, h4⟩, ⟨q, hq, h5⟩⟩ := search_finds_nothing h hs (fuel := 13) (by decide) (le_refl 9)
  refine ⟨s, h1, h2, h3, ?_, ?_⟩
  · rw [h4, withoutMultiples, List.length_map, hp.length_eq]; rfl
  · rw [h5, withoutMultiples, List.length_map, hq.length_eq]; rfl

/-- A run of the script in which every shuffle reverses the list. -/
example :
    (∀ (k : ℕ) (l : List ℚ), ((fun (_ : ℕ) (l : List ℚ) => l.reverse) k l).Perm l) ∧
    search scriptBuyers scriptSellers [1, 4] (fun _ l => l.reverse) 13 9
      = .ok (some ⟨1, 2, 10, 9, [448 / 10, 5272 / 100], [-(26875 / 10000), -(112 / 10), -(112 / 10), -(31406 / 10000), -(112 / 10), -(112 / 10), -(1445 / 10000), -(1523 / 10000)]⟩) := by
  refine ⟨fun _ l => l.reverse_perm, ?_⟩
  decide +kernel

end Auctions.Props
