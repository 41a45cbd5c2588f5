import Verif.Proofs.PriceText
import Verif.Props.Ascending
import Verif.Props.TradeReduction
import Verif.Props.McAfee

set_option autoImplicit false

/-! # C63 — the text that describes a single-price trade -/

namespace Auctions.Props

open Auctions Spec Ascending

theorem single_price_text_of {t : TradeWithSinglePrice} {p : List ℚ} (hp : t.prices = some p) (hr : t.psRecipe.length = t.categories.length)
    (hpl : p.length = t.categories.length) (hle : ∀ i < t.categories.length, t.numOfDealsCache * rAt t.psRecipe i ≤ (vAt t.categories i).length)
    (hd : 0 < t.numOfDealsCache) :
    ∃ lines, t.repr = .ok (some lines) ∧
      List.Forall₂ (Describes t.categories t.psRecipe p t.numOfDealsCache)
        ((List.range t.categories.length).filter (fun i => 0 < t.psRecipe.getD i 0)) lines ∧
      totalPaid lines = t.numOfDealsCache * recipeSum t.psRecipe p := by
  obtain ⟨lines, h1, h2⟩ := reprLoop_spec t hp t.categories 0 (fun j hj => by omega) (fun j hj => by
    rw [Nat.zero_add]
    refine ⟨List.getElem?_eq_getElem hj, ?_⟩
    have := hle j hj
    rw [vAt_eq_getElem hj] at this
    exact this)
  rw [← List.range_eq_range'] at h2
  refine ⟨lines, ?_, h2, ?_⟩
  · rw [TradeWithSinglePrice.repr, if_neg (by omega), h1]; rfl
  · rw [totalPaid_spec _ h2, recipeSum_eq_sum hr hpl]
    congr 1

/-- **C63**. The text of a single-price trade with a price for every category: "No trade" if there are no deals; otherwise one line for every category
used by the recipe, in the order of the categories, each with the price of the category and with the number of agents that the deals need, which
is at most the number of agents in the category; it says "random" if and only if it is smaller. The total of the payments is the number of
deals times the weighted sum of the prices. -/
theorem single_price_text {cs : List AgentCategory} {r : List ℕ} {p : List ℚ} {t : TradeWithSinglePrice}
    (ht : TradeWithSinglePrice.init cs r (some p) = .ok t) (hr : r.length = cs.length) (hpl : p.length = cs.length) :
    (t.numOfDeals = 0 ∧ t.repr = .ok none) ∨
    (0 < t.numOfDeals ∧ ∃ lines, t.repr = .ok (some lines) ∧
      List.Forall₂ (Describes cs r p t.numOfDeals) ((List.range cs.length).filter (fun i => 0 < r.getD i 0)) lines ∧
      totalPaid lines = t.numOfDeals * recipeSum r p) := by
  rcases trade_init_spec cs r (some p) with ⟨-, h⟩ | ⟨h1, m, h2, h3, h4⟩
  · rw [h] at ht; simp at ht
  rw [h2] at ht
  simp only [Except.ok.injEq] at ht
  subst ht
  by_cases hd : m = 0
  · left; subst hd; exact ⟨rfl, rfl⟩
  · right
    exact ⟨Nat.pos_of_ne_zero hd, single_price_text_of (t := ⟨cs, r, some p, m⟩) rfl hr hpl h3 (Nat.pos_of_ne_zero hd)⟩

theorem repr_none {t : TradeWithSinglePrice} (hd : t.numOfDeals = 0) : t.repr = .ok none := by
  have : t.numOfDealsCache = 0 := hd
  rw [TradeWithSinglePrice.repr, if_pos this]

theorem line_of {R : ℕ → PriceLine → Prop} {is : List ℕ} {lines : List PriceLine} (h : List.Forall₂ R is lines) :
    ∀ l ∈ lines, ∃ i ∈ is, R i l := by
  induction h with
  | nil => simp
  | cons h1 _ ih =>
    intro l hl
    rcases List.mem_cons.1 hl with rfl | hl
    · exact ⟨_, by simp, h1⟩
    · obtain ⟨i, hi, h2⟩ := ih l hl
      exact ⟨i, by simp [hi], h2⟩

theorem lines_rational {t : TradeWithSinglePrice} {p : List ℚ} {lines : List PriceLine}
    (h : List.Forall₂ (Describes t.categories t.psRecipe p t.numOfDealsCache)
      ((List.range t.categories.length).filter (fun i => 0 < t.psRecipe.getD i 0)) lines)
    (hv : ∀ i < t.categories.length, 0 < t.psRecipe.getD i 0 → ∀ v ∈ (t.categories.map AgentCategory.values).getD i [], p.getD i 0 ≤ v) :
    ∀ l ∈ lines, ∀ v ∈ (lineCategory l).values, linePrice l ≤ v := by
  intro l hl v hvl
  obtain ⟨i, hm, hd⟩ := line_of h l hl
  simp only [List.mem_filter, List.mem_range, decide_eq_true_eq] at hm
  have h1 := hv i hm.1 hm.2 v (by
    rw [List.getD_eq_getElem?_getD, List.getElem?_map, hd.category]; exact hvl)
  rw [List.getD_eq_getElem?_getD, hd.price] at h1
  exact h1

/-- **C63**. The text of the outcome of the ascending auction with a single recipe: the payments add up to exactly 0, and nobody among whom
the traders are selected has a value below the price. -/
theorem ascending_text {m : Market} {r : List ℕ} {fuel N : ℕ} {t : TradeWithSinglePrice}
    (ht : auction m r fuel N = .ok (some t)) (hval : ∀ c ∈ m.categories, ∀ v ∈ c.values, -MAX_VALUE ≤ v) :
    (t.numOfDeals = 0 ∧ t.repr = .ok none) ∨
    (0 < t.numOfDeals ∧ ∃ p lines, t.prices = some p ∧ t.repr = .ok (some lines) ∧
      List.Forall₂ (Describes t.categories r p t.numOfDeals) ((List.range m.numCategories).filter (fun i => 0 < r.getD i 0)) lines ∧
      totalPaid lines = 0 ∧ ∀ l ∈ lines, ∀ v ∈ (lineCategory l).values, linePrice l ≤ v) := by
  by_cases hd : t.numOfDeals = 0
  · left; exact ⟨hd, repr_none hd⟩
  right
  have hd' := Nat.pos_of_ne_zero hd
  obtain ⟨p, hp, hpl, hb⟩ := ascending_budget_balanced ht hd'
  obtain ⟨p', hp', hi⟩ := ascending_individually_rational ht hval
  rw [hp, Option.some.injEq] at hp'
  subst hp'
  obtain ⟨hl, -, hpos⟩ := auction_ok_inv ht
  have h' : r.length = m.sorted.length := by rw [m.sorted_length]; exact hl
  obtain ⟨n, s, q, d, hpath, -, rfl, hle, -⟩ := outcome_of_ok ht
  have hlen : (mkMarket m.sorted s).categories.length = m.numCategories := by rw [mkMarket_length, m.sorted_length]
  refine ⟨hd', p, ?_⟩
  obtain ⟨lines, h1, h2, h3⟩ := single_price_text_of (t := ⟨(mkMarket m.sorted s).categories, r, some q, d⟩) hp (by rw [hlen]; exact hl)
    (by rw [hlen]; exact hpl) (by
      intro i hi
      have h1 := hle i (by rw [← mkMarket_length m.sorted s]; exact hi)
      have h2 := (hpath.inv h' (rel_ne_nil hl hpos)).1.le i
      simp only [vAt_mkMarket, List.length_take]
      omega) hd'
  refine ⟨lines, hp, h1, by rw [← hlen]; exact h2, ?_, ?_⟩
  · rw [h3, hb, mul_zero]
  · exact lines_rational h2 (fun i h5 h6 => (hi i (by rw [← hlen]; exact h5)).1 h6)

/-- **C63**. The same for trade reduction. -/
theorem trade_reduction_text {m : Market} {r : List ℕ} {z : Bool} {t : TradeWithSinglePrice} (hpos : ∃ x ∈ r, 0 < x)
    (hval : ∀ c ∈ m.categories, ∀ v ∈ c.values, -MAX_VALUE ≤ v) (ht : TradeReduction.tradeReduction m r z = .ok t) :
    (t.numOfDeals = 0 ∧ t.repr = .ok none) ∨
    (0 < t.numOfDeals ∧ ∃ p lines, t.prices = some p ∧ t.repr = .ok (some lines) ∧
      List.Forall₂ (Describes t.categories r p t.numOfDeals) ((List.range m.numCategories).filter (fun i => 0 < r.getD i 0)) lines ∧
      totalPaid lines = 0 ∧ ∀ l ∈ lines, ∀ v ∈ (lineCategory l).values, linePrice l ≤ v) := by
  by_cases hd : t.numOfDeals = 0
  · left; exact ⟨hd, repr_none hd⟩
  right
  have hd' := Nat.pos_of_ne_zero hd
  obtain ⟨p, hp, hpl, hb⟩ := trade_reduction_budget_balanced hpos ht hd'
  have hi := trade_reduction_individually_rational hpos hval ht
  obtain ⟨hl, -⟩ := tr_ok_inv ht
  obtain ⟨k, -, -, ⟨q, rfl, -⟩ | ⟨a, q, d, rfl, hT, -⟩⟩ := tr_outcome hpos hval ht
  · exact absurd rfl hd
  have hlen : (mkMarket m.sorted a).categories.length = m.numCategories := by rw [mkMarket_length, m.sorted_length]
  refine ⟨hd', p, ?_⟩
  obtain ⟨lines, h1, h2, h3⟩ := single_price_text_of (t := ⟨(mkMarket m.sorted a).categories, r, some q, d⟩) hp (by rw [hlen]; exact hl)
    (by rw [hlen]; exact hpl) (by
      intro i hi
      have h1 := hT.dle i (by rw [← mkMarket_length m.sorted a]; exact hi)
      have h2 := hT.alen i
      simp only [vAt_mkMarket, List.length_take]
      omega) hd'
  refine ⟨lines, hp, h1, by rw [← hlen]; exact h2, ?_, ?_⟩
  · rw [h3, hb, mul_zero]
  · refine lines_rational h2 (fun i h5 h6 v hv => ?_)
    obtain ⟨p', e1, e2⟩ := hi i v hv
    rw [hp, Option.some.injEq] at e1
    rw [e1]; exact e2

/-- **C63**. McAfee's protocol selects nobody at random: every line of its text says that all agents of the category trade, one for each deal;
without the heuristic, or with two categories, the auctioneer does not lose. -/
theorem mcafee_text {m : Market} {r : List ℕ} {h : Bool} {t : TradeWithSinglePrice} (ht : McAfee.mcafeeTradeReduction m r h = .ok t) :
    (t.numOfDeals = 0 ∧ t.repr = .ok none) ∨
    (0 < t.numOfDeals ∧ ∃ p lines, t.prices = some p ∧ t.repr = .ok (some lines) ∧
      List.Forall₂ (Describes t.categories r p t.numOfDeals) (List.range m.numCategories) lines ∧
      (∀ l ∈ lines, ¬ isRandom l ∧ traders l = t.numOfDeals ∧ ∀ v ∈ (lineCategory l).values, linePrice l ≤ v) ∧
      (h = false ∨ m.numCategories = 2 → 0 ≤ totalPaid lines)) := by
  by_cases hd : t.numOfDeals = 0
  · left; exact ⟨hd, repr_none hd⟩
  right
  have hd' := Nat.pos_of_ne_zero hd
  obtain ⟨p, hp, hpl, hi⟩ := mcafee_individually_rational ht
  have hdef := mcafee_no_deficit ht
  obtain ⟨hr, hcat⟩ := McAfee.mcafee_ok_inv ht
  obtain ⟨k, d, q, hk, -, hres, he⟩ := McAfee.mcafee_eq hr hcat h
  rw [he] at ht
  simp only [Except.ok.injEq] at ht
  subst ht
  have hlen : (mkMarket m.sorted (fun _ => d)).categories.length = m.numCategories := by rw [mkMarket_length, m.sorted_length]
  have hdk : d ≤ k := by cases hres <;> omega
  have hone : ∀ i < m.numCategories, r.getD i 0 = 1 := by intro i hi; rw [hr]; simp [hi]
  have hsize : ∀ i < m.numCategories, (vAt (mkMarket m.sorted (fun _ => d)).categories i).length = d := by
    intro i hi
    rw [vAt_mkMarket, List.length_take]
    obtain ⟨hb, hlt⟩ := blk_ones_getD hr (hk.taken (k - 1) (by have : 0 < d := hd'; omega)).1 hi
    omega
  refine ⟨hd', p, ?_⟩
  obtain ⟨lines, h1, h2, h3⟩ := single_price_text_of (t := ⟨(mkMarket m.sorted (fun _ => d)).categories, r, some q, d⟩) hp
    (by rw [hlen, hr]; simp) (by rw [hlen]; exact hpl) (by
      intro i hi
      rw [hlen] at hi
      rw [hsize i hi, show rAt r i = 1 from hone i hi]; simp) hd'
  have hfilter : (List.range m.numCategories).filter (fun i => 0 < r.getD i 0) = List.range m.numCategories := by
    rw [List.filter_eq_self]
    intro i hi
    rw [hone i (List.mem_range.1 hi)]; simp
  simp only [hlen, hfilter] at h2
  refine ⟨lines, hp, h1, h2, ?_, ?_⟩
  · intro l hl
    obtain ⟨i, hi', hdesc⟩ := line_of h2 l hl
    rw [List.mem_range] at hi'
    have hri : r[i]? = some 1 := by rw [hr]; simp [hi']
    have htr : traders l = d := by
      have := hdesc.traders
      rw [hri] at this
      simpa using this.symm
    have hca : candidates l = d := by
      rw [hdesc.candidates, ← hsize i hi']
      unfold vAt
      rw [List.getD_eq_getElem?_getD, List.getElem?_map, hdesc.category]; rfl
    refine ⟨fun hran => ?_, htr, fun v hv => ?_⟩
    · have := hdesc.random.1 hran; omega
    · have h1 := hi i v (by rw [List.getD_eq_getElem?_getD, List.getElem?_map, hdesc.category]; exact hv)
      rw [List.getD_eq_getElem?_getD, hdesc.price] at h1
      exact h1
  · intro hc
    obtain ⟨p', e1, e2⟩ := hdef hc
    rw [hp, Option.some.injEq] at e1
    rw [h3, e1]
    exact mul_nonneg (by positivity) e2

/-! ### Examples: the three protocols on one market -/

def textMarket : Market := ⟨[⟨"buyer", [17, 14, 13, 9, 6]⟩, ⟨"seller", [-1, -3, -4, -5, -8, -10]⟩]⟩

/-- One buyer and two sellers in each deal: the buyer trades, two of the four remaining sellers are selected at random. -/
example : (auction textMarket [1, 2] 100 100).map (fun o => o.map (fun t => t.repr)) =
    .ok (some (.ok (some [.all ⟨"buyer", [17]⟩ 1 14, .random ⟨"seller", [-1, -3, -4, -5]⟩ 2 4 (-7)]))) := by decide +kernel

example : (TradeReduction.tradeReduction textMarket [1, 2] true).map (fun t => t.repr) =
    .ok (.ok (some [.all ⟨"buyer", [17]⟩ 1 14, .random ⟨"seller", [-1, -3, -4, -5]⟩ 2 4 (-7)])) := by decide +kernel

example : (McAfee.mcafeeTradeReduction textMarket [1, 1] false).map (fun t => t.repr) =
    .ok (.ok (some [.all ⟨"buyer", [17, 14, 13]⟩ 3 9, .all ⟨"seller", [-1, -3, -4]⟩ 3 (-5)])) := by decide +kernel

example : ∀ c ∈ textMarket.categories, ∀ v ∈ c.values, -MAX_VALUE ≤ v := by decide +kernel

end Auctions.Props
