import Verif.Proofs.UnneededTradeReduction
import Verif.Proofs.UnneededTree
import Verif.Proofs.AscendingOutcome
import Verif.Props.Errors
import Verif.Props.TreeAuction

set_option autoImplicit false

/-!
# C97: categories that are not needed make no difference
-/

namespace Auctions.Props

open Auctions Auctions.Spec Auctions.TreeAuction

section
variable {m : Market} {r : List ℕ} (h : r.length = m.numCategories) (hpos : ∃ x ∈ r, 0 < x)
include h hpos

/-- The optimal trade is the same when the categories with count 0 are left out of the market and of the recipe; so are the agents left over in the other categories. -/
theorem unneeded_optimal (N : ℕ) (z : Bool) :
    (neededMarket r m).optimalTrade (needed r r) N z = (m.optimalTrade r N z).map fun x => (x.1, neededMarket r x.2) := optimal_needed h hpos N z

/-- The ascending auction has the same deals, prices and remaining agents (and takes as many iterations) when the categories with count 0 are left out. -/
theorem unneeded_ascending (fuel N : ℕ) :
    Ascending.auction (neededMarket r m) (needed r r) fuel N = (Ascending.auction m r fuel N).map (Option.map (neededTrade r)) := ascending_needed_eq h hpos fuel N

/-- The trade reduction has the same deals, prices and traders when the categories with count 0 are left out. -/
theorem unneeded_trade_reduction (z : Bool) :
    TradeReduction.tradeReduction (neededMarket r m) (needed r r) z = (TradeReduction.tradeReduction m r z).map (neededTrade r) := (tradeReduction_needed_eq h hpos z).1

end

/-- Two markets that differ only in categories with count 0 have the same outcome. -/
theorem unneeded_change {m m' : Market} {r : List ℕ} (h : r.length = m.numCategories) (h' : r.length = m'.numCategories) (hpos : ∃ x ∈ r, 0 < x)
    (hs : ∀ i n : ℕ, r[i]? = some n → 0 < n → m.categories[i]? = m'.categories[i]?) (fuel N : ℕ) (z : Bool) :
    (Ascending.auction m r fuel N).map (Option.map (neededTrade r)) = (Ascending.auction m' r fuel N).map (Option.map (neededTrade r)) ∧
      (TradeReduction.tradeReduction m r z).map (neededTrade r) = (TradeReduction.tradeReduction m' r z).map (neededTrade r) ∧
      (m.optimalTrade r N z).map Prod.fst = (m'.optimalTrade r N z).map Prod.fst := by
  have key : ∀ (r : List ℕ) (cs cs' : List AgentCategory), r.length = cs.length → r.length = cs'.length → (∀ i n : ℕ, r[i]? = some n → 0 < n → cs[i]? = cs'[i]?) → needed r cs = needed r cs' := by
    intro r
    induction r with
    | nil => intro cs cs' _ _ _; rw [needed_nil_left, needed_nil_left]
    | cons n r ih =>
      intro cs cs' hl hl' hs
      cases cs with
      | nil => simp at hl
      | cons c cs =>
        cases cs' with
        | nil => simp at hl'
        | cons c' cs' =>
          have := ih cs cs' (by simpa using hl) (by simpa using hl') fun i k hi hk => hs (i + 1) k hi hk
          rcases Nat.eq_zero_or_pos n with rfl | hn
          · rw [needed_zero, needed_zero, this]
          · have h0 := hs 0 n rfl hn
            simp only [List.getElem?_cons_zero, Option.some.injEq] at h0
            rw [needed_pos hn, needed_pos hn, this, h0]
  have he : neededMarket r m = neededMarket r m' := by
    unfold neededMarket
    rw [key r _ _ h h' hs]
  have e3 := unneeded_optimal h hpos N z
  have e3' := unneeded_optimal h' hpos N z
  rw [he, e3'] at e3
  refine ⟨by rw [← unneeded_ascending h hpos, ← unneeded_ascending h' hpos, he], by rw [← unneeded_trade_reduction h hpos, ← unneeded_trade_reduction h' hpos, he], ?_⟩
  cases h1 : m.optimalTrade r N z with
  | error e =>
    cases h2 : m'.optimalTrade r N z with
    | error e' => rw [h1, h2] at e3; cases e3; rfl
    | ok x => rw [h1, h2] at e3; cases e3
  | ok x =>
    cases h2 : m'.optimalTrade r N z with
    | error e' => rw [h1, h2] at e3; cases e3
    | ok x' => rw [h1, h2] at e3; simp only [Except.map, Except.ok.injEq, Prod.mk.injEq] at e3 ⊢; exact e3.1.symm

/-- The reported gain is the same, too, if no category that is left out is empty. -/
theorem unneeded_gain {t : TradeWithSinglePrice} {p : List ℚ} (hp : t.prices = some p) (hl : t.categories.length = t.psRecipe.length) (hpl : p.length = t.psRecipe.length)
    (hne : ∀ (i : ℕ) (c : AgentCategory), t.psRecipe[i]? = some 0 → t.categories[i]? = some c → c.values ≠ []) (b : Bool) :
    (neededTrade t.psRecipe t).gainFromTrade b = t.gainFromTrade b := by
  have key : ∀ (rs : List ℕ) (cs : List AgentCategory) (ps : List ℚ) (s s' : ℕ), cs.length = rs.length → ps.length = rs.length →
      (∀ (i : ℕ) (c : AgentCategory), rs[i]? = some 0 → cs[i]? = some c → c.values ≠ []) →
      (∀ k : ℕ, t.psRecipe[s + k]? = rs[k]?) → (∀ k : ℕ, p[s + k]? = ps[k]?) → (∀ k : ℕ, (needed t.psRecipe t.psRecipe)[s' + k]? = (needed rs rs)[k]?) →
      (∀ k : ℕ, (needed t.psRecipe p)[s' + k]? = (needed rs ps)[k]?) →
      (neededTrade t.psRecipe t).gftLoop b s' (needed rs cs) = t.gftLoop b s cs := by
    intro rs
    induction rs with
    | nil =>
      intro cs ps s s' h1 _ _ _ _ _ _
      rw [List.length_nil, List.length_eq_zero_iff] at h1
      subst h1
      rfl
    | cons n rs ih =>
      intro cs ps s s' h1 h2 h3 h4 h5 h6 h7
      cases cs with
      | nil => simp at h1
      | cons c cs =>
        cases ps with
        | nil => simp at h2
        | cons q ps =>
          have g4 : t.psRecipe[s]? = some n := by simpa using h4 0
          have g5 : p[s]? = some q := by simpa using h5 0
          have t4 : ∀ k, t.psRecipe[s + 1 + k]? = rs[k]? := by
            intro k
            have := h4 (k + 1)
            rw [List.getElem?_cons_succ] at this
            rw [← this]; congr 1; omega
          have t5 : ∀ k, p[s + 1 + k]? = ps[k]? := by
            intro k
            have := h5 (k + 1)
            rw [List.getElem?_cons_succ] at this
            rw [← this]; congr 1; omega
          have t3 : ∀ (i : ℕ) (c : AgentCategory), rs[i]? = some 0 → cs[i]? = some c → c.values ≠ [] := fun i c hi hc => h3 (i + 1) c hi hc
          rcases Nat.eq_zero_or_pos n with rfl | hn
          · simp only [needed_zero] at h6 h7 ⊢
            have := ih cs ps (s + 1) s' (by simpa using h1) (by simpa using h2) t3 t4 t5 h6 h7
            rw [this]
            conv_rhs => rw [TradeWithSinglePrice.gftLoop]
            have hc : c.values ≠ [] := h3 0 c rfl rfl
            have hcl : (c.values.length : ℚ) ≠ 0 := by
              have := List.length_pos_iff.2 hc
              exact_mod_cast this.ne'
            have hstep : t.gftStep b s c = .ok 0 := by
              unfold TradeWithSinglePrice.gftStep pyGet pyDiv
              rw [g4, hp]
              simp only [bind, Except.bind, g5, if_neg hcl]
              cases b <;> simp
            rw [hstep]
            cases t.gftLoop b (s + 1) cs with
            | error e => rfl
            | ok x => simp [bind, Except.bind]
          · simp only [needed_pos hn] at h6 h7 ⊢
            have t6 : ∀ k, (needed t.psRecipe t.psRecipe)[s' + 1 + k]? = (needed rs rs)[k]? := by
              intro k
              have := h6 (k + 1)
              rw [List.getElem?_cons_succ] at this
              rw [← this]; congr 1; omega
            have t7 : ∀ k, (needed t.psRecipe p)[s' + 1 + k]? = (needed rs ps)[k]? := by
              intro k
              have := h7 (k + 1)
              rw [List.getElem?_cons_succ] at this
              rw [← this]; congr 1; omega
            have := ih cs ps (s + 1) (s' + 1) (by simpa using h1) (by simpa using h2) t3 t4 t5 t6 t7
            rw [TradeWithSinglePrice.gftLoop, TradeWithSinglePrice.gftLoop, this]
            have g6 : (needed t.psRecipe t.psRecipe)[s']? = some n := by simpa using h6 0
            have g7 : (needed t.psRecipe p)[s']? = some q := by simpa using h7 0
            have hstep : (neededTrade t.psRecipe t).gftStep b s' c = t.gftStep b s c := by
              unfold TradeWithSinglePrice.gftStep pyGet
              simp only [neededTrade, g4, g6, hp, Option.map, g5, g7]
            rw [hstep]
  unfold TradeWithSinglePrice.gainFromTrade
  rw [show (neededTrade t.psRecipe t).numOfDealsCache = t.numOfDealsCache from rfl, show (neededTrade t.psRecipe t).categories = needed t.psRecipe t.categories from rfl]
  split_ifs
  · rfl
  · exact key t.psRecipe t.categories p 0 0 hl hpl hne (by simp) (by simp) (by simp) (by simp)

/-- The ascending auction keeps all agents of a category with count 0. -/
theorem unneeded_ascending_stay {m : Market} {r : List ℕ} (h : r.length = m.numCategories) (hpos : ∃ x ∈ r, 0 < x) {fuel N : ℕ} {t : TradeWithSinglePrice}
    (ht : Ascending.auction m r fuel N = .ok (some t)) {i : ℕ} (hi : r[i]? = some 0) : t.categories[i]? = (m.categories.map AgentCategory.clone)[i]? := by
  have hcat : m.categories ≠ [] := by
    rintro h0
    rw [Market.numCategories, h0, List.length_nil, List.length_eq_zero_iff] at h
    simp [h] at hpos
  have hne := Ascending.rel_ne_nil h hpos
  have h' : r.length = m.sorted.length := by rw [m.sorted_length]; exact h
  rcases Ascending.auction_spec h hcat hpos fuel N with ⟨h1, -⟩ | ⟨t', h1, n, s, p, d, hpath, -, rfl, -, -⟩
  · rw [h1] at ht; cases ht
  · rw [h1] at ht
    cases ht
    have hlt : i < m.sorted.length := by rw [← h']; exact (List.getElem?_eq_some_iff.1 hi).1
    have hinv := (hpath.inv h' hne).1
    have hs : s i = (vAt m.sorted i).length := by
      refine hinv.unused i fun hmem => ?_
      have := (Ascending.relevant_mem.1 hmem).2
      unfold rAt at this
      simp [List.getD_eq_getElem?_getD, hi] at this
    show (Ascending.mkMarket m.sorted s).categories[i]? = m.sorted[i]?
    rw [Ascending.mkMarket_get hlt, hs, List.getElem?_eq_getElem hlt, vAt_eq_getElem hlt, List.take_length]

/-- The ascending auction reports the same gain when the categories with count 0 are left out, if these have agents. -/
theorem unneeded_ascending_gain {m : Market} {r : List ℕ} (h : r.length = m.numCategories) (hpos : ∃ x ∈ r, 0 < x) {fuel N : ℕ} {t : TradeWithSinglePrice}
    (ht : Ascending.auction m r fuel N = .ok (some t)) (hne : ∀ (i : ℕ) (c : AgentCategory), r[i]? = some 0 → m.categories[i]? = some c → c.values ≠ []) (b : Bool) :
    (neededTrade r t).gainFromTrade b = t.gainFromTrade b := by
  have hstay : ∀ i : ℕ, r[i]? = some 0 → t.categories[i]? = (m.categories.map AgentCategory.clone)[i]? := fun i hi => unneeded_ascending_stay h hpos ht hi
  have hcat : m.categories ≠ [] := by
    rintro h0
    rw [Market.numCategories, h0, List.length_nil, List.length_eq_zero_iff] at h
    simp [h] at hpos
  have h' : r.length = m.sorted.length := by rw [m.sorted_length]; exact h
  rcases Ascending.auction_spec h hcat hpos fuel N with ⟨h1, -⟩ | ⟨t', h1, n, s, p, d, -, ⟨c, -, hend⟩, rfl, -, -⟩
  · rw [h1] at ht; cases ht
  · rw [h1] at ht
    cases ht
    have hpl : p.length = r.length := by
      rcases hend with ⟨-, rfl⟩ | ⟨-, -, rfl⟩
      · rw [Ascending.mkPrices_length, h']
      · rw [List.length_set, Ascending.mkPrices_length, h']
    refine unneeded_gain (t := ⟨(Ascending.mkMarket m.sorted s).categories, r, some p, d⟩) rfl ?_ hpl ?_ b
    · rw [h']; exact Ascending.mkMarket_length _ _
    · intro i c hi hc hnil
      have := hstay i hi
      rw [hc, List.getElem?_map] at this
      cases hm : m.categories[i]? with
      | none => rw [hm] at this; cases this
      | some c' =>
        rw [hm] at this
        simp only [Option.map_some, Option.some.injEq] at this
        refine hne i c' hi hm ?_
        rw [this] at hnil
        unfold AgentCategory.clone AgentCategory.init sortDesc at hnil
        have hl := congrArg List.length hnil
        rw [List.length_insertionSort] at hl
        exact List.length_eq_zero_iff.1 hl

/-- After trade reduction a category with count 0 has no traders, and therefore `gain_from_trade` divides by zero as soon as there is a deal. -/
theorem unneeded_trade_reduction_gain {m : Market} {r : List ℕ} (h : r.length = m.numCategories) (hpos : ∃ x ∈ r, 0 < x) {z : Bool} {t : TradeWithSinglePrice}
    (ht : TradeReduction.tradeReduction m r z = .ok t) {i : ℕ} (hi : r[i]? = some 0) :
    (∀ c, t.categories[i]? = some c → c.values = []) ∧ ∀ p b, t.prices = some p → p.length = r.length → 0 < t.numOfDeals → t.gainFromTrade b = .error .zeroDivisionError := by
  obtain ⟨h1, h2, h3⟩ := (tradeReduction_needed_eq h hpos z).2 t ht
  have hempty : ∀ c, t.categories[i]? = some c → c.values = [] := fun c hc => h3 i c (by unfold rAt; simp [List.getD_eq_getElem?_getD, hi]) hc
  refine ⟨hempty, ?_⟩
  intro p b hp hpl hd
  refine (gain_defined_iff t b hp hd (by rw [h1, h2]) (by rw [hpl, h2])).2 ?_
  have hlt : i < t.categories.length := by rw [h2]; exact (List.getElem?_eq_some_iff.1 hi).1
  exact ⟨t.categories[i], List.getElem_mem hlt, hempty _ (List.getElem?_eq_getElem hlt)⟩

/-- The recipe-tree auction depends only on the categories in the tree: two markets that differ only in other categories have the same outcome. -/
theorem unneeded_tree {g : List (List ℕ) → ℚ → Py (List ℚ)} {m m' : Market} {struct : List PyObj} {t : RecipeTree} (ht : RecipeTree.init m.numCategories struct = .ok t)
    (h : AgreeAt (treeNodes t) m.categories m'.categories) (fuel : ℕ) : SameTreeOutcome (treeNodes t) (auction g m struct fuel) (auction g m' struct fuel) :=
  tree_needed_eq (fun t' ht' => by rw [ht] at ht'; cases ht'; exact h) h.1 ht fuel

/-! ### Examples -/

/-- Buyers, sellers, and two kinds of mediators of which the recipe needs only the first. -/
def spareMarket : Market := ⟨[⟨"buyer", [9, 8, 7]⟩, ⟨"lawyer", [-3]⟩, ⟨"seller", [-1, -2, -4]⟩, ⟨"broker", [-1, -1, -2]⟩]⟩

example : [1, 0, 1, 1].length = spareMarket.numCategories ∧ (∃ x ∈ [1, 0, 1, 1], 0 < x) ∧ neededMarket [1, 0, 1, 1] spareMarket = ⟨[⟨"buyer", [9, 8, 7]⟩, ⟨"seller", [-1, -2, -4]⟩, ⟨"broker", [-1, -1, -2]⟩]⟩ ∧
    needed [1, 0, 1, 1] [1, 0, 1, 1] = [1, 1, 1] := by decide +kernel

example : Ascending.auction spareMarket [1, 0, 1, 1] 100 =
    .ok (some ⟨[⟨"buyer", [9, 8]⟩, ⟨"lawyer", [-3]⟩, ⟨"seller", [-1, -2]⟩, ⟨"broker", [-1, -1, -2]⟩], [1, 0, 1, 1], some [7, -100000000, -4, -3], 2⟩) := by decide +kernel

/-- Trade reduction reports a price of -3 for the lawyers, who do not trade. -/
example : TradeReduction.tradeReduction spareMarket [1, 0, 1, 1] =
    .ok ⟨[⟨"buyer", [9, 8]⟩, ⟨"lawyer", []⟩, ⟨"seller", [-1, -2]⟩, ⟨"broker", [-1, -1, -2]⟩], [1, 0, 1, 1], some [7, -3, -4, -3], 2⟩ ∧
    (TradeReduction.tradeReduction spareMarket [1, 0, 1, 1] >>= fun t => t.gainFromTrade) = .error .zeroDivisionError := by constructor <;> decide +kernel

/-- The same market with other lawyers. -/
def spareMarket' : Market := ⟨[⟨"buyer", [9, 8, 7]⟩, ⟨"lawyer", [8, 3, -200000000]⟩, ⟨"seller", [-1, -2, -4]⟩, ⟨"broker", [-1, -1, -2]⟩]⟩

/-- A chain of buyers, sellers and brokers, without the lawyers. -/
def spareStruct : List PyObj := [.int 0, .list [.int 2, .list [.int 3, .none]]]

example : RecipeTree.init spareMarket.numCategories spareStruct = .ok ⟨0, .cons 2 (.cons 3 .nil .nil) .nil⟩ := by decide +kernel

example : AgreeAt [0, 2, 3] spareMarket.categories spareMarket'.categories := by
  refine ⟨by decide +kernel, ?_⟩
  decide +kernel

example : (auction (fixedSolver [-200000000, -100000000, -100000000, -100000000]) spareMarket' spareStruct 100).map (Option.map fun t => (t.categories, t.prices, t.numOfDeals)) =
    .ok (some ([⟨"buyer", [9, 8, 7]⟩, ⟨"lawyer", [8, 3]⟩, ⟨"seller", [-1, -2]⟩, ⟨"broker", [-1, -1]⟩], [6, -100000000, -4, -2], 2)) := by decide +kernel

end Auctions.Props
