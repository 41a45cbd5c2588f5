import Verif.Props.TreeClearing

set_option autoImplicit false

/-!
# C108 — the prices of all categories of the recipe-tree auction
-/

namespace Auctions.Props

open Auctions Spec TreeAuction

theorem clearsFor_iff {D S : List ℚ} {q p : ℚ} : ClearsFor q D S p ↔ D.countP (fun y => p < y) ≤ S.countP (fun y => q - p ≤ y) := by
  unfold ClearsFor
  rw [List.countP_eq_length_filter, List.countP_eq_length_filter]
  simp only [tsub_le_iff_left]

theorem clearsFor_perm {D D' S S' : List ℚ} (hd : D.Perm D') (hs : S.Perm S') {q p : ℚ} : ClearsFor q D S p ↔ ClearsFor q D' S' p := by
  unfold ClearsFor
  rw [(hd.filter _).length_eq, (hs.filter _).length_eq]

theorem clears_clearsFor {D S : List ℚ} {p : ℚ} : Clears D S p ↔ ClearsFor 0 D S p := Iff.rfl

theorem pricesClear_of {vals V : ℕ → List ℚ} (hV : ∀ i, V i = sortDesc (vals i)) {R : ℕ → ℕ} {p : ℕ → ℚ} {stays : ℕ → Prop} {M B : ℚ} (hB : 0 ≤ B) {g : Forest} {t q κ : ℚ}
    (hset : Setting V R p B g) (hl : Level p g q) (hcl : Clocked V R p M B g t q) (hcap : Capped B p κ g) (hκ : B * (κ - 1) ≤ t + M) (ha : t + height g * B < 0)
    (hst : ∀ i ∈ nodes g, stays i → ∃ x ∈ V i, p i ≤ x) (hq : t < q) : PricesClear vals p stays g q := by
  induction g generalizing t q κ with
  | nil => trivial
  | cons i ch s ih1 ih2 =>
    have hh1 : (height ch : ℚ) + 1 ≤ height (.cons i ch s) := by rw [height]; exact_mod_cast le_max_left _ _
    have hh2 : (height s : ℚ) ≤ height (.cons i ch s) := by rw [height]; exact_mod_cast le_max_right _ _
    have h1 : (height ch : ℚ) * B + B ≤ height (.cons i ch s) * B := by nlinarith
    have h2 : (height s : ℚ) * B ≤ height (.cons i ch s) * B := mul_le_mul_of_nonneg_right hh2 hB
    have hs := ih2 hset.siblings hl.siblings hcl.2.2 hcap.2.2 hκ (by linarith) (fun j hj => hst j (by simp [nodes, hj])) hq
    cases ch with
    | nil => exact ⟨fun _ => hl.leaf.symm, hs⟩
    | cons j c r =>
      refine ⟨fun hi => ?_, hs⟩
      obtain ⟨e1, e2⟩ := node_price hB (by simp) hset hl hcl hcap hκ ha (hst i (by simp [nodes]) hi) hq
      refine ⟨?_, ih1 hset.children hl.children hcl.2.1 hcap.2.1 (by linarith) (by linarith) (fun j hj => hst j (by rw [nodes, List.mem_cons, List.mem_append]; exact Or.inr (Or.inl hj))) e1⟩
      have : {x | ClearsFor q (vals i) (offers vals (.cons j c r)) x} = {x | (V i).countP (fun y => x < y) ≤ ((Forest.cons j c r).combinedValues V).countP (fun y => q - x ≤ y)} := by
        ext x
        rw [Set.mem_ofPred_eq, Set.mem_ofPred_eq, ← clearsFor_iff]
        exact clearsFor_perm (by rw [hV]; exact (sortDesc_perm _).symm) (offers_perm hV _).symm
      rw [this]
      exact e2

/-- The prices of the categories that are reached are determined. -/
theorem pricesClear_unique {vals : ℕ → List ℚ} {p p' : ℕ → ℚ} {stays : ℕ → Prop} {g : Forest} {q : ℚ} (h : PricesClear vals p stays g q) (h' : PricesClear vals p' stays g q) :
    ∀ k, Reached stays g k → p k = p' k := by
  induction g generalizing q with
  | nil => intro k hk; exact hk.elim
  | cons i ch s ih1 ih2 =>
    intro k hk
    cases ch with
    | nil =>
      rcases hk with ⟨hi, rfl | hk⟩ | hk
      · rw [h.1 hi, h'.1 hi]
      · exact hk.elim
      · exact ih2 h.2 h'.2 k hk
    | cons j c r =>
      rcases hk with ⟨hi, hk⟩ | hk
      · obtain ⟨a1, a2⟩ := h.1 hi
        obtain ⟨b1, b2⟩ := h'.1 hi
        have he : p i = p' i := a1.unique b1
        rcases hk with rfl | hk
        · exact he
        · rw [← he] at b2
          exact ih1 a2 b2 k hk
      · exact ih2 h.2 h'.2 k hk

section

variable {f : List (List ℕ) → ℚ → Py (List ℚ)} {m : Market} {struct : List PyObj} {fuel : ℕ}
  {trade : TradeWithMultipleRecipes} {t : RecipeTree}

/-- **C108**. In a market without ties, if an agent of the root remains, then the prices of all categories are, top down, the lowest ones that clear the markets: the price of the root
clears the market between its agents and the offers of its children for the total 0; a child (and whatever it trades with) then has to reach the total that is missing, minus the price of the root; and
so on down to the leaves, whose prices are what is left. -/
theorem tree_prices_clear (hf : PriceContract f) (ht : RecipeTree.init m.numCategories struct = .ok t) (hn : (treeNodes t).Nodup)
    {B : ℚ} (hB : 0 ≤ B) (hb : ∀ l ∈ m.valueLists, ∀ x ∈ l, -B ≤ x ∧ x ≤ B)
    {L : ℕ} (hL : IsGreatest {l | ∃ p, TreePath t p ∧ p.length = l} L) (hM : 3 * L * B < MAX_VALUE)
    (hties : TieFree (fun i => m.valueLists.getD i []) (.cons t.index t.children .nil)) (hroot : remaining trade t.index ≠ [])
    (h : auction f m struct fuel = .ok (some trade)) :
    PricesClear (fun i => m.valueLists.getD i []) (finalPrice trade) (fun i => remaining trade i ≠ []) (.cons t.index t.children .nil) 0 := by
  have hV : ∀ i, valuesAt m.sorted i = sortDesc (m.valueLists.getD i []) := fun i => valuesAt_sorted m i
  have hne : m.valueLists.getD t.index [] ≠ [] := by
    intro e
    apply hroot
    obtain ⟨cats, v, s, rfl, h1, -, -⟩ := outcome' hf ht hn (fun _ _ _ => True) (fun _ _ _ _ _ _ _ _ _ _ _ _ _ => trivial) (fun _ _ _ _ _ _ _ _ _ _ _ _ _ _ => trivial)
      (fun _ _ _ _ _ => trivial) h
    rw [remaining_eq]
    obtain ⟨k, hk⟩ := h1.pre t.index
    show valuesAt cats t.index = []
    rw [hk, hV, e]
    simp [sortDesc]
  obtain ⟨hM, cats, v, s, rfl, h1, h2, h3⟩ := auction_arun hf ht hn hB hb hL hM hties hne h
  have hrem : ∀ i, remaining (TradeWithMultipleRecipes.init cats t v.prices) i = valuesAt cats i := fun i => remaining_eq _ _
  have hs : s = 0 := h3.resolve_right (by
    intro e
    rw [sizeAt_eq, List.length_eq_zero_iff] at e
    exact hroot (by rw [hrem, e]))
  obtain ⟨hr, R, g1, g2, g3, g4⟩ := h2.stopped hs
  have hL1 : (1 : ℚ) ≤ height t.forest := by
    have : 1 ≤ height t.forest := by rw [RecipeTree.forest, height]; omega
    exact_mod_cast this
  have hLB : 0 ≤ (height t.forest : ℚ) * B := mul_nonneg (by linarith) hB
  have hpos := max_value_pos
  rw [RecipeTree.forest] at hM hLB hL1 g1 g2 g3 g4
  refine pricesClear_of hV hB g1 g2 g3 g4 (by linarith) (by linarith) ?_ (by linarith)
  intro i _ hi
  rw [hrem] at hi
  obtain ⟨x, hx⟩ := List.exists_mem_of_ne_nil _ hi
  exact ⟨x, mem_valuesAt_of_pre (h1.pre i) hx, hr i x hx⟩

/-- **C108**. So the prices of two runs are the same where agents of the same categories remain. -/
theorem tree_prices_determined {vals : ℕ → List ℚ} {p p' : ℕ → ℚ} {stays : ℕ → Prop} {g : Forest} {q : ℚ} (h : PricesClear vals p stays g q) (h' : PricesClear vals p' stays g q) :
    ∀ k, Reached stays g k → p k = p' k := pricesClear_unique h h'

end

/-! ### A concrete market -/

/-- Non-vacuity of C108 (its hypotheses hold in this market, see C59): the buyers pay 55, so that the sellers, and an A and a B together, get at least 55. The price -32 of the A is the
lowest one that clears the market between the A and the B for the total -55: at this price one A gains, and two B can be had; a bit below, two A gain, and one B can be had. -/
example :
    let vals := fun i => lossMarket.valueLists.getD i []
    ClearsFor (0 - 55) (vals 2) (offers vals (.cons 3 .nil .nil)) (-32) ∧ ¬ ClearsFor (0 - 55) (vals 2) (offers vals (.cons 3 .nil .nil)) (-32 - 1 / 1000) ∧
    (auction lossSolver lossMarket lossStruct 100).map (fun o => o.map (fun t => ([0, 1, 2, 3].map (remaining t), [0, 1, 2, 3].map (finalPrice t)))) =
      .ok (some ([[270, 210, 170, 110], [-40, -50], [-21], [-11]], [55, -55, -32, -23])) := by
  unfold ClearsFor
  decide +kernel

end Auctions.Props
