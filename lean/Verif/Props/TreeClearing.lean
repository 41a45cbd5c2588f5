import Verif.Proofs.TreeClearing
import Verif.Proofs.Monotone
import Verif.Props.TreeGain

set_option autoImplicit false

/-!
# C106, C107 — the price of the root of the recipe-tree auction
-/

namespace Auctions.Props

open Auctions Spec TreeAuction

theorem clears_iff {D S : List ℚ} {p : ℚ} : Clears D S p ↔ D.countP (fun y => p < y) ≤ S.countP (fun y => -p ≤ y) := by
  unfold Clears
  rw [List.countP_eq_length_filter, List.countP_eq_length_filter]
  simp only [neg_le_iff_add_nonneg']

theorem clears_perm {D D' S S' : List ℚ} (hd : D.Perm D') (hs : S.Perm S') {p : ℚ} : Clears D S p ↔ Clears D' S' p := by
  unfold Clears
  rw [(hd.filter _).length_eq, (hs.filter _).length_eq]

theorem bestFirst_perm {l l' : List ℚ} (h : l.Perm l') : bestFirst l = bestFirst l' :=
  List.Perm.eq_of_pairwise (fun _ _ _ _ h1 h2 => le_antisymm h2 h1) (sortDesc_sorted l) (sortDesc_sorted l') ((sortDesc_perm l).trans (h.trans (sortDesc_perm l').symm))

/-- The code's combined values are the offers. -/
theorem offers_perm {vals V : ℕ → List ℚ} (h : ∀ i, V i = sortDesc (vals i)) (f : Forest) : (f.combinedValues V).Perm (offers vals f) := by
  induction f with
  | nil => exact List.Perm.refl _
  | cons i ch s ih1 ih2 =>
    rw [combinedValues_cons]
    cases ch with
    | nil =>
      rw [offers]
      refine List.Perm.append ?_ ih2
      show (V i).Perm _
      rw [h]; exact sortDesc_perm _
    | cons j c r =>
      rw [offers]
      refine List.Perm.append ?_ ih2
      rw [nodeValues_of_ne _ _ (by simp), h]
      show (List.zipWith _ (bestFirst _) (bestFirst _)).Perm _
      rw [bestFirst_perm ih1]

theorem gainfulPairs_perm {D D' S S' : List ℚ} (hd : D.Perm D') (hs : S.Perm S') : gainfulPairs D S = gainfulPairs D' S' := by
  unfold gainfulPairs
  rw [bestFirst_perm hd, bestFirst_perm hs]

section

variable {f : List (List ℕ) → ℚ → Py (List ℚ)} {m : Market} {struct : List PyObj} {fuel : ℕ}
  {trade : TradeWithMultipleRecipes} {t : RecipeTree}

/-- A run of the auction keeps the invariants. -/
theorem auction_arun (hf : PriceContract f) (ht : RecipeTree.init m.numCategories struct = .ok t) (hn : (treeNodes t).Nodup)
    {B : ℚ} (hB : 0 ≤ B) (hb : ∀ l ∈ m.valueLists, ∀ x ∈ l, -B ≤ x ∧ x ≤ B)
    {L : ℕ} (hL : IsGreatest {l | ∃ p, TreePath t p ∧ p.length = l} L) (hM : 3 * L * B < MAX_VALUE)
    (hties : TieFree (fun i => m.valueLists.getD i []) (.cons t.index t.children .nil)) (hroot : m.valueLists.getD t.index [] ≠ [])
    (h : auction f m struct fuel = .ok (some trade)) :
    3 * (height t.forest : ℚ) * B < MAX_VALUE ∧ ∃ cats v s, trade = TradeWithMultipleRecipes.init cats t v.prices ∧ TInv t m.numCategories m.sorted cats v s ∧
      ARun t m.sorted B cats v s ∧ (s = 0 ∨ sizeAt cats t.index = 0) := by
  have hto := treeOn_of_init ht hn
  have hLh : L = height t.forest := by
    apply le_antisymm
    · obtain ⟨p, hp, hl⟩ := hL.1
      rw [← hl]; exact isPath_length_le hp
    · obtain ⟨q, hq, hl⟩ := exists_longest (f := t.forest) (by simp [RecipeTree.forest])
      exact hL.2 ⟨q, hq, hl⟩
  subst hLh
  have hL1 : (1 : ℚ) ≤ height t.forest := by
    have : 1 ≤ height t.forest := by rw [RecipeTree.forest, height]; omega
    exact_mod_cast this
  have hBM : B < MAX_VALUE := by nlinarith
  have hpos := max_value_pos
  have hb' : ∀ i, ∀ x ∈ valuesAt m.sorted i, -B ≤ x ∧ x ≤ B := by
    intro i x hx
    rw [valuesAt_sorted, mem_sortDesc] at hx
    refine hb (m.valueLists.getD i []) ?_ x hx
    by_cases hil : i < m.valueLists.length
    · rw [List.getD_eq_getElem?_getD, List.getElem?_eq_getElem hil]; exact List.getElem_mem hil
    · rw [List.getD_eq_getElem?_getD, List.getElem?_eq_none (by omega)] at hx; simp at hx
  have hd : Distinct (valuesAt m.sorted) t.forest := by
    apply distinct_of_tieFree
    refine tieFree_perm ?_ hties
    intro i
    rw [valuesAt_sorted]; exact (sortDesc_perm _).symm
  have hri : t.index < m.numCategories := hto.lt _ (by simp [treeNodes])
  exact ⟨hM, outcome' hf ht hn (fun cats v s => ARun t m.sorted B cats v s)
    (fun cats v s cats' v' d e0 e1 e2 e3 e4 e5 e6 => arun_next hto hB hM hd (fun i x hx => ((hb' i x hx).2).trans hBM.le) e0 e1 e2 e3 e4 e5 e6)
    (fun cats v s v' d e0 e1 e2 e3 e4 e5 _ e7 e8 => arun_stop hto hB hM hd e0 e1 e2 e3 e4 e5 e7 e8)
    (by
      intro v s e1 e2 e3
      refine ⟨⟨by linarith, fun _ => ⟨cinv_start hto hB hM (fun i _ => hb' i) e1 e3, ?_, ?_⟩, fun e => by linarith⟩, ?_, fun e => by linarith, fun e => by linarith⟩
      · intro i x hx
        by_cases hi : i < m.numCategories
        · have := e3 i hi
          have := (hb' i x hx).1
          linarith
        · rw [valuesAt_ge (by rw [m.sorted_length]; omega)] at hx; simp at hx
      · intro i
        by_cases hi : i < m.numCategories
        · have := e3 i hi; linarith
        · unfold priceAt
          rw [List.getD_eq_getElem?_getD, List.getElem?_eq_none (by rw [e1.fits.length]; omega)]
          simpa using hpos.le
      · obtain ⟨x, hx⟩ := List.exists_mem_of_ne_nil _ hroot
        have hx' : x ∈ valuesAt m.sorted t.index := by rw [valuesAt_sorted, mem_sortDesc]; exact hx
        refine ⟨x, hx', ?_⟩
        have := e3 _ hri
        have := (hb' _ x hx').1
        linarith) h⟩

/-- **C106**. Let the market have no ties, and let the root of the tree have agents. Then the price of the root is the lowest price that clears the market between the agents of the root and
the offers of its children, and the agents of the root that remain are the best ones, as many as there are gainful pairs. -/
theorem tree_root_price (hf : PriceContract f) (ht : RecipeTree.init m.numCategories struct = .ok t) (hn : (treeNodes t).Nodup) (hch : t.children ≠ .nil)
    {B : ℚ} (hB : 0 ≤ B) (hb : ∀ l ∈ m.valueLists, ∀ x ∈ l, -B ≤ x ∧ x ≤ B)
    {L : ℕ} (hL : IsGreatest {l | ∃ p, TreePath t p ∧ p.length = l} L) (hM : 3 * L * B < MAX_VALUE)
    (hties : TieFree (fun i => m.valueLists.getD i []) (.cons t.index t.children .nil)) (hroot : m.valueLists.getD t.index [] ≠ [])
    (h : auction f m struct fuel = .ok (some trade)) :
    let demand := m.valueLists.getD t.index []
    let supply := offers (fun i => m.valueLists.getD i []) t.children
    IsLeast {p | Clears demand supply p} (finalPrice trade t.index) ∧
      remaining trade t.index = (bestFirst demand).take (gainfulPairs demand supply) ∧ (remaining trade t.index).length = gainfulPairs demand supply := by
  intro demand supply
  obtain ⟨hM, cats, v, s, rfl, h1, h2, h3⟩ := auction_arun hf ht hn hB hb hL hM hties hroot h
  obtain ⟨g1, g2⟩ := arun_end hB hM hch h2 h3
  have hV : ∀ i, valuesAt m.sorted i = sortDesc (m.valueLists.getD i []) := fun i => valuesAt_sorted m i
  have hoff := offers_perm hV t.children
  have hk : sizeAt cats t.index = gainfulPairs demand supply := by
    rw [g2, RecipeTree.forest, combinedValues_cons, nodeValues_of_ne _ _ hch, hV, List.countP_append]
    have : (Forest.nil).combinedValues (valuesAt m.sorted) = [] := rfl
    rw [this, List.countP_nil, Nat.add_zero, List.countP_eq_length_filter, gainfulPairs, ← bestFirst_perm hoff]
    rfl
  have hrem : remaining (TradeWithMultipleRecipes.init cats t v.prices) t.index = valuesAt cats t.index := remaining_eq _ _
  rw [hrem, ← sizeAt_eq]
  refine ⟨?_, ?_, hk⟩
  · have : {p | Clears demand supply p} = {x | (valuesAt m.sorted t.index).countP (fun y => x < y) ≤ (t.children.combinedValues (valuesAt m.sorted)).countP (fun y => -x ≤ y)} := by
      ext p
      rw [Set.mem_ofPred_eq, Set.mem_ofPred_eq, ← clears_iff]
      exact clears_perm (by rw [hV]; exact (sortDesc_perm _).symm) hoff.symm
    rw [this]
    exact g1
  · obtain ⟨k, hkk⟩ := h1.pre t.index
    have hlen : sizeAt cats t.index = min k (valuesAt m.sorted t.index).length := by rw [sizeAt_eq, hkk, List.length_take]
    rw [hkk, hV]
    show (bestFirst demand).take k = _
    rw [← hk, hlen, hV, List.take_eq_take_iff]
    show min k (sortDesc demand).length = min (min k (sortDesc demand).length) (sortDesc demand).length
    omega

/-- **C106**. Their number is the number of deals of `optimal_trade()`. -/
theorem tree_root_number (hf : PriceContract f) (ht : RecipeTree.init m.numCategories struct = .ok t) (hn : (treeNodes t).Nodup) (hch : t.children ≠ .nil)
    {B : ℚ} (hB : 0 ≤ B) (hb : ∀ l ∈ m.valueLists, ∀ x ∈ l, -B ≤ x ∧ x ≤ B)
    {L : ℕ} (hL : IsGreatest {l | ∃ p, TreePath t p ∧ p.length = l} L) (hM : 3 * L * B < MAX_VALUE)
    (hties : TieFree (fun i => m.valueLists.getD i []) (.cons t.index t.children .nil)) (hroot : m.valueLists.getD t.index [] ≠ [])
    (h : auction f m struct fuel = .ok (some trade)) :
    ∃ deals : List TreeDeal, t.optimalTrade (fun i => sortDesc (m.valueLists.getD i [])) = .ok (deals.map (List.map Prod.snd), deals.length, treeTotalGain deals) ∧
      (remaining trade t.index).length = deals.length := by
  obtain ⟨-, -, h3⟩ := tree_root_price hf ht hn hch hB hb hL hM hties hroot h
  have hV : ∀ i, valuesAt m.sorted i = sortDesc (m.valueLists.getD i []) := fun i => valuesAt_sorted m i
  obtain ⟨c1, -, c3, c4, -⟩ := counted_deals (t := t) (vals := valuesAt m.sorted) hn (fun i _ => by rw [hV]; exact sortDesc_sorted _) _ rfl
  refine ⟨(treeDeals (valuesAt m.sorted) t.forest).filter (fun d => treeGain d ≥ 0), ?_, ?_⟩
  · rw [← c4 hch]
    congr 1
    funext i
    exact (hV i).symm
  · rw [h3, gainfulPairs, ← bestFirst_perm (offers_perm hV t.children)]
    have e1 : ((t.forest.combinedValues (valuesAt m.sorted)).filter (fun y => 0 ≤ y)).length
        = ((treeDeals (valuesAt m.sorted) t.forest).filter (fun d => treeGain d ≥ 0)).length := by
      rw [combinedValues_eq, List.filter_map, List.length_map]
      rfl
    rw [← e1, RecipeTree.forest, combinedValues_cons, nodeValues_of_ne _ _ hch, hV]
    have : (Forest.nil).combinedValues (valuesAt m.sorted) = [] := rfl
    rw [this, List.append_nil]
    rfl

/-! ## Competition -/

theorem _root_.Auctions.EntriesLe.above {v w : List ℚ} (h : EntriesLe v w) (p : ℚ) : (v.filter (fun x => p < x)).length ≤ (w.filter (fun x => p < x)).length := by
  induction v generalizing w with
  | nil => simp
  | cons a v ih =>
    cases w with
    | nil => exact h.elim
    | cons b w =>
      have h1 := ih h.2
      have h2 := h.1
      rw [List.filter_cons, List.filter_cons]
      by_cases ha : p < a
      · simp only [ha, ha.trans_le h2, decide_true, if_true, List.length_cons]; omega
      · simp only [ha, decide_false, Bool.false_eq_true, if_false]
        split
        · simp only [List.length_cons]; omega
        · exact h1

theorem _root_.Auctions.Spec.AsGood.above {v w : List ℚ} (h : AsGood v w) (p : ℚ) : (v.filter (fun x => p < x)).length ≤ (w.filter (fun x => p < x)).length := by
  have := h.sort.above p
  rwa [((sortDesc_perm v).filter _).length_eq, ((sortDesc_perm w).filter _).length_eq] at this

theorem offers_asGood {vals vals' : ℕ → List ℚ} {g : Forest} (h : ∀ i ∈ nodes g, AsGood (vals i) (vals' i)) : AsGood (offers vals g) (offers vals' g) := by
  have h1 := offers_perm (V := fun i => sortDesc (vals i)) (fun _ => rfl) g
  have h2 := offers_perm (V := fun i => sortDesc (vals' i)) (fun _ => rfl) g
  refine ((asGood_of_perm h1.symm).trans (combinedValues_asGood g (fun i hi => ?_) (fun i _ => sortDesc_sorted _) (fun i _ => sortDesc_sorted _))).trans (asGood_of_perm h2)
  exact ((asGood_of_perm (sortDesc_perm _)).trans (h i hi)).trans (asGood_of_perm (sortDesc_perm _).symm)

theorem gainfulPairs_mono {D D' S S' : List ℚ} (hd : AsGood D D') (hs : AsGood S S') : gainfulPairs D S ≤ gainfulPairs D' S' :=
  (hd.sort.zip_add hs.sort).asGood 0

theorem clears_mono {D D' S S' : List ℚ} (hd : AsGood D' D) (hs : AsGood S S') {p : ℚ} (h : Clears D S p) : Clears D' S' p := by
  have h1 := hd.above p
  have h2 := hs (-p)
  simp only [neg_le_iff_add_nonneg'] at h2
  unfold Clears at h ⊢
  omega

variable {g : List (List ℕ) → ℚ → Py (List ℚ)} {m' : Market} {fuel' : ℕ} {trade' : TradeWithMultipleRecipes}

/-- **C107**. Competition among the other categories: if agents join them, or their agents report more, the agents of the root do not pay more, and those that remained still remain. Neither
market has ties. -/
theorem tree_root_supply (hf : PriceContract f) (hg : PriceContract g) (ht : RecipeTree.init m.numCategories struct = .ok t)
    (ht' : RecipeTree.init m'.numCategories struct = .ok t) (hn : (treeNodes t).Nodup) (hch : t.children ≠ .nil)
    {B : ℚ} (hB : 0 ≤ B) (hb : ∀ l ∈ m.valueLists, ∀ x ∈ l, -B ≤ x ∧ x ≤ B) (hb' : ∀ l ∈ m'.valueLists, ∀ x ∈ l, -B ≤ x ∧ x ≤ B)
    {L : ℕ} (hL : IsGreatest {l | ∃ p, TreePath t p ∧ p.length = l} L) (hM : 3 * L * B < MAX_VALUE)
    (hties : TieFree (fun i => m.valueLists.getD i []) (.cons t.index t.children .nil))
    (hties' : TieFree (fun i => m'.valueLists.getD i []) (.cons t.index t.children .nil)) (hroot : m.valueLists.getD t.index [] ≠ [])
    (hsame : (m.valueLists.getD t.index []).Perm (m'.valueLists.getD t.index []))
    (hbetter : ∀ i ∈ nodes t.children, AsGood (m.valueLists.getD i []) (m'.valueLists.getD i []))
    (h : auction f m struct fuel = .ok (some trade)) (h' : auction g m' struct fuel' = .ok (some trade')) :
    finalPrice trade' t.index ≤ finalPrice trade t.index ∧ remaining trade t.index <+: remaining trade' t.index := by
  obtain ⟨p1, p2, p3⟩ := tree_root_price hf ht hn hch hB hb hL hM hties hroot h
  obtain ⟨q1, q2, q3⟩ := tree_root_price hg ht' hn hch hB hb' hL hM hties' (fun e => hroot (by rw [e] at hsame; exact hsame.eq_nil)) h'
  have hoff := offers_asGood hbetter
  refine ⟨q1.2 (clears_mono (asGood_of_perm hsame.symm) hoff p1.1), ?_⟩
  rw [p2, q2, ← bestFirst_perm hsame]
  exact List.take_prefix_take_left (gainfulPairs_mono (asGood_of_perm hsame) hoff)

/-- **C107**. Competition among the agents of the root: if agents join them, or they report more, they do not pay less, and at least as many of them remain. -/
theorem tree_root_demand (hf : PriceContract f) (hg : PriceContract g) (ht : RecipeTree.init m.numCategories struct = .ok t)
    (ht' : RecipeTree.init m'.numCategories struct = .ok t) (hn : (treeNodes t).Nodup) (hch : t.children ≠ .nil)
    {B : ℚ} (hB : 0 ≤ B) (hb : ∀ l ∈ m.valueLists, ∀ x ∈ l, -B ≤ x ∧ x ≤ B) (hb' : ∀ l ∈ m'.valueLists, ∀ x ∈ l, -B ≤ x ∧ x ≤ B)
    {L : ℕ} (hL : IsGreatest {l | ∃ p, TreePath t p ∧ p.length = l} L) (hM : 3 * L * B < MAX_VALUE)
    (hties : TieFree (fun i => m.valueLists.getD i []) (.cons t.index t.children .nil))
    (hties' : TieFree (fun i => m'.valueLists.getD i []) (.cons t.index t.children .nil)) (hroot : m.valueLists.getD t.index [] ≠ [])
    (hbetter : AsGood (m.valueLists.getD t.index []) (m'.valueLists.getD t.index []))
    (hsame : ∀ i ∈ nodes t.children, (m.valueLists.getD i []).Perm (m'.valueLists.getD i []))
    (h : auction f m struct fuel = .ok (some trade)) (h' : auction g m' struct fuel' = .ok (some trade')) :
    finalPrice trade t.index ≤ finalPrice trade' t.index ∧ (remaining trade t.index).length ≤ (remaining trade' t.index).length := by
  obtain ⟨p1, p2, p3⟩ := tree_root_price hf ht hn hch hB hb hL hM hties hroot h
  have hne : m'.valueLists.getD t.index [] ≠ [] := by
    intro e
    obtain ⟨x, hx⟩ := List.exists_mem_of_ne_nil _ hroot
    have h1 := hbetter x
    rw [e] at h1
    have h2 : x ∈ (m.valueLists.getD t.index []).filter (fun y => x ≤ y) := List.mem_filter.2 ⟨hx, by simp⟩
    have h3 := List.length_pos_of_mem h2
    have h4 : (([] : List ℚ).filter (fun y => x ≤ y)).length = 0 := rfl
    omega
  obtain ⟨q1, q2, q3⟩ := tree_root_price hg ht' hn hch hB hb' hL hM hties' hne h'
  refine ⟨p1.2 (clears_mono hbetter (offers_asGood fun i hi => asGood_of_perm (hsame i hi).symm) q1.1), ?_⟩
  rw [p3, q3]
  exact gainfulPairs_mono hbetter (offers_asGood fun i hi => asGood_of_perm (hsame i hi))

end

/-! ### Concrete markets -/

/-- Non-vacuity of C106 (its hypotheses hold in this market, see C59): the offers are the values of the sellers, and those of the pairs of an A and a B. At the price 48 three buyers
want to pay more, and three offers can be had; there are four gainful pairs. -/
example :
    let vals := fun i => lossMarket.valueLists.getD i []
    (bestFirst (offers vals lossTree.children) = [-32, -40, -50, -55, -113, -199]) ∧ vals lossTree.index ≠ [] ∧
    gainfulPairs (vals 0) (offers vals lossTree.children) = 4 ∧ Clears (vals 0) (offers vals lossTree.children) 55 ∧
    ¬ Clears (vals 0) (offers vals lossTree.children) (55 - 1 / 1000) ∧
    (auction lossSolver lossMarket lossStruct 100).map (fun o => o.map (fun t => (remaining t 0, finalPrice t 0))) = .ok (some ([270, 210, 170, 110], 55)) := by
  unfold Clears
  decide +kernel

/-- The market of the example with one more seller, -/
def moreSellers : Market := ⟨[⟨"buyer", [270, 210, 170, 110, 31]⟩, ⟨"seller", [-40, -50, -113, -47]⟩, ⟨"A", [-21, -32, -114]⟩, ⟨"B", [-11, -23, -85]⟩]⟩

/-- and with one more buyer. -/
def moreBuyers : Market := ⟨[⟨"buyer", [270, 210, 170, 110, 31, 195]⟩, ⟨"seller", [-40, -50, -113]⟩, ⟨"A", [-21, -32, -114]⟩, ⟨"B", [-11, -23, -85]⟩]⟩

/-- Non-vacuity of C107: there are no ties in these markets either. With one more seller the price of the buyers falls from 55 to 50, with one more buyer it rises to 110. -/
example :
    noTies (fun i => moreSellers.valueLists.getD i []) lossTree.forest = true ∧ noTies (fun i => moreBuyers.valueLists.getD i []) lossTree.forest = true ∧
    (auction lossSolver moreSellers lossStruct 100).map (fun o => o.map (fun t => (remaining t 0, finalPrice t 0))) = .ok (some ([270, 210, 170, 110], 50)) ∧
    (auction lossSolver moreBuyers lossStruct 100).map (fun o => o.map (fun t => (remaining t 0, finalPrice t 0))) = .ok (some ([270, 210, 195, 170], 110)) := by
  decide +kernel

example : AsGood [-40, -50, -113] [-40, -50, -113, -47] ∧ AsGood [270, 210, 170, 110, 31] [270, 210, 170, 110, 31, 195] :=
  ⟨asGood_of_subperm (List.Sublist.subperm (List.sublist_append_left _ [-47])), asGood_of_subperm (List.Sublist.subperm (List.sublist_append_left _ [195]))⟩

/-- **C106** and **C107** need markets without ties: here two agents A are equal; 23 is not the lowest price that clears the market (at 16 two buyers stand against two offers), and it
is higher than the price without the third A, which is 16. -/
theorem tree_root_price_needs_tieFree :
    let vals : ℕ → List ℚ := fun i => [[28, 23, 16], [-8], [-11, -14, -11], [-2, -14]].getD i []
    Clears (vals 0) (offers vals lossTree.children) 16 ∧
    (auction lossSolver ⟨[⟨"buyer", [28, 23, 16]⟩, ⟨"seller", [-8]⟩, ⟨"A", [-11, -14, -11]⟩, ⟨"B", [-2, -14]⟩]⟩ lossStruct 100).map (fun o => o.map (fun t => finalPrice t 0))
      = .ok (some 23) ∧
    (auction lossSolver ⟨[⟨"buyer", [28, 23, 16]⟩, ⟨"seller", [-8]⟩, ⟨"A", [-11, -14]⟩, ⟨"B", [-2, -14]⟩]⟩ lossStruct 100).map (fun o => o.map (fun t => finalPrice t 0))
      = .ok (some 16) := by
  unfold Clears
  decide +kernel

end Auctions.Props
