import Verif.Spec.Truthful
import Verif.Proofs.TreeTruthful
import Verif.Props.TreeAuction
import Verif.Props.AscendingTruthful

set_option autoImplicit false

/-!
# C57 — truthfulness of the tree auction
-/

namespace Auctions.Props

open Auctions Spec TreeAuction

/-- More fuel does not change the result of the loop. -/
theorem tree_loop_more_fuel {t : RecipeTree} {fuel : ℕ} {cats : List AgentCategory} {v : SimultaneousAscendingPriceVectors}
    {r : List AgentCategory × SimultaneousAscendingPriceVectors} (h : TreeAuction.loop t fuel cats v = .ok (some r)) (k : ℕ) :
    TreeAuction.loop t (fuel + k) cats v = .ok (some r) := by
  induction fuel generalizing cats v with
  | zero => simp [TreeAuction.loop] at h
  | succ fuel ih =>
    rw [show fuel + 1 + k = (fuel + k) + 1 from by omega]
    rw [TreeAuction.loop] at h ⊢
    simp only at h ⊢
    split at h
    · rename_i hz
      rw [if_pos hz]; exact h
    · rename_i hz
      rw [if_neg hz]
      rw [bind_ok_iff] at h ⊢
      obtain ⟨incs, h1, h2⟩ := h
      refine ⟨incs, h1, ?_⟩
      rw [bind_ok_iff] at h2 ⊢
      obtain ⟨w, h3, h4⟩ := h2
      refine ⟨w, h3, ?_⟩
      split at h4
      · rename_i hst
        rw [if_pos hst]; exact h4
      · rename_i hst
        rw [if_neg hst]
        rw [bind_ok_iff] at h4 ⊢
        obtain ⟨cats', h5, h6⟩ := h4
        exact ⟨cats', h5, ih h6⟩

theorem tree_loop_unique {t : RecipeTree} {f₁ f₂ : ℕ} {cats : List AgentCategory} {v : SimultaneousAscendingPriceVectors}
    {r₁ r₂ : List AgentCategory × SimultaneousAscendingPriceVectors} (h1 : TreeAuction.loop t f₁ cats v = .ok (some r₁))
    (h2 : TreeAuction.loop t f₂ cats v = .ok (some r₂)) : r₁ = r₂ := by
  have e1 := tree_loop_more_fuel h1 f₂
  have e2 := tree_loop_more_fuel h2 f₁
  rw [Nat.add_comm, e2] at e1
  simpa using e1.symm

theorem valueLists_withAgent (m : Market) {c : ℕ} (b : ℚ) (h : c < m.numCategories) (i : ℕ) :
    (withAgent m c b).valueLists.getD i [] = if i = c then b :: m.valueLists.getD c [] else m.valueLists.getD i [] := by
  split
  · rename_i hi
    subst hi
    exact vAt_withAgent_eq m b h
  · rename_i hi
    exact vAt_withAgent_ne m b hi

theorem sorted_withAgent_bounds {m : Market} {c : ℕ} {b : ℚ} (h : c < m.numCategories)
    (hlow : ∀ l ∈ m.valueLists, ∀ x ∈ l, -MAX_VALUE ≤ x ∧ x ≤ MAX_VALUE) (hb : -MAX_VALUE ≤ b ∧ b ≤ MAX_VALUE) (i : ℕ) :
    ∀ x ∈ valuesAt (withAgent m c b).sorted i, -MAX_VALUE ≤ x ∧ x ≤ MAX_VALUE := by
  have hg : ∀ i, ∀ x ∈ m.valueLists.getD i [], -MAX_VALUE ≤ x ∧ x ≤ MAX_VALUE := by
    intro i x hx
    refine hlow (m.valueLists.getD i []) ?_ x hx
    by_cases hil : i < m.valueLists.length
    · rw [List.getD_eq_getElem?_getD, List.getElem?_eq_getElem hil]; exact List.getElem_mem hil
    · rw [List.getD_eq_getElem?_getD, List.getElem?_eq_none (by omega)] at hx; simp at hx
  intro x hx
  rw [valuesAt_sorted, mem_sortDesc, valueLists_withAgent m b h] at hx
  split at hx
  · rcases List.mem_cons.1 hx with rfl | hx
    · exact hb
    · exact hg c x hx
  · exact hg i x hx

theorem fair_start {m : Market} {t : RecipeTree} {v : SimultaneousAscendingPriceVectors} {s : ℚ}
    (e1 : TInv t m.numCategories m.sorted m.sorted v s) (hb : ∀ i, ∀ x ∈ valuesAt m.sorted i, -MAX_VALUE ≤ x ∧ x ≤ MAX_VALUE)
    (e3 : ∀ i < m.numCategories, priceAt v i ≤ -MAX_VALUE) : Fair m.sorted m.sorted v := by
  have hout : ∀ i, m.numCategories ≤ i → priceAt v i = 0 := by
    intro i hi
    unfold priceAt
    rw [List.getD_eq_getElem?_getD, List.getElem?_eq_none (by rw [e1.fits.length]; exact hi)]; rfl
  refine ⟨?_, ?_, ?_⟩
  · intro i x hx
    by_cases hi : i < m.numCategories
    · exact (e3 i hi).trans (hb i x hx).1
    · rw [valuesAt_ge (by rw [m.sorted_length]; omega)] at hx; simp at hx
  · intro i
    have := max_value_pos
    by_cases hi : i < m.numCategories
    · have := e3 i hi; linarith
    · rw [hout i (by omega)]; linarith
  · intro i
    exact ⟨(valuesAt m.sorted i).length, by simp, by simp⟩

theorem lengths_eq (trade : TradeWithMultipleRecipes) : (fun j => (remaining trade j).length) = sizeAt trade.categories := by
  rw [sizeAt_fun]; funext j; rw [remaining_eq]

/-- **C57**. In the auction with a recipe tree, an agent of category `c` with the true value `v` cannot gain by reporting another value `b`,
whatever the other agents report, and does not lose by reporting the truth. Which of the remaining agents trade is decided by a lottery
that depends on the numbers of remaining agents only. -/
theorem tree_auction_truthful {f : List (List ℕ) → ℚ → Py (List ℚ)} {m : Market} {struct : List PyObj} {f₁ f₂ c : ℕ} {v b : ℚ}
    {t : RecipeTree} {tT tB : TradeWithMultipleRecipes} (hf : PriceContract f)
    (ht : RecipeTree.init m.numCategories struct = .ok t) (hn : (treeNodes t).Nodup)
    (hlow : ∀ l ∈ m.valueLists, ∀ x ∈ l, -MAX_VALUE ≤ x ∧ x ≤ MAX_VALUE)
    (hv : -MAX_VALUE ≤ v ∧ v ≤ MAX_VALUE) (hb : -MAX_VALUE ≤ b ∧ b ≤ MAX_VALUE)
    (hT : auction f (withAgent m c v) struct f₁ = .ok (some tT)) (hB : auction f (withAgent m c b) struct f₂ = .ok (some tB))
    (chance : (ℕ → ℕ) → ℚ) (hchance : ∀ sizes, 0 ≤ chance sizes) :
    lotteryUtility chance (remaining tB) (finalPrice tB) c v b ≤ lotteryUtility chance (remaining tT) (finalPrice tT) c v v ∧
      0 ≤ lotteryUtility chance (remaining tT) (finalPrice tT) c v v := by
  have htT : RecipeTree.init (withAgent m c v).numCategories struct = .ok t := by rw [withAgent_length]; exact ht
  have htB : RecipeTree.init (withAgent m c b).numCategories struct = .ok t := by rw [withAgent_length]; exact ht
  have hto := treeOn_of_init ht hn
  by_cases hc : c < m.numCategories
  swap
  · -- there is no such category
    have key : ∀ {b : ℚ} {tB : TradeWithMultipleRecipes} {f₂ : ℕ}, auction f (withAgent m c b) struct f₂ = .ok (some tB) →
        remaining tB c = [] := by
      intro b tB f₂ hB
      have htB : RecipeTree.init (withAgent m c b).numCategories struct = .ok t := by rw [withAgent_length]; exact ht
      obtain ⟨cats, w, s, rfl, h1, -⟩ := outcome hf htB hn (fun _ _ _ => True) (by intros; trivial) (by intros; trivial)
        (by intros; trivial) hB
      rw [remaining_eq]
      exact valuesAt_ge (by change cats.length ≤ c; rw [h1.len, withAgent_length]; omega)
    unfold lotteryUtility
    rw [key hT, key hB]; simp
  -- truth does not lose
  have hbT := sorted_withAgent_bounds hc hlow hv
  have hbB := sorted_withAgent_bounds hc hlow hb
  have h0 : 0 ≤ lotteryUtility chance (remaining tT) (finalPrice tT) c v v := by
    unfold lotteryUtility
    split
    · rename_i hm
      have := (tree_auction_keeps_best hf htT hn hT c).2 (by
        intro l hl x hx
        obtain ⟨i, hi, rfl⟩ := List.getElem_of_mem hl
        refine (hbT i x ?_).1
        rw [valuesAt_sorted, mem_sortDesc, List.getD_eq_getElem?_getD, List.getElem?_eq_getElem hi]; exact hx) v hm
      exact mul_nonneg (hchance _) (by linarith)
    · exact le_refl _
  refine ⟨?_, h0⟩
  -- the two runs
  obtain ⟨p0, catsT, wT, a1, a2, rfl⟩ := auction_inv htT hn hT
  obtain ⟨p0', catsB, wB, b1, b2, rfl⟩ := auction_inv htB hn hB
  rw [withAgent_length] at a1 a2 b1 b2
  obtain rfl : p0' = p0 := by rw [a1] at b1; simpa using b1.symm
  have hip := hf _ _ _ a1
  obtain ⟨sT, iT, hsT, hpT⟩ := start_inv (m := withAgent m c v) (by rw [withAgent_length]; exact hto) (by rw [withAgent_length]; exact hip)
  obtain ⟨sB, iB, hsB, hpB⟩ := start_inv (m := withAgent m c b) (by rw [withAgent_length]; exact hto) (by rw [withAgent_length]; exact hip)
  have hfair := fair_start iB hbB hpB
  rw [withAgent_length] at iT iB hpT hpB hfair
  obtain rfl : sT = sB := by
    obtain ⟨q, hq⟩ := treePath_exists t
    rw [← iT.fits.balanced q hq, ← iB.fits.balanced q hq]
  have hR0 : priceAt (startVector t m.numCategories p0') c < v → SameBut c b v (withAgent m c b).sorted (startVector t m.numCategories p0')
      (withAgent m c v).sorted (startVector t m.numCategories p0') := by
    intro hlt
    refine ⟨fun _ => rfl, ?_, ⟨m.valueLists.getD c [], ?_, ?_⟩, hlt⟩
    · intro j hj
      rw [valuesAt_sorted, valuesAt_sorted, valueLists_withAgent m v hc, valueLists_withAgent m b hc, if_neg hj, if_neg hj]
    · rw [valuesAt_sorted, valueLists_withAgent m b hc, if_pos rfl]; exact sortDesc_perm _
    · rw [valuesAt_sorted, valueLists_withAgent m v hc, if_pos rfl]; exact sortDesc_perm _
  have hmain : b ∉ valuesAt catsB c ∨ v ≤ priceAt wB c ∨
      (sizeAt catsT = sizeAt catsB ∧ v ∈ valuesAt catsT c ∧ priceAt wT c = priceAt wB c) := by
    by_cases hlt : priceAt (startVector t m.numCategories p0') c < v
    · rcases tree_lockstep hto (fun i x hx => (hbB i x hx).2) f₂ iB iT (by linarith [max_value_pos]) hfair (hR0 hlt) b2
        with h | h | ⟨cT, vT, h1, h2⟩
      · exact Or.inl h
      · exact Or.inr (Or.inl h)
      · obtain ⟨rfl, rfl⟩ := Prod.ext_iff.1 (tree_loop_unique a2 h1)
        exact Or.inr (Or.inr h2)
    · -- the price is at least `v` from the start
      right; left
      push Not at hlt
      have := tree_loop_end hto (cats0 := (withAgent m c b).sorted)
        (fun cats w _ => Fair (withAgent m c b).sorted cats w ∧ v ≤ priceAt w c)
        (by
          intro x1 y1 s1 x2 y2 d1 g1 g2 g3 g4 g5 g6
          refine ⟨fair_next g1 (fun i x hx => (hbB i x hx).2) g3.1 g6, ?_⟩
          have h1 := nextState_nonneg g3.1.rational g3.1.le_max g6
          have := g3.2
          rw [g6.price]; split <;> linarith)
        (by
          intro x1 y1 s1 y2 d1 g1 g2 g3 g4 g5 g6 g7 g8
          refine ⟨fair_stop g1 g2 (fun i x hx => (hbB i x hx).2) g3.1 g5 g7 g8, ?_⟩
          have := g3.2
          rw [g8]; split <;> linarith)
        f₂ iB (by linarith [max_value_pos]) ⟨hfair, hlt⟩
      rcases this with h | ⟨x, y, s', h, -, h1, -⟩
      · rw [h] at b2; simp at b2
      · rw [h] at b2
        obtain ⟨rfl, rfl⟩ := Prod.ext_iff.1 (Option.some.inj (Except.ok.inj b2))
        exact h1.2
  rcases hmain with h | h | ⟨h1, h2, h3⟩
  · refine le_trans (le_of_eq ?_) h0
    unfold lotteryUtility
    rw [if_neg (by rw [remaining_eq]; exact h)]
  · refine le_trans ?_ h0
    unfold lotteryUtility
    split
    · have h' : v ≤ finalPrice (TradeWithMultipleRecipes.init catsB t wB.prices) c := h
      exact mul_nonpos_of_nonneg_of_nonpos (hchance _) (by linarith)
    · exact le_refl _
  · have hm : v ∈ remaining (TradeWithMultipleRecipes.init catsT t wT.prices) c := by rw [remaining_eq]; exact h2
    have hp : finalPrice (TradeWithMultipleRecipes.init catsT t wT.prices) c
        = finalPrice (TradeWithMultipleRecipes.init catsB t wB.prices) c := h3
    have hl : (fun j => (remaining (TradeWithMultipleRecipes.init catsT t wT.prices) j).length)
        = (fun j => (remaining (TradeWithMultipleRecipes.init catsB t wB.prices) j).length) := by
      rw [lengths_eq, lengths_eq]; exact h1
    by_cases hbm : b ∈ remaining (TradeWithMultipleRecipes.init catsB t wB.prices) c
    · unfold lotteryUtility
      rw [if_pos hm, if_pos hbm, hp, hl]
    · refine le_trans (le_of_eq ?_) h0
      unfold lotteryUtility
      rw [if_neg hbm]

/-- Non-vacuity: a buyer joins a market with two recipes. If its value is 17, reporting 4 costs it the trade at price 5; if its value is 4,
reporting 17 makes it pay 5. (All runs end, and two of the four remaining buyers trade.) -/
example :
    let m : Market := ⟨[⟨"buyer", [27, 21, 11, 3]⟩, ⟨"seller", [-4, -5, -11]⟩, ⟨"A", [-2, -3, -11]⟩, ⟨"B", [-1, -2, -8]⟩]⟩
    let s : List PyObj := [.int 0, .list [.int 1, .none, .int 2, .list [.int 3, .none]]]
    let f := fixedSolver [-100000000, -200000000, -100000000, -100000000]
    let chance : (ℕ → ℕ) → ℚ := fun sizes => 2 / sizes 0
    let run := fun (v b : ℚ) => (auction f (withAgent m 0 b) s 100).map
      (fun o => o.map (fun t => lotteryUtility chance (remaining t) (finalPrice t) 0 v b))
    RecipeTree.init 4 s = .ok ⟨0, .cons 1 .nil (.cons 2 (.cons 3 .nil .nil) .nil)⟩ ∧
    (run 17 17 = .ok (some 6) ∧ run 17 4 = .ok (some 0)) ∧ (run 4 4 = .ok (some 0) ∧ run 4 17 = .ok (some (-1 / 2))) := by
  decide +kernel

end Auctions.Props
