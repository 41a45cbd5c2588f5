import Verif.Proofs.TreeTermination
import Verif.Props.TreeAuction

set_option autoImplicit false

/-!
# C37 — termination of the tree auction

The auction does not always terminate: two markets on which it runs forever are given below, the second one with no empty category
and small values. A sufficient condition for termination is that every category that has a sibling in the tree is a leaf, or that all
categories in its subtree have agents, of different values.
-/

namespace Auctions.Props

open Auctions Spec TreeAuction

theorem capped_start {V : ℚ} (hV : 0 ≤ V) {p : ℕ → ℚ} {f : Forest} {h : ℚ} (hp : ∀ j ∈ nodes f, p j ≤ 0) (hh : (height f : ℚ) ≤ h) :
    Capped V p h f := by
  induction f generalizing h with
  | nil => trivial
  | cons i ch s ih1 ih2 =>
    rw [height] at hh
    have hh1 : (height ch : ℚ) + 1 ≤ h := le_trans (by exact_mod_cast le_max_left _ _) hh
    have hh2 : (height s : ℚ) ≤ h := le_trans (by exact_mod_cast le_max_right _ _) hh
    refine ⟨?_, ih1 (fun j hj => hp j (by simp [nodes, hj])) (by linarith), ih2 (fun j hj => hp j (by simp [nodes, hj])) hh2⟩
    intro q hq
    have h1 : psum p q ≤ 0 := by
      have := psum_ge (p := fun i => -p i) (l := q) (b := 0) (fun i hi => by
        have := hp i (by simp [nodes, isPath_subset hq i hi]); simp; linarith)
      have e : psum (fun i => -p i) q = -psum p q := by
        unfold psum
        clear this hq
        induction q with
        | nil => simp
        | cons a q ih => simp [ih]; ring
      rw [e] at this; linarith
    have h2 : 0 ≤ V * (h - 1) := mul_nonneg hV (by have : (0 : ℚ) ≤ height ch := by positivity
                                                   linarith)
    linarith

theorem agentsLeft_sorted (m : Market) : agentsLeft m.numCategories m.sorted = (m.valueLists.map List.length).sum := by
  unfold agentsLeft
  congr 1
  apply List.ext_getElem
  · simp [Market.numCategories, Market.valueLists]
  · intro k h1 h2
    have hk : k < m.valueLists.length := by simpa using h2
    simp [sizeAt_eq, valuesAt_sorted, hk, sortDesc_length]

section

variable {f : List (List ℕ) → ℚ → Py (List ℚ)} {m : Market} {struct : List PyObj} {t : RecipeTree}

/-- **C37**. Let `L` be the number of categories on a longest path of the tree and let all values be between `-V` and `V`, where
`V * (2 * L - 1) < MAX_VALUE`. If every category that has a sibling in the tree is a leaf or has a subtree in which every category has
agents, all of different values, then the auction ends within as many iterations as there are agents, plus one. -/
theorem tree_auction_terminates (hf : PriceContract f) (hfc : PriceComplete f)
    (ht : RecipeTree.init m.numCategories struct = .ok t) (hn : (treeNodes t).Nodup) (hch : t.children ≠ .nil)
    {V : ℚ} (hV : 0 ≤ V) (hb : ∀ l ∈ m.valueLists, ∀ x ∈ l, -V ≤ x ∧ x ≤ V)
    {L : ℕ} (hL : IsGreatest {l | ∃ p, TreePath t p ∧ p.length = l} L) (hM : V * (2 * L - 1) < MAX_VALUE)
    (hsib : SiblingsLeafOr (fun i => m.valueLists.getD i [] ≠ [] ∧ (m.valueLists.getD i []).Nodup) t)
    {fuel : ℕ} (hfuel : (m.valueLists.map List.length).sum < fuel) :
    ∃ trade, auction f m struct fuel = .ok (some trade) := by
  have hto := treeOn_of_init ht hn
  have hc : m.categories ≠ [] := by
    intro h
    have := hto.lt t.index (by simp [treeNodes])
    simp [Market.numCategories, h] at this
  have hLh : L = height t.forest := by
    apply le_antisymm
    · obtain ⟨p, hp, hl⟩ := hL.1
      rw [← hl]; exact isPath_length_le hp
    · obtain ⟨q, hq, hl⟩ := exists_longest (f := t.forest) (by simp [RecipeTree.forest])
      exact hL.2 ⟨q, hq, hl⟩
  subst hLh
  have hL1 : (1 : ℚ) ≤ height t.forest := by
    have : 1 ≤ height t.forest := by rw [RecipeTree.forest, height]; omega
    exact_mod_cast this
  have hVM : V < MAX_VALUE := by nlinarith
  obtain ⟨deals, -, -, -, ho⟩ := tree_optimal_trade (vals := valuesAt m.sorted) hn hch
  obtain ⟨p0, hp0⟩ := hfc _ _ (initialPrices_exist hto max_value_pos.le)
  obtain ⟨s, hi, hs, hp⟩ := start_inv hto (hf _ _ _ hp0)
  have hb' : ∀ i, ∀ x ∈ valuesAt m.sorted i, -V ≤ x ∧ x ≤ V := by
    intro i x hx
    rw [valuesAt_sorted, mem_sortDesc] at hx
    refine hb (m.valueLists.getD i []) ?_ x hx
    by_cases hil : i < m.valueLists.length
    · rw [List.getD_eq_getElem?_getD, List.getElem?_eq_getElem hil]; exact List.getElem_mem hil
    · rw [List.getD_eq_getElem?_getD, List.getElem?_eq_none (by omega)] at hx; simp at hx
  have hlow : ∀ i, ∀ x ∈ valuesAt m.sorted i, priceAt (startVector t m.numCategories p0) i < x := by
    intro i x hx
    have hin : i < m.numCategories := by
      by_contra hge
      rw [valuesAt_ge (by rw [m.sorted_length]; omega)] at hx; simp at hx
    have := hp i hin
    have := (hb' i x hx).1
    linarith
  have hmax0 := max_value_pos
  have hneg : ∀ i, priceAt (startVector t m.numCategories p0) i ≤ 0 := by
    intro i
    by_cases hin : i < m.numCategories
    · have := hp i hin; linarith
    · unfold priceAt
      rw [List.getD_eq_getElem?_getD, List.getElem?_eq_none (by rw [hi.fits.length]; omega)]; simp
  have hsz : ∀ i, m.valueLists.getD i [] ≠ [] → sizeAt m.sorted i ≠ 0 := by
    intro i hne
    rw [sizeAt_eq, valuesAt_sorted, sortDesc_length]
    intro h0; exact hne (List.length_eq_zero_iff.1 h0)
  have hterm : TermInv t (fun i => m.valueLists.getD i [] ≠ [] ∧ (m.valueLists.getD i []).Nodup) V m.sorted
      (startVector t m.numCategories p0) := by
    refine ⟨fun i x hx => (hlow i x hx).le, fun i => by have := hneg i; linarith, hb', capped_start hV (fun j _ => hneg j) le_rfl,
      fun i _ => hlow i, ?_, ?_, ?_⟩
    · intro i hG
      rw [valuesAt_sorted]
      exact (sortDesc_perm _).nodup_iff.2 hG.2
    · intro i hG h0; exact absurd h0 (hsz i hG.1)
    · intro i ch _ hG h0; exact absurd h0 (hsz i hG.1)
  obtain ⟨⟨cats, v⟩, hr⟩ := tree_loop_terminates hto hV hM hsib fuel hi hterm (by rw [agentsLeft_sorted]; exact hfuel)
  rw [auction_eq fuel hc ht hn ho hp0, hr]
  exact ⟨_, rfl⟩

/-- **C37**, first special case: every category that has a sibling is a leaf. -/
theorem tree_auction_terminates_leaf_siblings (hf : PriceContract f) (hfc : PriceComplete f)
    (ht : RecipeTree.init m.numCategories struct = .ok t) (hn : (treeNodes t).Nodup) (hch : t.children ≠ .nil)
    {V : ℚ} (hV : 0 ≤ V) (hb : ∀ l ∈ m.valueLists, ∀ x ∈ l, -V ≤ x ∧ x ≤ V)
    {L : ℕ} (hL : IsGreatest {l | ∃ p, TreePath t p ∧ p.length = l} L) (hM : V * (2 * L - 1) < MAX_VALUE)
    (hsib : ∀ i ch, IsNode (.cons t.index t.children .nil) i ch → 2 ≤ (trees ch).length → ∀ c ∈ trees ch, c.2 = .nil)
    {fuel : ℕ} (hfuel : (m.valueLists.map List.length).sum < fuel) :
    ∃ trade, auction f m struct fuel = .ok (some trade) :=
  tree_auction_terminates hf hfc ht hn hch hV hb hL hM (fun i ch h1 h2 c hc => Or.inl (hsib i ch h1 h2 c hc)) hfuel

theorem trees_mem {f : Forest} {c : ℕ × Forest} (h : c ∈ trees f) : ∀ k ∈ c.1 :: nodes c.2, k ∈ nodes f := by
  induction f with
  | nil => simp [trees] at h
  | cons i ch s ih1 ih2 =>
    rw [trees, List.mem_cons] at h
    intro k hk
    rcases h with rfl | h
    · rcases List.mem_cons.1 hk with rfl | hk
      · simp [nodes]
      · simp [nodes, hk]
    · simp [nodes, ih2 h k hk]

theorem isNode_sub {f : Forest} {i : ℕ} {ch : Forest} (h : IsNode f i ch) : ∀ k ∈ nodes ch, k ∈ nodes f := by
  induction h with
  | here i ch s => intro k hk; simp [nodes, hk]
  | down _ ih => intro k hk; simp [nodes, ih k hk]
  | next _ ih => intro k hk; simp [nodes, ih k hk]

/-- **C37**, second special case: every category of the tree has agents, all of different values. -/
theorem tree_auction_terminates_distinct (hf : PriceContract f) (hfc : PriceComplete f)
    (ht : RecipeTree.init m.numCategories struct = .ok t) (hn : (treeNodes t).Nodup) (hch : t.children ≠ .nil)
    {V : ℚ} (hV : 0 ≤ V) (hb : ∀ l ∈ m.valueLists, ∀ x ∈ l, -V ≤ x ∧ x ≤ V)
    {L : ℕ} (hL : IsGreatest {l | ∃ p, TreePath t p ∧ p.length = l} L) (hM : V * (2 * L - 1) < MAX_VALUE)
    (hdis : ∀ i ∈ treeNodes t, m.valueLists.getD i [] ≠ [] ∧ (m.valueLists.getD i []).Nodup)
    {fuel : ℕ} (hfuel : (m.valueLists.map List.length).sum < fuel) :
    ∃ trade, auction f m struct fuel = .ok (some trade) := by
  refine tree_auction_terminates hf hfc ht hn hch hV hb hL hM (fun i ch h1 h2 c hc => Or.inr ?_) hfuel
  intro k hk
  apply hdis
  have := isNode_sub h1 k (trees_mem hc k hk)
  simpa [nodes, treeNodes] using this

end

/-! ## Markets on which the auction runs forever -/

/-- One iteration of the loop as a function on states; `none` if the loop ends or raises. -/
def oneIteration (t : RecipeTree) (w : List AgentCategory × SimultaneousAscendingPriceVectors) :
    Option (List AgentCategory × SimultaneousAscendingPriceVectors) :=
  if (t.largestCategories (sizeAt w.1)).2.1 = 0 then none
  else match increases w.1 (t.largestCategories (sizeAt w.1)).2.2 with
    | .error _ => none
    | .ok incs => match w.2.increasePrices incs with
      | .error _ => none
      | .ok v' => if v'.status = some .stoppedAtZeroSum then none else match removeLosers w.1 v'.prices with
        | .error _ => none
        | .ok cats' => some (cats', v')

theorem oneIteration_loop {t : RecipeTree} {w w' : List AgentCategory × SimultaneousAscendingPriceVectors}
    (h : oneIteration t w = some w') (fuel : ℕ) : loop t (fuel + 1) w.1 w.2 = loop t fuel w'.1 w'.2 := by
  unfold oneIteration at h
  rw [loop]
  simp only
  split at h
  · simp at h
  · rename_i h0
    rw [if_neg h0]
    split at h
    · simp at h
    · rename_i incs h1
      split at h
      · simp at h
      · rename_i v' h2
        split at h
        · simp at h
        · rename_i h3
          split at h
          · simp at h
          · rename_i cats' h4
            simp only [Option.some.injEq] at h
            subst h
            simp only [h1, h2, bind, Except.bind]
            rw [if_neg h3]
            simp only [h4]

/-- `k` iterations of the loop. -/
def iterations (t : RecipeTree) :
    ℕ → List AgentCategory × SimultaneousAscendingPriceVectors → Option (List AgentCategory × SimultaneousAscendingPriceVectors)
  | 0, w => some w
  | k + 1, w => match oneIteration t w with
    | none => none
    | some w' => iterations t k w'

/-- A run that reaches a state that an iteration does not change never ends. -/
theorem diverges {t : RecipeTree} {w w' : List AgentCategory × SimultaneousAscendingPriceVectors} (k : ℕ)
    (h : iterations t k w = some w') (hw : oneIteration t w' = some w') (fuel : ℕ) : loop t fuel w.1 w.2 = .ok none := by
  induction fuel generalizing k w with
  | zero => rfl
  | succ n ih =>
    cases k with
    | zero =>
      rw [iterations, Option.some.injEq] at h
      subst h
      rw [oneIteration_loop hw]
      exact ih 0 rfl
    | succ k =>
      rw [iterations] at h
      split at h
      · simp at h
      · rename_i w1 h1
        rw [oneIteration_loop h1]
        exact ih k h

/-- **C37**. The auction does not always terminate: on this market with two empty categories it runs forever, with every solver that finds
initial prices of the largest possible sum for its recipes. -/
theorem tree_auction_runs_forever_empty {f : List (List ℕ) → ℚ → Py (List ℚ)} (hf : SolvesAt f [[1, 0, 1, 1], [1, 1, 0, 0]] (-MAX_VALUE)) (fuel : ℕ) :
    auction f ⟨[⟨"seller", [-4]⟩, ⟨"buyer", [9]⟩, ⟨"A", []⟩, ⟨"B", []⟩]⟩
      [.int 0, .list [.int 2, .list [.int 3, .none], .int 1, .none]] fuel = .ok none := by
  have e : RecipeTree.init (⟨[⟨"seller", [-4]⟩, ⟨"buyer", [9]⟩, ⟨"A", []⟩, ⟨"B", []⟩]⟩ : Market).numCategories
      [.int 0, .list [.int 2, .list [.int 3, .none], .int 1, .none]] = .ok ⟨0, .cons 2 (.cons 3 .nil .nil) (.cons 1 .nil .nil)⟩ := by
    decide +kernel
  have hr : (⟨0, .cons 2 (.cons 3 .nil .nil) (.cons 1 .nil .nil)⟩ : RecipeTree).pathsToLeaf.map
      (indicator (⟨[⟨"seller", [-4]⟩, ⟨"buyer", [9]⟩, ⟨"A", []⟩, ⟨"B", []⟩]⟩ : Market).numCategories) = [[1, 0, 1, 1], [1, 1, 0, 0]] := by
    decide +kernel
  have hp1 : InitialPrices [[1, 0, 1, 1], [1, 1, 0, 0]] (-MAX_VALUE) [-MAX_VALUE, -2 * MAX_VALUE, -MAX_VALUE, -MAX_VALUE] := by
    refine ⟨by simp, ?_, -3 * MAX_VALUE, ?_⟩
    · have := max_value_pos
      simp only [List.mem_cons, List.not_mem_nil, or_false, forall_eq_or_imp, forall_eq]
      refine ⟨?_, ?_, ?_, ?_⟩ <;> linarith
    · simp only [List.mem_cons, List.not_mem_nil, or_false, forall_eq_or_imp, forall_eq, recipeSum]
      constructor <;> simp <;> ring
  obtain ⟨p0, hp0, hc, hm⟩ := hf
  have hm := hm _ hp1
  have : p0 = [-MAX_VALUE, -2 * MAX_VALUE, -MAX_VALUE, -MAX_VALUE] := by
    obtain ⟨c1, c2, s, c3⟩ := hc
    have hl := c1 [1, 0, 1, 1] (by simp)
    match p0, hl with
    | [a, b, c, d], _ =>
      have h1 := hm [1, 0, 1, 1] (by simp)
      have h2 := c3 [1, 0, 1, 1] (by simp)
      have h3 := c3 [1, 1, 0, 0] (by simp)
      have ha := c2 a (by simp)
      have hb := c2 b (by simp)
      have hcc := c2 c (by simp)
      have hd := c2 d (by simp)
      simp [recipeSum] at h1 h2 h3
      have ea : a = -MAX_VALUE := by linarith
      have ec : c = -MAX_VALUE := by linarith
      have ed : d = -MAX_VALUE := by linarith
      have eb : b = -2 * MAX_VALUE := by linarith
      rw [ea, eb, ec, ed]
  subst this
  have ho : (⟨0, .cons 2 (.cons 3 .nil .nil) (.cons 1 .nil .nil)⟩ : RecipeTree).optimalTrade
      (valuesAt (⟨[⟨"seller", [-4]⟩, ⟨"buyer", [9]⟩, ⟨"A", []⟩, ⟨"B", []⟩]⟩ : Market).sorted) = .ok ([[-4, 9]], 1, 5) := by
    decide +kernel
  rw [auction_eq fuel (by simp) e (by decide) ho (by rw [hr]; exact hp0)]
  rw [diverges (w := (_, _)) (w' := ([⟨"seller", [-4]⟩, ⟨"buyer", [9]⟩, ⟨"A", []⟩, ⟨"B", []⟩],
    ⟨[[1, 0, 1, 1], [1, 1, 0, 0]], [-MAX_VALUE, 0, MAX_VALUE, -MAX_VALUE], some .stoppedAtAgentValue⟩)) 1
    (by decide +kernel) (by decide +kernel) fuel]

/-- **C37**. The auction also runs forever on this market, in which every category has agents and the values are small; only three agents of
one category have equal values. -/
theorem tree_auction_runs_forever_ties {f : List (List ℕ) → ℚ → Py (List ℚ)} (hf : SolvesAt f [[1, 1, 1, 1, 0], [1, 0, 0, 0, 1]] (-MAX_VALUE)) (fuel : ℕ) :
    auction f ⟨[⟨"seller", [-4]⟩, ⟨"A", [3, 2, 1]⟩, ⟨"B", [5, 5, 5]⟩, ⟨"C", [7]⟩, ⟨"buyer", [9]⟩]⟩
      [.int 0, .list [.int 1, .list [.int 2, .list [.int 3, .none]], .int 4, .none]] fuel = .ok none := by
  have e : RecipeTree.init (⟨[⟨"seller", [-4]⟩, ⟨"A", [3, 2, 1]⟩, ⟨"B", [5, 5, 5]⟩, ⟨"C", [7]⟩, ⟨"buyer", [9]⟩]⟩ : Market).numCategories
      [.int 0, .list [.int 1, .list [.int 2, .list [.int 3, .none]], .int 4, .none]]
        = .ok ⟨0, .cons 1 (.cons 2 (.cons 3 .nil .nil) .nil) (.cons 4 .nil .nil)⟩ := by
    decide +kernel
  have hr : (⟨0, .cons 1 (.cons 2 (.cons 3 .nil .nil) .nil) (.cons 4 .nil .nil)⟩ : RecipeTree).pathsToLeaf.map
      (indicator (⟨[⟨"seller", [-4]⟩, ⟨"A", [3, 2, 1]⟩, ⟨"B", [5, 5, 5]⟩, ⟨"C", [7]⟩, ⟨"buyer", [9]⟩]⟩ : Market).numCategories)
        = [[1, 1, 1, 1, 0], [1, 0, 0, 0, 1]] := by
    decide +kernel
  have hp1 : InitialPrices [[1, 1, 1, 1, 0], [1, 0, 0, 0, 1]] (-MAX_VALUE)
      [-MAX_VALUE, -MAX_VALUE, -MAX_VALUE, -MAX_VALUE, -3 * MAX_VALUE] := by
    refine ⟨by simp, ?_, -4 * MAX_VALUE, ?_⟩
    · have := max_value_pos
      simp only [List.mem_cons, List.not_mem_nil, or_false, forall_eq_or_imp, forall_eq]
      refine ⟨?_, ?_, ?_, ?_, ?_⟩ <;> linarith
    · simp only [List.mem_cons, List.not_mem_nil, or_false, forall_eq_or_imp, forall_eq, recipeSum]
      constructor <;> simp <;> ring
  obtain ⟨p0, hp0, hc, hm⟩ := hf
  have hm := hm _ hp1
  have : p0 = [-MAX_VALUE, -MAX_VALUE, -MAX_VALUE, -MAX_VALUE, -3 * MAX_VALUE] := by
    obtain ⟨c1, c2, s, c3⟩ := hc
    have hl := c1 [1, 1, 1, 1, 0] (by simp)
    match p0, hl with
    | [a, b, c, d, g], _ =>
      have h1 := hm [1, 1, 1, 1, 0] (by simp)
      have h2 := c3 [1, 1, 1, 1, 0] (by simp)
      have h3 := c3 [1, 0, 0, 0, 1] (by simp)
      have ha := c2 a (by simp)
      have hb := c2 b (by simp)
      have hcc := c2 c (by simp)
      have hd := c2 d (by simp)
      simp [recipeSum] at h1 h2 h3
      have ea : a = -MAX_VALUE := by linarith
      have eb : b = -MAX_VALUE := by linarith
      have ec : c = -MAX_VALUE := by linarith
      have ed : d = -MAX_VALUE := by linarith
      have eg : g = -3 * MAX_VALUE := by linarith
      rw [ea, eb, ec, ed, eg]
  subst this
  have ho : (⟨0, .cons 1 (.cons 2 (.cons 3 .nil .nil) .nil) (.cons 4 .nil .nil)⟩ : RecipeTree).optimalTrade
      (valuesAt (⟨[⟨"seller", [-4]⟩, ⟨"A", [3, 2, 1]⟩, ⟨"B", [5, 5, 5]⟩, ⟨"C", [7]⟩, ⟨"buyer", [9]⟩]⟩ : Market).sorted)
        = .ok ([[-4, 3, 5, 7]], 1, 11) := by
    decide +kernel
  rw [auction_eq fuel (by simp) e (by decide) ho (by rw [hr]; exact hp0)]
  rw [diverges (w := (_, _)) (w' := ([⟨"seller", [-4]⟩, ⟨"A", []⟩, ⟨"B", []⟩, ⟨"C", [7]⟩, ⟨"buyer", [9]⟩],
    ⟨[[1, 1, 1, 1, 0], [1, 0, 0, 0, 1]], [-MAX_VALUE, MAX_VALUE, 5, -MAX_VALUE, 5], some .stoppedAtAgentValue⟩)) 5
    (by decide +kernel) (by decide +kernel) fuel]

/-- Non-vacuity of `tree_auction_terminates`: the tree `[0, [1, None, 2, [3, None]]]` of the doctests, with different values in the categories
2 and 3 (category 1 is a leaf and may have equal values). -/
example : SiblingsLeafOr (fun i => ([[27, 21], [-4, -4], [-2, -3], [-1]] : List (List ℚ)).getD i [] ≠ [] ∧
    (([[27, 21], [-4, -4], [-2, -3], [-1]] : List (List ℚ)).getD i []).Nodup) ⟨0, .cons 1 .nil (.cons 2 (.cons 3 .nil .nil) .nil)⟩ := by
  intro i ch h hl c hc
  have hcases : ch = .cons 1 .nil (.cons 2 (.cons 3 .nil .nil) .nil) ∨ (trees ch).length ≤ 1 := by
    cases h with
    | here => left; rfl
    | down h => cases h with
      | here => right; simp [trees]
      | down h => cases h
      | next h => cases h with
        | here => right; simp [trees]
        | down h => cases h with
          | here => right; simp [trees]
          | down h => cases h
          | next h => cases h
        | next h => cases h
    | next h => cases h
  rcases hcases with rfl | h'
  · simp only [trees, List.mem_cons, List.not_mem_nil, or_false] at hc
    rcases hc with rfl | rfl
    · left; rfl
    · right; decide +kernel
  · omega

/-- Non-vacuity of `tree_auction_terminates`: the longest path and the bound for that tree and `V = 27`. -/
example : IsGreatest {l | ∃ p, TreePath ⟨0, .cons 1 .nil (.cons 2 (.cons 3 .nil .nil) .nil)⟩ p ∧ p.length = l} 3 ∧
    (27 : ℚ) * (2 * (3 : ℕ) - 1) < MAX_VALUE := by
  refine ⟨⟨⟨[0, 2, 3], ⟨[0, 1, 0], .down (.next (.down (.leaf 3 .nil)))⟩, rfl⟩, ?_⟩, by norm_num [MAX_VALUE]⟩
  rintro l ⟨p, hp, rfl⟩
  exact isPath_length_le hp

/-- Non-vacuity of the assumption on the solver in the two divergence theorems. -/
example : SolvesAt (fixedSolver [-MAX_VALUE, -2 * MAX_VALUE, -MAX_VALUE, -MAX_VALUE]) [[1, 0, 1, 1], [1, 1, 0, 0]] (-MAX_VALUE) := by
  refine ⟨[-MAX_VALUE, -2 * MAX_VALUE, -MAX_VALUE, -MAX_VALUE], by decide +kernel, ?_, ?_⟩
  · exact fixedSolver_contract [-MAX_VALUE, -2 * MAX_VALUE, -MAX_VALUE, -MAX_VALUE] _ _ _ (by decide +kernel)
  · rintro p ⟨h1, h2, s, h3⟩ r hr
    have hl := h1 [1, 0, 1, 1] (by simp)
    match p, hl with
    | [a, b, c, d], _ =>
      have e1 := h3 [1, 0, 1, 1] (by simp)
      have e2 := h3 [1, 1, 0, 0] (by simp)
      have ha := h2 a (by simp)
      have hc := h2 c (by simp)
      have hd := h2 d (by simp)
      simp only [List.mem_cons, List.not_mem_nil, or_false] at hr
      simp [recipeSum] at e1 e2
      rcases hr with rfl | rfl <;> simp [recipeSum] <;> linarith

end Auctions.Props
