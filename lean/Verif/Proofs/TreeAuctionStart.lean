import Verif.Proofs.TreeAuction
import Verif.Proofs.OptimalTrade
import Verif.Spec.InitialPrices
import Verif.Spec.View

set_option autoImplicit false

/-! # Helper lemmas: start and end of the tree auction -/

namespace Auctions

open Spec TreeAuction

theorem treeOn_of_init {n : ℕ} {l : List PyObj} {t : RecipeTree} (h : RecipeTree.init n l = .ok t) (hn : (treeNodes t).Nodup) :
    TreeOn t n := by
  refine ⟨hn, ?_⟩
  by_cases hodd : l.length % 2 = 1
  · simp [RecipeTree.init, hodd] at h
  · match l, h with
    | [], h => simp [RecipeTree.init] at h
    | [_], h => simp at hodd
    | x :: y :: rest, h =>
      have : rest.length % 2 = 0 := by simp at hodd; omega
      have h2 := ((init_ok this).1 h).2
      intro i hi
      exact h2 i (by simpa [RecipeTree.forest, nodes, treeNodes] using hi)

theorem valuesAt_sorted (m : Market) (i : ℕ) : valuesAt m.sorted i = sortDesc (m.valueLists.getD i []) := by
  have h := vAt_sorted m i
  by_cases hi : i < m.categories.length
  · rw [valuesAt_get (by simpa [Market.sorted] using hi)]
    simp [Market.sorted, Market.valueLists, AgentCategory.clone, AgentCategory.init, hi]
  · rw [valuesAt_ge (by rw [Market.sorted_length]; simpa [Market.numCategories] using hi)]
    have : m.valueLists.getD i [] = [] := by
      rw [List.getD_eq_getElem?_getD, List.getElem?_eq_none (by simpa [Market.valueLists] using hi)]; rfl
    rw [this]; rfl

theorem recipes_of_treeOn {t : RecipeTree} {n : ℕ} (ht : TreeOn t n) : t.recipes n = .ok (t.pathsToLeaf.map (indicator n)) :=
  recipes_eq (by simpa [RecipeTree.forest, nodes, treeNodes] using ht.lt)

theorem paths_ne_nil (t : RecipeTree) : t.pathsToLeaf ≠ [] := by
  obtain ⟨p, hp⟩ := treePath_exists t
  exact List.ne_nil_of_mem (mem_paths.2 hp)

theorem init_vector (t : RecipeTree) (n : ℕ) (p0 : List ℚ) :
    SimultaneousAscendingPriceVectors.init (t.pathsToLeaf.map (indicator n)) p0
      = .ok ⟨t.pathsToLeaf.map (indicator n), p0, none⟩ := by
  have hne := paths_ne_nil t
  cases h : t.pathsToLeaf with
  | nil => exact absurd h hne
  | cons p ps =>
    rw [List.map_cons, SimultaneousAscendingPriceVectors.init, if_neg]
    simp [indicator]

theorem getD_le_of_forall {p : List ℚ} {b : ℚ} (h : ∀ x ∈ p, x ≤ b) {i : ℕ} (hi : i < p.length) : p.getD i 0 ≤ b := by
  rw [List.getD_eq_getElem?_getD, List.getElem?_eq_getElem hi]
  exact h _ (List.getElem_mem hi)

theorem sum_le_neg {l : List ℕ} {g : ℕ → ℚ} {b : ℚ} (hb : b ≤ 0) (hne : l ≠ []) (h : ∀ i ∈ l, g i ≤ b) : (l.map g).sum ≤ b := by
  cases l with
  | nil => exact absurd rfl hne
  | cons i l =>
    have h1 := h i (by simp)
    have h2 : (l.map g).sum ≤ 0 := by
      have : ∀ l : List ℕ, (∀ i ∈ l, g i ≤ b) → (l.map g).sum ≤ 0 := by
        intro l
        induction l with
        | nil => simp
        | cons j l ih =>
          intro hl
          have := ih (fun i hi => hl i (by simp [hi]))
          have := hl j (by simp)
          simp only [List.map_cons, List.sum_cons]; linarith
      exact this l (fun i hi => h i (by simp [hi]))
    simp only [List.map_cons, List.sum_cons]; linarith

theorem max_value_pos : (0 : ℚ) < MAX_VALUE := by norm_num [MAX_VALUE]

/-- The price vector at the start of the auction. -/
def startVector (t : RecipeTree) (n : ℕ) (p0 : List ℚ) : SimultaneousAscendingPriceVectors := ⟨t.pathsToLeaf.map (indicator n), p0, none⟩

/-- The invariant holds at the start. -/
theorem start_inv {t : RecipeTree} {m : Market} (ht : TreeOn t m.numCategories) {p0 : List ℚ}
    (hp : InitialPrices (t.pathsToLeaf.map (indicator m.numCategories)) (-MAX_VALUE) p0) :
    ∃ s, TInv t m.numCategories m.sorted m.sorted (startVector t m.numCategories p0) s ∧ s ≤ -MAX_VALUE ∧
      ∀ i < m.numCategories, priceAt (startVector t m.numCategories p0) i ≤ -MAX_VALUE := by
  obtain ⟨h1, h2, s, h3⟩ := hp
  obtain ⟨q, hq⟩ := treePath_exists t
  have hlen : p0.length = m.numCategories := by
    have := h1 _ (List.mem_map_of_mem (mem_paths.2 hq))
    rw [← this]; simp [indicator]
  have hbal : ∀ p, TreePath t p → pathSum p0 p = s := by
    intro p hp
    rw [← h3 _ (List.mem_map_of_mem (mem_paths.2 hp)), recipeSum_indicator hlen (ht.path_nodup hp) (ht.path_lt hp)]
  refine ⟨s, ⟨m.sorted_length, rfl, fun i => ⟨(valuesAt m.sorted i).length, by simp⟩, ?_, ⟨rfl, hlen, hbal⟩⟩, ?_, ?_⟩
  · intro i; rw [valuesAt_sorted]; exact sortDesc_sorted _
  · rw [← hbal q hq]
    refine sum_le_neg (by linarith [max_value_pos]) (isPath_ne_nil hq) ?_
    intro i hi
    exact getD_le_of_forall h2 (by rw [hlen]; exact ht.path_lt hq i hi)
  · intro i hi
    exact getD_le_of_forall h2 (by rw [hlen]; exact hi)

/-- What a run that returns has done. -/
theorem auction_inv {f : List (List ℕ) → ℚ → Py (List ℚ)} {m : Market} {struct : List PyObj} {fuel : ℕ}
    {trade : TradeWithMultipleRecipes} {t : RecipeTree} (ht : RecipeTree.init m.numCategories struct = .ok t)
    (hn : (treeNodes t).Nodup) (h : auction f m struct fuel = .ok (some trade)) :
    ∃ p0 cats v, f (t.pathsToLeaf.map (indicator m.numCategories)) (-MAX_VALUE) = .ok p0 ∧
      loop t fuel m.sorted (startVector t m.numCategories p0) = .ok (some (cats, v)) ∧
      trade = TradeWithMultipleRecipes.init cats t v.prices := by
  have hto := treeOn_of_init ht hn
  by_cases hc : m.categories = []
  · exfalso
    unfold auction at h
    simp [Market.clone, hc, Market.init, bind, Except.bind] at h
  · unfold auction at h
    rw [Market.clone_eq hc] at h
    have hnum : (⟨m.sorted⟩ : Market).numCategories = m.numCategories := m.sorted_length
    rw [bind_ok_iff] at h
    obtain ⟨m', hm', h⟩ := h
    simp only [Except.ok.injEq] at hm'
    subst hm'
    rw [hnum, ht, bind_ok_iff] at h
    obtain ⟨t', ht', h⟩ := h
    simp only [Except.ok.injEq] at ht'
    subst ht'
    rw [recipes_of_treeOn hto, bind_ok_iff] at h
    obtain ⟨rs, hrs, h⟩ := h
    simp only [Except.ok.injEq] at hrs
    subst hrs
    rw [bind_ok_iff] at h
    obtain ⟨-, -, h⟩ := h
    rw [bind_ok_iff] at h
    obtain ⟨p0, hp0, h⟩ := h
    rw [init_vector, bind_ok_iff] at h
    obtain ⟨v0, hv0, h⟩ := h
    simp only [Except.ok.injEq] at hv0
    subst hv0
    rw [bind_ok_iff] at h
    obtain ⟨r, hr, h⟩ := h
    cases r with
    | none => simp at h
    | some cv =>
      obtain ⟨cats, v⟩ := cv
      simp only [Except.ok.injEq, Option.some.injEq] at h
      exact ⟨p0, cats, v, hp0, hr, h.symm⟩

/-- What the auction does on accepted inputs. -/
theorem auction_eq {f : List (List ℕ) → ℚ → Py (List ℚ)} {m : Market} {struct : List PyObj} (fuel : ℕ) (hc : m.categories ≠ [])
    {t : RecipeTree} (ht : RecipeTree.init m.numCategories struct = .ok t) (hn : (treeNodes t).Nodup)
    {o : List (List ℚ) × ℕ × ℚ} (ho : t.optimalTrade (valuesAt m.sorted) = .ok o) {p0 : List ℚ}
    (hp : f (t.pathsToLeaf.map (indicator m.numCategories)) (-MAX_VALUE) = .ok p0) :
    auction f m struct fuel = (match loop t fuel m.sorted (startVector t m.numCategories p0) with
      | .error e => .error e
      | .ok none => .ok none
      | .ok (some (cats, v)) => .ok (some (TradeWithMultipleRecipes.init cats t v.prices))) := by
  have hto := treeOn_of_init ht hn
  have hnum : (⟨m.sorted⟩ : Market).numCategories = m.numCategories := m.sorted_length
  unfold auction
  rw [Market.clone_eq hc]
  simp only [bind, Except.bind, hnum, ht, recipes_of_treeOn hto, ho, hp, init_vector, startVector]
  generalize loop t fuel m.sorted ⟨t.pathsToLeaf.map (indicator m.numCategories), p0, none⟩ = L
  rcases L with e | (_ | ⟨c, v⟩) <;> rfl

end Auctions
