import Verif.Proofs.TreeAuctionStart

set_option autoImplicit false

/-! # Helper lemmas: balanced initial prices exist for every tree -/

namespace Auctions

open Spec TreeAuction

/-- Number of nodes on a longest path. -/
def height : Forest → ℕ
  | .nil => 0
  | .cons _ ch s => max (height ch + 1) (height s)

theorem isPath_length_le {f : Forest} {p : List ℕ} (h : IsPath f p) : p.length ≤ height f := by
  induction f generalizing p with
  | nil => exact absurd h isPath_nil
  | cons i ch s ih1 ih2 =>
    rw [isPath_cons] at h
    rw [height]
    rcases h with ⟨-, rfl⟩ | ⟨q, rfl, h⟩ | h
    · simp
    · have := ih1 h; simp; omega
    · have := ih2 h; omega

theorem exists_longest {f : Forest} (h : f ≠ .nil) : ∃ p, IsPath f p ∧ p.length = height f := by
  induction f with
  | nil => exact absurd rfl h
  | cons i ch s ih1 ih2 =>
    rw [height]
    by_cases hs : height ch + 1 ≥ height s
    · by_cases hc : ch = .nil
      · refine ⟨[i], isPath_cons.2 (Or.inl ⟨hc, rfl⟩), ?_⟩
        subst hc
        simp only [height] at hs ⊢
        simp; omega
      · obtain ⟨q, hq, hl⟩ := ih1 hc
        exact ⟨i :: q, isPath_cons.2 (Or.inr (Or.inl ⟨q, rfl, hq⟩)), by simp; omega⟩
    · have hsn : s ≠ .nil := by rintro rfl; simp [height] at hs
      obtain ⟨q, hq, hl⟩ := ih2 hsn
      exact ⟨q, isPath_cons.2 (Or.inr (Or.inr hq)), by omega⟩

/-- Prices with the same sum `-b * h` on all paths: `-b` for every inner node, the rest for the leaves. -/
def balancedPrice (b : ℚ) : Forest → ℕ → ℕ → ℚ
  | .nil, _, _ => -b
  | .cons i ch s, h, j =>
    if j = i then (if ch = .nil then -b * h else -b)
    else if j ∈ nodes ch then balancedPrice b ch (h - 1) j else balancedPrice b s h j

theorem balancedPrice_le {b : ℚ} (hb : 0 ≤ b) (f : Forest) (h : ℕ) (hh : height f ≤ h) (hpos : 1 ≤ h) (j : ℕ) :
    balancedPrice b f h j ≤ -b := by
  induction f generalizing h with
  | nil => simp [balancedPrice]
  | cons i ch s ih1 ih2 =>
    rw [height] at hh
    rw [balancedPrice]
    have hq : (1 : ℚ) ≤ h := by exact_mod_cast hpos
    split
    · split
      · nlinarith
      · exact le_refl _
    · split
      · rename_i hj
        have hc : ch ≠ .nil := by rintro rfl; simp [nodes] at hj
        have : 1 ≤ height ch := by
          cases ch with
          | nil => exact absurd rfl hc
          | cons a b c => rw [height]; omega
        exact ih1 (h - 1) (by omega) (by omega)
      · exact ih2 h (by omega) hpos

theorem balancedPrice_sum {b : ℚ} {f : Forest} (hn : (nodes f).Nodup) {h : ℕ} (hh : height f ≤ h) {p : List ℕ} (hp : IsPath f p) :
    (p.map (balancedPrice b f h)).sum = -b * h := by
  induction f generalizing h p with
  | nil => exact absurd hp isPath_nil
  | cons i ch s ih1 ih2 =>
    rw [height] at hh
    rw [nodes, List.nodup_cons, List.mem_append, List.nodup_append] at hn
    obtain ⟨hi, hch, hs, hdis⟩ := hn
    push Not at hi
    rw [isPath_cons] at hp
    rcases hp with ⟨rfl, rfl⟩ | ⟨q, rfl, hq⟩ | hp
    · simp [balancedPrice]
    · have hc : ch ≠ .nil := by rintro rfl; exact isPath_nil hq
      have e : q.map (balancedPrice b (.cons i ch s) h) = q.map (balancedPrice b ch (h - 1)) := by
        apply List.map_congr_left
        intro j hj
        have hjn := isPath_subset hq j hj
        have hji : j ≠ i := by rintro rfl; exact hi.1 hjn
        simp [balancedPrice, hji, hjn]
      rw [List.map_cons, List.sum_cons, e, ih1 hch (by omega) hq]
      simp only [balancedPrice, if_true, hc, if_false]
      have : ((h - 1 : ℕ) : ℚ) = (h : ℚ) - 1 := by
        rw [Nat.cast_sub (by omega)]; simp
      rw [this]; ring
    · have e : p.map (balancedPrice b (.cons i ch s) h) = p.map (balancedPrice b s h) := by
        apply List.map_congr_left
        intro j hj
        have hjn := isPath_subset hp j hj
        have hji : j ≠ i := by rintro rfl; exact hi.2 hjn
        have hjc : j ∉ nodes ch := fun h => hdis j h j hjn rfl
        simp [balancedPrice, hji, hjc]
      rw [e, ih2 hs (by omega) hp]

/-- Prices meeting the contract exist for every tree. -/
theorem initialPrices_exist' {t : RecipeTree} {n : ℕ} (ht : TreeOn t n) {b : ℚ} (hb : 0 ≤ b) :
    ∃ p, InitialPrices (t.pathsToLeaf.map (indicator n)) (-b) p ∧
      ∀ r ∈ t.pathsToLeaf.map (indicator n), recipeSum r p = -b * height t.forest := by
  suffices h : ∃ p : List ℚ, (∀ r ∈ t.pathsToLeaf.map (indicator n), r.length = p.length) ∧ (∀ x ∈ p, x ≤ -b) ∧
      ∀ r ∈ t.pathsToLeaf.map (indicator n), recipeSum r p = -b * height t.forest by
    obtain ⟨p, h1, h2, h3⟩ := h
    exact ⟨p, ⟨h1, h2, _, h3⟩, h3⟩
  refine ⟨(List.range n).map (balancedPrice b t.forest (height t.forest)), ?_, ?_, ?_⟩
  · intro r hr
    obtain ⟨p, -, rfl⟩ := List.mem_map.1 hr
    simp [indicator]
  · intro x hx
    obtain ⟨j, -, rfl⟩ := List.mem_map.1 hx
    exact balancedPrice_le hb _ _ le_rfl (by rw [RecipeTree.forest, height]; omega) j
  · intro r hr
    obtain ⟨p, hp, rfl⟩ := List.mem_map.1 hr
    have hp := mem_paths.1 hp
    rw [recipeSum_indicator (by simp) (ht.path_nodup hp) (ht.path_lt hp), pathSum]
    rw [← balancedPrice_sum (b := b) (f := t.forest) (h := height t.forest)
      (by simpa [RecipeTree.forest, nodes, treeNodes] using ht.nodup) le_rfl hp]
    congr 1
    apply List.map_congr_left
    intro j hj
    have := ht.path_lt hp j hj
    simp [this]

theorem initialPrices_exist {t : RecipeTree} {n : ℕ} (ht : TreeOn t n) {b : ℚ} (hb : 0 ≤ b) :
    ∃ p, InitialPrices (t.pathsToLeaf.map (indicator n)) (-b) p := by
  obtain ⟨p, h, -⟩ := initialPrices_exist' ht hb
  exact ⟨p, h⟩

/-- No prices meeting the contract have a larger sum. -/
theorem initialPrices_sum_le {t : RecipeTree} {n : ℕ} (ht : TreeOn t n) {b : ℚ} {p : List ℚ} {s : ℚ}
    (h1 : ∀ r ∈ t.pathsToLeaf.map (indicator n), r.length = p.length) (h2 : ∀ x ∈ p, x ≤ -b)
    (h3 : ∀ r ∈ t.pathsToLeaf.map (indicator n), recipeSum r p = s) : s ≤ -b * height t.forest := by
  obtain ⟨q, hq, hl⟩ := exists_longest (f := t.forest) (by simp [RecipeTree.forest])
  have hq : TreePath t q := hq
  have hm := List.mem_map_of_mem (f := indicator n) (mem_paths.2 hq)
  have hlen : p.length = n := by rw [← h1 _ hm]; simp [indicator]
  rw [← h3 _ hm, recipeSum_indicator hlen (ht.path_nodup hq) (ht.path_lt hq), pathSum, ← hl]
  have : ∀ l : List ℕ, (∀ i ∈ l, i < n) → (l.map (fun i => p.getD i 0)).sum ≤ -b * l.length := by
    intro l
    induction l with
    | nil => simp
    | cons i l ih =>
      intro h
      have e1 := ih (fun j hj => h j (by simp [hj]))
      have e2 := getD_le_of_forall h2 (i := i) (by rw [hlen]; exact h i (by simp))
      simp only [List.map_cons, List.sum_cons, List.length_cons]
      push_cast; linarith
  exact this q (ht.path_lt hq)

end Auctions
