import Verif.Proofs.TreeShape
import Verif.Spec.Cut
import Verif.Model.OldRecipeTree

set_option autoImplicit false

/-! # Helper lemmas: cuts of a forest, and the two versions of `largest_categories` -/

namespace Auctions

open Spec

/-- A list made by taking from each tree of the forest its root, or a choice of its children. -/
inductive IsChoice : Forest → List ℕ → Prop
  | nil : IsChoice .nil []
  | here {i : ℕ} {ch s : Forest} {l : List ℕ} : IsChoice s l → IsChoice (.cons i ch s) ([i] ++ l)
  | down {i : ℕ} {ch s : Forest} {l l' : List ℕ} : ch ≠ .nil → IsChoice ch l → IsChoice s l' → IsChoice (.cons i ch s) (l ++ l')

theorem IsChoice.subset {f : Forest} {l : List ℕ} (h : IsChoice f l) : ∀ j ∈ l, j ∈ nodes f := by
  induction h with
  | nil => simp
  | here _ ih =>
    intro j hj
    rw [nodes, List.mem_cons, List.mem_append]
    rcases List.mem_append.1 hj with h | h
    · exact Or.inl (by simpa using h)
    · exact Or.inr (Or.inr (ih j h))
  | down _ _ _ ih1 ih2 =>
    intro j hj
    rw [nodes, List.mem_cons, List.mem_append]
    rcases List.mem_append.1 hj with h | h
    · exact Or.inr (Or.inl (ih1 j h))
    · exact Or.inr (Or.inr (ih2 j h))

theorem IsChoice.ne_nil {f : Forest} {l : List ℕ} (h : IsChoice f l) (hf : f ≠ .nil) : l ≠ [] := by
  induction h with
  | nil => exact absurd rfl hf
  | here => simp
  | down hne _ _ ih _ => simp [ih hne]

theorem filter_mem_of_disjoint {l p : List ℕ} (h : ∀ j ∈ l, j ∉ p) : (l.filter (· ∈ p)).length = 0 := by
  rw [List.length_eq_zero_iff, List.filter_eq_nil_iff]
  intro j hj hp
  exact h j hj (by simpa using hp)

theorem IsChoice.cut {f : Forest} {l : List ℕ} (h : IsChoice f l) (hn : (nodes f).Nodup) :
    l.Nodup ∧ ∀ p, IsPath f p → (l.filter (· ∈ p)).length = 1 := by
  induction h with
  | nil => exact ⟨by simp, fun p h => absurd h isPath_nil⟩
  | @here i ch s l hl ih =>
    rw [nodes, List.nodup_cons, List.mem_append, List.nodup_append] at hn
    obtain ⟨hi, hch, hs, hdis⟩ := hn
    push Not at hi
    obtain ⟨h1, h2⟩ := ih hs
    have hsub := hl.subset
    refine ⟨?_, fun p hp => ?_⟩
    · rw [List.singleton_append, List.nodup_cons]
      exact ⟨fun h => hi.2 (hsub i h), h1⟩
    · rw [List.filter_append, List.length_append]
      rcases isPath_cons.1 hp with ⟨rfl, rfl⟩ | ⟨q, rfl, hq⟩ | hp'
      · rw [filter_mem_of_disjoint (l := l)]
        · simp
        · intro j hj hjp
          have : j = i := by simpa using hjp
          exact hi.2 (hsub i (this ▸ hj))
      · rw [filter_mem_of_disjoint (l := l)]
        · simp
        · intro j hj hjp
          rcases List.mem_cons.1 hjp with rfl | h
          · exact hi.2 (hsub j hj)
          · exact hdis j (isPath_subset hq j h) j (hsub j hj) rfl
      · rw [filter_mem_of_disjoint (l := [i]), h2 p hp']
        intro j hj hjp
        have : j = i := by simpa using hj
        subst this
        exact hi.2 (isPath_subset hp' j hjp)
  | @down i ch s l l' hne hl hl' ih1 ih2 =>
    rw [nodes, List.nodup_cons, List.mem_append, List.nodup_append] at hn
    obtain ⟨hi, hch, hs, hdis⟩ := hn
    push Not at hi
    obtain ⟨h1, h2⟩ := ih1 hch
    obtain ⟨h3, h4⟩ := ih2 hs
    have hsub := hl.subset
    have hsub' := hl'.subset
    refine ⟨?_, fun p hp => ?_⟩
    · rw [List.nodup_append]
      exact ⟨h1, h3, fun a ha b hb hab => hdis a (hsub a ha) b (hsub' b hb) hab⟩
    · rw [List.filter_append, List.length_append]
      rcases isPath_cons.1 hp with ⟨rfl, rfl⟩ | ⟨q, rfl, hq⟩ | hp'
      · exact absurd rfl hne
      · rw [filter_mem_of_disjoint (l := l')]
        · have : l.filter (· ∈ i :: q) = l.filter (· ∈ q) := by
            apply List.filter_congr
            intro j hj
            have hji : j ≠ i := by rintro rfl; exact hi.1 (hsub j hj)
            simp [hji]
          rw [this, h2 q hq]
        · intro j hj hjp
          rcases List.mem_cons.1 hjp with rfl | h
          · exact hi.2 (hsub' j hj)
          · exact hdis j (isPath_subset hq j h) j (hsub' j hj) rfl
      · rw [filter_mem_of_disjoint (l := l), h4 p hp']
        intro j hj hjp
        exact hdis j (hsub j hj) j (isPath_subset hp' j hjp) rfl

/-- The triple that the old `largest_categories` returns for the first tree of a forest. -/
def oldNode (size : ℕ → ℕ) (i : ℕ) (ch : Forest) : ℕ × ℕ × List ℕ :=
  if ch = .nil then (size i, size i, [i])
  else if (ch.oldLargestCategories size).2.1 ≥ size i then ((ch.oldLargestCategories size).1, size i, (ch.oldLargestCategories size).2.2)
  else (size i, (ch.oldLargestCategories size).2.1, [i])

theorem old_cons (size : ℕ → ℕ) (i : ℕ) (ch s : Forest) :
    (Forest.cons i ch s).oldLargestCategories size =
      (max (oldNode size i ch).1 (s.oldLargestCategories size).1, (oldNode size i ch).2.1 + (s.oldLargestCategories size).2.1,
        (oldNode size i ch).2.2 ++ (s.oldLargestCategories size).2.2) := by
  cases ch <;> rw [Forest.oldLargestCategories] <;> simp [oldNode]

theorem old_isChoice (size : ℕ → ℕ) (f : Forest) : IsChoice f (f.oldLargestCategories size).2.2 := by
  induction f with
  | nil => exact .nil
  | cons i ch s ih1 ih2 =>
    rw [old_cons]
    dsimp only
    unfold oldNode
    split_ifs with h1 h2
    · exact .here ih2
    · exact .down h1 ih1 ih2
    · exact .here ih2

theorem new_isChoice (size : ℕ → ℕ) (f : Forest) : IsChoice f (f.largestCategories size).2.2 := by
  induction f with
  | nil => exact .nil
  | cons i ch s ih1 ih2 =>
    rw [largest_cons]
    unfold nodeLargest
    split_ifs with h1
    · exact .here ih2
    · exact .down (rootSizes_ne_nil (not_or.1 h1).2) ih1 ih2

/-- The combined size is the number of deals. -/
theorem old_combined (size : ℕ → ℕ) (f : Forest) : (f.oldLargestCategories size).2.1 = f.numOfDeals size := by
  induction f with
  | nil => rfl
  | cons i ch s ih1 ih2 =>
    rw [old_cons, numOfDeals_cons]
    dsimp only
    rw [ih2]
    congr 1
    unfold oldNode nodeNum
    rw [ih1]
    split_ifs with h1 h2
    · rfl
    · exact (min_eq_right h2).symm
    · exact (min_eq_left (not_le.1 h2).le).symm

/-- The first number is the size of a largest chosen category (0 for no category). -/
def MaxSize (size : ℕ → ℕ) (m : ℕ) (l : List ℕ) : Prop := (∀ i ∈ l, size i ≤ m) ∧ (m = 0 ∨ ∃ i ∈ l, size i = m)

theorem MaxSize.single (size : ℕ → ℕ) (i : ℕ) : MaxSize size (size i) [i] := ⟨by simp, by simp⟩

theorem MaxSize.append {size : ℕ → ℕ} {m m' : ℕ} {l l' : List ℕ} (h : MaxSize size m l) (h' : MaxSize size m' l') :
    MaxSize size (max m m') (l ++ l') := by
  refine ⟨fun i hi => ?_, ?_⟩
  · rcases List.mem_append.1 hi with hi | hi
    · exact le_trans (h.1 i hi) (le_max_left _ _)
    · exact le_trans (h'.1 i hi) (le_max_right _ _)
  · rcases le_total m m' with hm | hm
    · rw [max_eq_right hm]
      rcases h'.2 with h0 | ⟨i, hi, he⟩
      · exact Or.inl h0
      · exact Or.inr ⟨i, by simp [hi], he⟩
    · rw [max_eq_left hm]
      rcases h.2 with h0 | ⟨i, hi, he⟩
      · exact Or.inl h0
      · exact Or.inr ⟨i, by simp [hi], he⟩

theorem MaxSize.isGreatest {size : ℕ → ℕ} {m : ℕ} {l : List ℕ} (h : MaxSize size m l) (hl : l ≠ []) : IsGreatest {k | ∃ i ∈ l, size i = k} m := by
  refine ⟨?_, ?_⟩
  · rcases h.2 with h0 | h0
    · obtain ⟨i, hi⟩ := List.exists_mem_of_ne_nil _ hl
      have := h.1 i hi
      exact ⟨i, hi, by omega⟩
    · exact h0
  · rintro k ⟨i, hi, rfl⟩
    exact h.1 i hi

theorem old_maxSize (size : ℕ → ℕ) (f : Forest) : MaxSize size (f.oldLargestCategories size).1 (f.oldLargestCategories size).2.2 := by
  induction f with
  | nil => exact ⟨by simp [Forest.oldLargestCategories], Or.inl rfl⟩
  | cons i ch s ih1 ih2 =>
    rw [old_cons]
    refine MaxSize.append ?_ ih2
    unfold oldNode
    split_ifs with h1 h2
    · exact .single size i
    · exact ih1
    · exact .single size i

theorem new_maxSize (size : ℕ → ℕ) (f : Forest) : MaxSize size (f.largestCategories size).1 (f.largestCategories size).2.2 := by
  induction f with
  | nil => exact ⟨by simp [Forest.largestCategories], Or.inl rfl⟩
  | cons i ch s ih1 ih2 =>
    rw [Forest.largestCategories]
    refine MaxSize.append ?_ ih2
    split_ifs with h1
    · exact .single size i
    · exact ih1

theorem rootSizes_eq (size : ℕ → ℕ) (f : Forest) : f.rootSizes size = ((roots f).map size).sum := by
  induction f with
  | nil => rfl
  | cons i ch s _ ih => rw [Forest.rootSizes, roots, List.map_cons, List.sum_cons, ih]

theorem numOfDeals_le_rootSizes (size : ℕ → ℕ) (f : Forest) : f.numOfDeals size ≤ f.rootSizes size := by
  induction f with
  | nil => exact le_refl _
  | cons i ch s _ ih =>
    rw [numOfDeals_cons, Forest.rootSizes]
    have : nodeNum size i ch ≤ size i := by
      unfold nodeNum; split_ifs; exacts [le_refl _, min_le_right _ _]
    omega

/-- In a forest with exact sizes, every agent can be in a deal. -/
theorem exact_rootSizes {size : ℕ → ℕ} {f : Forest} (h : ExactSizes size f) : f.numOfDeals size = f.rootSizes size := by
  induction f with
  | nil => rfl
  | cons i ch s ih1 ih2 =>
    obtain ⟨h1, h2, h3⟩ := h
    rw [numOfDeals_cons, Forest.rootSizes, ih2 h3]
    congr 1
    unfold nodeNum
    split_ifs with hc
    · rfl
    · rw [ih1 h2, rootSizes_eq, ← h1 hc, min_self]

/-- With exact sizes, every choice has the same number of agents. -/
theorem exact_choice {size : ℕ → ℕ} {f : Forest} (h : ExactSizes size f) {l : List ℕ} (hl : IsChoice f l) :
    (l.map size).sum = f.rootSizes size := by
  induction hl with
  | nil => rfl
  | @here i ch s l hl ih =>
    rw [List.map_append, List.sum_append, ih h.2.2, Forest.rootSizes]; simp
  | @down i ch s l l' hne hl hl' ih1 ih2 =>
    rw [List.map_append, List.sum_append, ih1 h.2.1, ih2 h.2.2, Forest.rootSizes, rootSizes_eq size ch, ← h.1 hne]

theorem old_total (size : ℕ → ℕ) (f : Forest) :
    f.numOfDeals size ≤ ((f.oldLargestCategories size).2.2.map size).sum ∧
      (((f.oldLargestCategories size).2.2.map size).sum = f.numOfDeals size → ExactSizes size f) := by
  induction f with
  | nil => exact ⟨le_refl _, fun _ => trivial⟩
  | cons i ch s ih1 ih2 =>
    rw [old_cons, numOfDeals_cons]
    dsimp only
    rw [List.map_append, List.sum_append]
    unfold oldNode nodeNum
    have hc := old_combined size ch
    split_ifs with h1 h2
    · dsimp only
      simp only [List.map_cons, List.map_nil, List.sum_cons, List.sum_nil]
      refine ⟨by omega, fun h => ⟨fun h0 => absurd h1 h0, by rw [h1]; trivial, ih2.2 (by omega)⟩⟩
    · dsimp only
      rw [hc] at h2
      rw [min_eq_right h2]
      refine ⟨by have := ih1.1; have := ih2.1; omega, fun h => ?_⟩
      have h3 := ih1.1
      have h4 := ih2.1
      have he := ih1.2 (by omega)
      refine ⟨fun _ => ?_, he, ih2.2 (by omega)⟩
      rw [← rootSizes_eq, ← exact_rootSizes he]
      omega
    · dsimp only
      rw [hc] at h2
      have h3 := ih1.1
      have h4 := ih2.1
      simp only [List.map_cons, List.map_nil, List.sum_cons, List.sum_nil]
      rw [min_eq_left (by omega)]
      refine ⟨by omega, fun h => by omega⟩

theorem new_total (size : ℕ → ℕ) (f : Forest) :
    f.rootSizes size ≤ ((f.largestCategories size).2.2.map size).sum ∧
      ((∀ i ∈ nodes f, 0 < size i) → ((f.largestCategories size).2.2.map size).sum = f.numOfDeals size → ExactSizes size f) := by
  induction f with
  | nil => exact ⟨le_refl _, fun _ _ => trivial⟩
  | cons i ch s ih1 ih2 =>
    rw [largest_cons, numOfDeals_cons, Forest.rootSizes, List.map_append, List.sum_append]
    have hs := numOfDeals_le_rootSizes size s
    have hc := numOfDeals_le_rootSizes size ch
    have h3 := ih1.1
    have h4 := ih2.1
    unfold nodeLargest nodeNum
    split_ifs with h1 h2 h2
    · simp only [List.map_cons, List.map_nil, List.sum_cons, List.sum_nil]
      refine ⟨by omega, fun hp h => ⟨fun h0 => absurd h2 h0, by rw [h2]; trivial, ih2.2 (fun j hj => hp j (by simp [nodes, hj])) (by omega)⟩⟩
    · simp only [List.map_cons, List.map_nil, List.sum_cons, List.sum_nil]
      refine ⟨by omega, fun hp h => ?_⟩
      have h5 := min_le_left (ch.numOfDeals size) (size i)
      have h6 := min_le_right (ch.numOfDeals size) (size i)
      have h7 : ch.rootSizes size = 0 := by omega
      have h8 := hp i (by simp [nodes])
      omega
    · exact absurd (by rw [h2]; rfl) (not_or.1 h1).2
    · have h5 := min_le_left (ch.numOfDeals size) (size i)
      have h6 := min_le_right (ch.numOfDeals size) (size i)
      refine ⟨by omega, fun hp h => ?_⟩
      have h7 : ch.rootSizes size = size i := by omega
      exact ⟨fun _ => by rw [← rootSizes_eq, h7], ih1.2 (fun j hj => hp j (by simp [nodes, hj])) (by omega),
        ih2.2 (fun j hj => hp j (by simp [nodes, hj])) (by omega)⟩

end Auctions
