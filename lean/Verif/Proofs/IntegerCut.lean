import Verif.Proofs.IntegerTree

set_option autoImplicit false

/-! # Helper lemmas: chosen categories and numbers of deals in recipe trees with agent counts -/

namespace Auctions.IntegerTree

open Auctions Spec

/-! ## The numbers of deals -/

theorem explained_cons (cnt size : ℕ → ℕ) (i : ℕ) (ch s : Forest) :
    numOfDealsExplained cnt size (.cons i ch s)
      = (if ch = .nil then (size i / cnt i, size i / cnt i, size i / cnt i) else
          (min ((numOfDealsExplained cnt size ch).map (·.1)).sum (size i / cnt i),
            (((numOfDealsExplained cnt size ch).map (·.2.1)).filter (· > 0)).min?.getD 0,
            ((numOfDealsExplained cnt size ch).map (·.2.2)).max?.getD 0)) :: numOfDealsExplained cnt size s := by
  cases ch with
  | nil => simp [numOfDealsExplained]
  | cons j c r => rw [numOfDealsExplained]; simp

/-- The number of deals and `kmax` are those of the tree without counts, with the numbers of groups as sizes. -/
theorem explained_div (cnt size : ℕ → ℕ) (f : Forest) :
    (numOfDealsExplained cnt size f).map (fun e => (e.1, e.2.2))
      = (f.numOfDealsExplained (fun i => size i / cnt i)).map (fun e => (e.1, e.2.2)) := by
  induction f with
  | nil => rfl
  | cons i ch s ih1 ih2 =>
    rw [explained_cons, numOfDealsExplained_cons, List.map_cons, List.map_cons, ih2]
    congr 1
    by_cases hc : ch = .nil
    · simp [hc]
    · have h1 : (numOfDealsExplained cnt size ch).map (·.1) = (ch.numOfDealsExplained (fun i => size i / cnt i)).map (·.1) := by
        have := congrArg (List.map Prod.fst) ih1
        simpa [Function.comp_def] using this
      have h2 : (numOfDealsExplained cnt size ch).map (·.2.2) = (ch.numOfDealsExplained (fun i => size i / cnt i)).map (·.2.2) := by
        have := congrArg (List.map Prod.snd) ih1
        simpa [Function.comp_def] using this
      simp only [hc, if_false, h1, h2]

/-- The smallest positive `kmin` of the trees of a forest is the smallest positive number of groups of a leaf. -/
theorem explained_kmin (cnt size : ℕ → ℕ) (f : Forest) :
    (((numOfDealsExplained cnt size f).map (·.2.1)).filter (· > 0)).min?
      = (((leaves f).map (fun i => size i / cnt i)).filter (· > 0)).min? := by
  induction f with
  | nil => simp [numOfDealsExplained, leaves]
  | cons i ch s ih1 ih2 =>
    rw [explained_cons, leaves_cons, List.map_append, List.filter_append, List.map_cons]
    by_cases hc : ch = .nil
    · simp only [hc, if_true, List.map_cons, List.map_nil]
      by_cases hp : size i / cnt i > 0
      · rw [List.filter_cons_of_pos (by simpa using hp), List.filter_cons_of_pos (by simpa using hp)]
        rw [List.min?_cons, ih2, ← List.min?_cons]; rfl
      · rw [List.filter_cons_of_neg (by simpa using hp), List.filter_cons_of_neg (by simpa using hp)]
        exact ih2
    · simp only [hc, if_false]
      rw [ih1]
      by_cases hL : ((leaves ch).map (fun i => size i / cnt i)).filter (· > 0) = []
      · rw [hL, List.filter_cons_of_neg (by simp), List.nil_append]
        exact ih2
      · have hpos : (((leaves ch).map (fun i => size i / cnt i)).filter (· > 0)).min?.getD 0 > 0 := by
          obtain ⟨k, hk⟩ : ∃ k, (((leaves ch).map (fun i => size i / cnt i)).filter (· > 0)).min? = some k := by
            cases h : (((leaves ch).map (fun i => size i / cnt i)).filter (· > 0)).min? with
            | none => rw [List.min?_eq_none_iff] at h; exact absurd h hL
            | some k => exact ⟨k, rfl⟩
          rw [hk]
          have := (List.min?_eq_some_iff.1 hk).1
          simpa using (List.mem_filter.1 this).2
        rw [List.filter_cons_of_pos (by simpa using hpos), List.min?_cons, ih2, ← List.min?_cons]
        exact min?_flat hL

/-! ## The chosen categories -/

/-- The list that `largest_categories` returns for the first tree of a forest. -/
def nodeLargest (cnt size : ℕ → ℕ) (i : ℕ) (ch : Forest) : List ℕ :=
  if (size i : ℚ) / cnt i > rootSizes cnt size ch ∨ rootSizes cnt size ch = 0 then [i] else (largestCategories cnt size ch).2.2

theorem largest_cons (cnt size : ℕ → ℕ) (i : ℕ) (ch s : Forest) :
    (largestCategories cnt size (.cons i ch s)).2.2 = nodeLargest cnt size i ch ++ (largestCategories cnt size s).2.2 := by
  rw [largestCategories, nodeLargest]
  split <;> rfl

theorem largest_root (cnt size : ℕ → ℕ) (t : RecipeTree) :
    (largestCategories cnt size t.forest).2.1 = (size t.index : ℚ) / cnt t.index := by
  rw [RecipeTree.forest, largestCategories]
  simp only [largestCategories, add_zero]
  split <;> rfl

theorem largest_subset (cnt size : ℕ → ℕ) (f : Forest) : ∀ j ∈ (largestCategories cnt size f).2.2, j ∈ nodes f := by
  induction f with
  | nil => simp [largestCategories]
  | cons i ch s ih1 ih2 =>
    intro j hj
    rw [largest_cons, List.mem_append] at hj
    rw [nodes, List.mem_cons, List.mem_append]
    rcases hj with hj | hj
    · rw [nodeLargest] at hj
      split at hj
      · left; simpa using hj
      · right; left; exact ih1 j hj
    · right; right; exact ih2 j hj

theorem nodeLargest_subset (cnt size : ℕ → ℕ) (i : ℕ) (ch : Forest) :
    ∀ j ∈ nodeLargest cnt size i ch, j = i ∨ j ∈ nodes ch := by
  intro j hj
  rw [nodeLargest] at hj
  split at hj
  · left; simpa using hj
  · right; exact largest_subset cnt size ch j hj

/-- The chosen categories are distinct, and every path contains exactly one. -/
theorem largest_cut (cnt size : ℕ → ℕ) {f : Forest} (hn : (nodes f).Nodup) :
    (largestCategories cnt size f).2.2.Nodup ∧
      ∀ p, IsPath f p → ((largestCategories cnt size f).2.2.filter (· ∈ p)).length = 1 := by
  induction f with
  | nil => exact ⟨by simp [largestCategories], fun p h => absurd h isPath_nil⟩
  | cons i ch s ih1 ih2 =>
    rw [nodes, List.nodup_cons, List.mem_append, List.nodup_append] at hn
    obtain ⟨hi, hch, hs, hdis⟩ := hn
    push Not at hi
    obtain ⟨h1, h2⟩ := ih1 hch
    obtain ⟨h3, h4⟩ := ih2 hs
    have hsub := nodeLargest_subset cnt size i ch
    have hsub2 := largest_subset cnt size s
    have hdisj : ∀ j ∈ nodeLargest cnt size i ch, j ∉ nodes s := by
      intro j hj hjs
      rcases hsub j hj with rfl | h
      · exact hi.2 hjs
      · exact hdis j h j hjs rfl
    rw [largest_cons]
    refine ⟨?_, ?_⟩
    · rw [List.nodup_append]
      refine ⟨?_, h3, ?_⟩
      · rw [nodeLargest]; split
        · simp
        · exact h1
      · rintro a ha b hb rfl
        exact hdisj a ha (hsub2 a hb)
    · intro p hp
      rw [List.filter_append, List.length_append]
      rw [isPath_cons] at hp
      have hfirst : (∀ j ∈ p, j = i ∨ j ∈ nodes ch) → ((largestCategories cnt size s).2.2.filter (· ∈ p)).length = 0 := by
        intro hj
        rw [List.length_eq_zero_iff, List.filter_eq_nil_iff]
        intro j hjl
        have hjs := hsub2 j hjl
        intro hjp
        rcases hj j (by simpa using hjp) with rfl | h
        · exact hi.2 hjs
        · exact hdis j h j hjs rfl
      rcases hp with ⟨rfl, rfl⟩ | ⟨q, rfl, hq⟩ | hp
      · rw [hfirst (by simp)]
        simp [nodeLargest, rootSizes]
      · have hqn := isPath_subset hq
        rw [hfirst (by
          intro j hj
          rcases List.mem_cons.1 hj with rfl | hj
          · exact Or.inl rfl
          · exact Or.inr (hqn j hj))]
        rw [nodeLargest]
        split
        · simp
        · have : (largestCategories cnt size ch).2.2.filter (· ∈ i :: q) = (largestCategories cnt size ch).2.2.filter (· ∈ q) := by
            apply List.filter_congr
            intro j hj
            have := largest_subset cnt size ch j hj
            have hji : j ≠ i := by rintro rfl; exact hi.1 this
            simp [hji]
          rw [this, h2 q hq]
      · have : (nodeLargest cnt size i ch).filter (· ∈ p) = [] := by
          rw [List.filter_eq_nil_iff]
          intro j hj hjp
          exact hdisj j hj (isPath_subset hp j (by simpa using hjp))
        rw [this, h4 p hp]; rfl

/-- With all counts 1, everything is as without counts. -/
theorem rootSizes_one {cnt size : ℕ → ℕ} {f : Forest} (hc : ∀ i ∈ nodes f, cnt i = 1) :
    rootSizes cnt size f = f.rootSizes size := by
  induction f with
  | nil => rfl
  | cons i ch s ih1 ih2 =>
    rw [rootSizes, Forest.rootSizes, ih2 (fun j hj => hc j (by simp [nodes, hj])), hc i (by simp [nodes])]
    simp

theorem largest_one {cnt size : ℕ → ℕ} {f : Forest} (hc : ∀ i ∈ nodes f, cnt i = 1) :
    largestCategories cnt size f
      = (((f.largestCategories size).1 : ℚ), ((f.largestCategories size).2.1 : ℚ), (f.largestCategories size).2.2) := by
  induction f with
  | nil => simp [largestCategories, Forest.largestCategories]
  | cons i ch s ih1 ih2 =>
    have e1 := ih1 (fun j hj => hc j (by simp [nodes, hj]))
    have e2 := ih2 (fun j hj => hc j (by simp [nodes, hj]))
    have hr := rootSizes_one (size := size) (f := ch) (fun j hj => hc j (by simp [nodes, hj]))
    rw [largestCategories, Forest.largestCategories, e1, e2, hr, hc i (by simp [nodes])]
    have hiff : ((size i : ℚ) / (1 : ℕ) > (ch.rootSizes size : ℕ)) ↔ size i > ch.rootSizes size := by
      simp
    by_cases h : size i > ch.rootSizes size ∨ ch.rootSizes size = 0
    · simp only [hiff, h, if_true]
      simp
    · simp only [hiff, h, if_false]
      simp

end Auctions.IntegerTree
