import Verif.Proofs.Tree
import Mathlib.Data.List.Lex

set_option autoImplicit false

/-! # Helper lemmas: construction, paths, sizes of recipe trees -/

namespace Auctions

open Spec

/-! ## Construction -/

theorem categoryIndex_ok {n : ℕ} {x : PyObj} {i : ℕ} : categoryIndex n x = .ok i ↔ x = .int i ∧ i < n := by
  cases x with
  | none => simp [categoryIndex]
  | list l => simp [categoryIndex]
  | int k =>
    simp only [categoryIndex, PyObj.int.injEq]
    split
    · simp only [Except.ok.injEq]
      constructor
      · rintro rfl; exact ⟨rfl, by assumption⟩
      · exact fun h => h.1
    · simp only [reduceCtorEq, false_iff]; rintro ⟨rfl, h⟩; contradiction

theorem bind_ok_iff {α β : Type} {x : Py α} {f : α → Py β} {b : β} :
    (x >>= f) = .ok b ↔ ∃ a, x = .ok a ∧ f a = .ok b := by
  cases x with
  | error e => simp [bind, Except.bind]
  | ok a => simp [bind, Except.bind]

theorem parseNode_ok {n : ℕ} {x y : PyObj} {t : RecipeTree} :
    parseNode n x y = .ok t ↔ (x = .int t.index ∧ t.index < n) ∧
      ((y = .none ∧ t.children = .nil) ∨ ∃ items, y = .list items ∧ parseChildren n items = .ok t.children) := by
  obtain ⟨i, ch⟩ := t
  rw [parseNode, bind_ok_iff]
  constructor
  · rintro ⟨j, hj, h⟩
    rw [categoryIndex_ok] at hj
    cases y with
    | none =>
      simp only [Except.ok.injEq, RecipeTree.mk.injEq] at h
      obtain ⟨rfl, rfl⟩ := h
      exact ⟨hj, Or.inl ⟨rfl, rfl⟩⟩
    | int k => simp at h
    | list items =>
      simp only [bind_ok_iff] at h
      obtain ⟨c, hc, h⟩ := h
      simp only [Except.ok.injEq, RecipeTree.mk.injEq] at h
      obtain ⟨rfl, rfl⟩ := h
      exact ⟨hj, Or.inr ⟨items, rfl, hc⟩⟩
  · rintro ⟨h1, h2⟩
    refine ⟨i, categoryIndex_ok.2 h1, ?_⟩
    rcases h2 with ⟨rfl, h2⟩ | ⟨items, rfl, h2⟩
    · simp only at h2; simp [h2]
    · simp only at h2
      simp [h2, bind, Except.bind]

theorem parseChildren_ok {n : ℕ} (items : List PyObj) (f : Forest) :
    parseChildren n items = .ok f ↔ Denotes items f ∧ ∀ i ∈ nodes f, i < n := by
  match items with
  | [] =>
    rw [parseChildren]
    simp only [Except.ok.injEq]
    constructor
    · rintro rfl; exact ⟨.nil, by simp [nodes]⟩
    · rintro ⟨h, -⟩; cases h; rfl
  | [x] =>
    rw [parseChildren]
    simp only [reduceCtorEq, false_iff]
    rintro ⟨h, -⟩; cases h
  | x :: y :: rest =>
    rw [parseChildren, bind_ok_iff]
    simp only [bind_ok_iff, Except.ok.injEq]
    constructor
    · rintro ⟨t, ht, s, hs, rfl⟩
      rw [parseNode_ok] at ht
      obtain ⟨⟨rfl, hi⟩, ht⟩ := ht
      obtain ⟨hs1, hs2⟩ := (parseChildren_ok rest s).1 hs
      rcases ht with ⟨rfl, hc⟩ | ⟨l, rfl, hc⟩
      · rw [hc]
        refine ⟨.leaf hs1, ?_⟩
        intro i h
        simp only [nodes, List.nil_append, List.mem_cons] at h
        rcases h with rfl | h
        exacts [hi, hs2 i h]
      · obtain ⟨hc1, hc2⟩ := (parseChildren_ok l t.children).1 hc
        refine ⟨.node hc1 hs1, ?_⟩
        intro i h
        simp only [nodes, List.mem_append, List.mem_cons] at h
        rcases h with rfl | h | h
        exacts [hi, hc2 i h, hs2 i h]
    · rintro ⟨h, hn⟩
      cases h with
      | @leaf i _ s h =>
        refine ⟨⟨i, .nil⟩, parseNode_ok.2 ⟨⟨rfl, hn i (by simp [nodes])⟩, Or.inl ⟨rfl, rfl⟩⟩, s, ?_, rfl⟩
        exact (parseChildren_ok rest s).2 ⟨h, fun j hj => hn j (by simp [nodes, hj])⟩
      | @node i l _ ch s h1 h2 =>
        refine ⟨⟨i, ch⟩, parseNode_ok.2 ⟨⟨rfl, hn i (by simp [nodes])⟩, Or.inr ⟨l, rfl, ?_⟩⟩, s, ?_, rfl⟩
        · exact (parseChildren_ok l ch).2 ⟨h1, fun j hj => hn j (by simp [nodes, hj])⟩
        · exact (parseChildren_ok rest s).2 ⟨h2, fun j hj => hn j (by simp [nodes, hj])⟩
termination_by sizeOf items

/-- A structure that denotes a forest can only fail to parse with an `IndexError`. -/
theorem parseChildren_error {n : ℕ} (items : List PyObj) (f : Forest) (h : Denotes items f) (hn : ¬ ∀ i ∈ nodes f, i < n) :
    parseChildren n items = .error .indexError := by
  match items, h with
  | [], .nil => exact absurd (by simp [nodes]) hn
  | .int i :: .none :: rest, .leaf (s := s) h =>
    rw [parseChildren, parseNode, categoryIndex]
    by_cases hi : i < n
    · simp only [hi, if_true, bind, Except.bind]
      rw [parseChildren_error rest s h]
      intro hs
      apply hn
      intro j hj
      simp only [nodes, List.nil_append, List.mem_cons] at hj
      rcases hj with rfl | hj
      exacts [hi, hs j hj]
    · simp [hi, bind, Except.bind]
  | .int i :: .list l :: rest, .node (ch := ch) (s := s) h1 h2 =>
    rw [parseChildren, parseNode, categoryIndex]
    by_cases hi : i < n
    · simp only [hi, if_true, bind, Except.bind]
      by_cases hc : ∀ j ∈ nodes ch, j < n
      · rw [(parseChildren_ok l ch).2 ⟨h1, hc⟩]
        simp only
        rw [parseChildren_error rest s h2]
        intro hs
        apply hn
        intro j hj
        simp only [nodes, List.mem_append, List.mem_cons] at hj
        rcases hj with rfl | hj | hj
        exacts [hi, hc j hj, hs j hj]
      · rw [parseChildren_error l ch h1 hc]
    · simp [hi, bind, Except.bind]
termination_by sizeOf items

theorem init_ok {n : ℕ} {x y : PyObj} {rest : List PyObj} (he : rest.length % 2 = 0) {t : RecipeTree} :
    RecipeTree.init n (x :: y :: rest) = .ok t ↔
      Denotes [x, y] t.forest ∧ ∀ i ∈ nodes t.forest, i < n := by
  have h0 : ¬ ((x :: y :: rest).length % 2 ≠ 0) := by simp; omega
  rw [RecipeTree.init, if_neg h0]
  rw [← parseChildren_ok]
  simp only [parseChildren, bind_ok_iff, Except.ok.injEq, RecipeTree.forest]
  constructor
  · intro h; exact ⟨t, h, .nil, rfl, rfl⟩
  · rintro ⟨t', h, s, rfl, h2⟩
    simp only [Forest.cons.injEq, and_true] at h2
    obtain ⟨h3, h4⟩ := h2
    cases t; cases t'; simp only at h3 h4; subst h3 h4; exact h

/-! ## Paths and recipes -/

theorem pathsToLeaf_cons {α : Type} (label : ℕ → α) (pre : List α) (i : ℕ) (ch s : Forest) :
    Forest.pathsToLeaf label pre (.cons i ch s)
      = (if ch = .nil then [pre ++ [label i]] else Forest.pathsToLeaf label (pre ++ [label i]) ch)
        ++ Forest.pathsToLeaf label pre s := by
  cases ch with
  | nil => simp [Forest.pathsToLeaf]
  | cons j c t => simp only [reduceCtorEq, if_false]; rw [Forest.pathsToLeaf]

theorem pathsToLeaf_prefix {α : Type} (label : ℕ → α) (pre : List α) (f : Forest) :
    f.pathsToLeaf label pre = (f.pathsToLeaf id []).map (fun p => pre ++ p.map label) := by
  induction f generalizing pre with
  | nil => simp [Forest.pathsToLeaf]
  | cons i ch s ih1 ih2 =>
    have aux : (ch.pathsToLeaf id ([] ++ [id i])) = (ch.pathsToLeaf id []).map (fun p => i :: p) := by
      have : ∀ (f : Forest) (pre : List ℕ), f.pathsToLeaf id pre = (f.pathsToLeaf id []).map (fun p => pre ++ p) := by
        intro f
        induction f with
        | nil => intro pre; simp [Forest.pathsToLeaf]
        | cons j c s h1 h2 =>
          intro pre
          rw [pathsToLeaf_cons, pathsToLeaf_cons, List.map_append, ← h2]
          congr 1
          split
          · simp
          · rw [h1 (pre ++ [id j]), h1 ([] ++ [id j]), List.map_map]
            simp [Function.comp_def]
      rw [this]; simp
    rw [pathsToLeaf_cons, pathsToLeaf_cons, List.map_append, ← ih2]
    congr 1
    split
    · simp
    · rw [aux, ih1, List.map_map]
      simp [Function.comp_def]

/-- The addresses of the leaves, from left to right. -/
def leafAddresses : Forest → List (List ℕ)
  | .nil => []
  | .cons _ ch s =>
    (if ch = .nil then [[0]] else (leafAddresses ch).map (0 :: ·)) ++
      (leafAddresses s).map (fun a => match a with | [] => [] | k :: a => (k + 1) :: a)

theorem leafAddresses_ne_nil {f : Forest} : ∀ a ∈ leafAddresses f, a ≠ [] := by
  induction f with
  | nil => simp [leafAddresses]
  | cons i ch s ih1 ih2 =>
    intro a ha
    rw [leafAddresses, List.mem_append] at ha
    rcases ha with ha | ha
    · split at ha
      · simp at ha; simp [ha]
      · obtain ⟨b, -, rfl⟩ := List.mem_map.1 ha; simp
    · obtain ⟨b, hb, rfl⟩ := List.mem_map.1 ha
      cases b with
      | nil => exact absurd rfl (ih2 _ hb)
      | cons k b => simp

theorem leafAddresses_sorted (f : Forest) : (leafAddresses f).Pairwise (· < ·) := by
  induction f with
  | nil => simp [leafAddresses]
  | cons i ch s ih1 ih2 =>
    rw [leafAddresses, List.pairwise_append]
    refine ⟨?_, ?_, ?_⟩
    · split
      · simp
      · rw [List.pairwise_map]
        exact ih1.imp (fun h => List.cons_lt_cons_iff.2 (Or.inr ⟨rfl, h⟩))
    · rw [List.pairwise_map]
      refine ih2.imp_of_mem ?_
      intro a b ha hb h
      cases a with
      | nil => exact absurd rfl (leafAddresses_ne_nil _ ha)
      | cons k a =>
        cases b with
        | nil => exact absurd rfl (leafAddresses_ne_nil _ hb)
        | cons l b =>
          rw [List.cons_lt_cons_iff] at h ⊢
          rcases h with h | ⟨h, h'⟩
          · left; omega
          · right; exact ⟨by rw [h], h'⟩
    · intro a ha b hb
      obtain ⟨c, hc, rfl⟩ := List.mem_map.1 hb
      have h0 : ∃ a', a = 0 :: a' := by
        split at ha
        · simp at ha; exact ⟨[], ha⟩
        · obtain ⟨a', -, rfl⟩ := List.mem_map.1 ha; exact ⟨a', rfl⟩
      obtain ⟨a', rfl⟩ := h0
      cases c with
      | nil => exact absurd rfl (leafAddresses_ne_nil _ hc)
      | cons k c => exact List.cons_lt_cons_iff.2 (Or.inl (by omega))

theorem leafAddresses_paths (f : Forest) : List.Forall₂ (AtAddress f) (leafAddresses f) (f.pathsToLeaf id []) := by
  induction f with
  | nil => simp [leafAddresses, Forest.pathsToLeaf]
  | cons i ch s ih1 ih2 =>
    rw [leafAddresses, pathsToLeaf_cons]
    refine List.rel_append ?_ ?_
    · split
      · rename_i h; subst h; simp only [List.nil_append, id, List.forall₂_cons, List.Forall₂.nil, and_true]
        exact .leaf i s
      · rw [pathsToLeaf_prefix, List.forall₂_map_left_iff, List.forall₂_map_right_iff]
        refine ih1.imp ?_
        intro a p h
        simpa using AtAddress.down h
    · rw [List.forall₂_map_left_iff]
      refine ih2.imp ?_
      intro a p h
      cases a with
      | nil => exact absurd rfl (atAddress_ne_nil h)
      | cons k a => exact .next h

theorem mem_leafAddresses {f : Forest} {a p : List ℕ} (h : AtAddress f a p) : a ∈ leafAddresses f := by
  induction h with
  | leaf i s => simp [leafAddresses]
  | @down i ch s a p h ih =>
    rw [leafAddresses, List.mem_append]
    left
    have : ch ≠ .nil := by rintro rfl; cases h
    rw [if_neg this]
    exact List.mem_map_of_mem ih
  | @next i ch s k a p h ih =>
    rw [leafAddresses, List.mem_append]
    right
    exact List.mem_map.2 ⟨_, ih, rfl⟩

theorem atAddress_unique {f : Forest} {a p q : List ℕ} (h : AtAddress f a p) (h' : AtAddress f a q) : p = q := by
  induction h generalizing q with
  | leaf i s =>
    cases h' with
    | leaf => rfl
    | down h => cases h
  | @down i ch s a p h ih =>
    cases h' with
    | leaf => cases h
    | down h' => rw [ih h']
  | @next i ch s k a p h ih =>
    cases h' with
    | next h' => exact ih h'

theorem mem_pathsToLeaf {f : Forest} {p : List ℕ} : p ∈ f.pathsToLeaf id [] ↔ IsPath f p := by
  have h := leafAddresses_paths f
  constructor
  · intro hp
    obtain ⟨k, hk, rfl⟩ := List.getElem_of_mem hp
    have hl := h.length_eq
    exact ⟨_, (List.forall₂_iff_get.1 h).2 k (by omega) hk⟩
  · rintro ⟨a, ha⟩
    obtain ⟨k, hk, rfl⟩ := List.getElem_of_mem (mem_leafAddresses ha)
    have hl := h.length_eq
    have := (List.forall₂_iff_get.1 h).2 k hk (by omega)
    simp only [List.get_eq_getElem] at this
    rw [atAddress_unique ha this]
    exact List.getElem_mem _

theorem recipeFromPathLoop_eq {res path : List ℕ} (h : ∀ i ∈ path, i < res.length) :
    RecipeTree.recipeFromPathLoop res path
      = .ok ((List.range res.length).map (fun i => if i ∈ path then 1 else res.getD i 0)) := by
  induction path generalizing res with
  | nil =>
    rw [RecipeTree.recipeFromPathLoop]
    congr 1
    apply List.ext_getElem
    · simp
    · intro k h1 h2; simp [h1]
  | cons i path ih =>
    rw [RecipeTree.recipeFromPathLoop, if_pos (h i (by simp)), ih (by simpa using fun j hj => h j (by simp [hj]))]
    congr 1
    apply List.ext_getElem
    · simp
    · intro k h1 h2
      simp only [List.length_map, List.length_range, List.length_set] at h1
      simp only [List.getElem_map, List.getElem_range, List.mem_cons]
      by_cases hk : k ∈ path
      · simp [hk]
      · by_cases hki : k = i
        · subst hki; simp [h k (by simp)]
        · simp [hk, hki, h1, List.getElem_set_ne (Ne.symm hki)]

theorem recipeFromPath_eq {n : ℕ} {path : List ℕ} (h : ∀ i ∈ path, i < n) :
    RecipeTree.recipeFromPath path n = .ok (indicator n path) := by
  rw [RecipeTree.recipeFromPath, recipeFromPathLoop_eq (by simpa using h), indicator]
  congr 1
  simp only [List.length_replicate]
  apply List.map_congr_left
  intro i hi
  have hi' : i < n := by simpa using hi
  simp [hi']

theorem mapM_ok {α β : Type} {f : α → Py β} {g : α → β} {l : List α} (h : ∀ a ∈ l, f a = .ok (g a)) :
    l.mapM f = .ok (l.map g) := by
  induction l with
  | nil => rfl
  | cons a l ih =>
    rw [List.mapM_cons, h a (by simp), ih (fun b hb => h b (by simp [hb]))]
    rfl

theorem recipes_eq {t : RecipeTree} {n : ℕ} (h : ∀ i ∈ nodes t.forest, i < n) :
    t.recipes n = .ok (t.pathsToLeaf.map (indicator n)) := by
  rw [RecipeTree.recipes]
  apply mapM_ok
  intro p hp
  apply recipeFromPath_eq
  intro i hi
  exact h i (isPath_subset (mem_pathsToLeaf.1 hp) i hi)

/-! ## Sizes -/

/-- The number of deals of the first tree of a forest. -/
def nodeNum (size : ℕ → ℕ) (i : ℕ) (ch : Forest) : ℕ := if ch = .nil then size i else min (ch.numOfDeals size) (size i)

theorem numOfDeals_cons (size : ℕ → ℕ) (i : ℕ) (ch s : Forest) :
    (Forest.cons i ch s).numOfDeals size = nodeNum size i ch + s.numOfDeals size := by
  cases ch <;> rw [Forest.numOfDeals] <;> simp [nodeNum]

theorem numOfDeals_eq (vals : ℕ → List ℚ) (f : Forest) :
    f.numOfDeals (fun i => (vals i).length) = (f.combinedValues vals).length := by
  induction f with
  | nil => rfl
  | cons i ch s ih1 ih2 =>
    rw [numOfDeals_cons, combinedValues_cons, List.length_append, ← ih2]
    congr 1
    by_cases h : ch = .nil
    · subst h; simp [nodeNum, nodeValues]
    · rw [nodeValues_of_ne _ _ h, nodeNum, if_neg h, ih1, List.length_zipWith, sortDesc_length, min_comm]

theorem numOfDealsExplained_cons (size : ℕ → ℕ) (i : ℕ) (ch s : Forest) :
    (Forest.cons i ch s).numOfDealsExplained size
      = (if ch = .nil then (size i, size i, size i) else
          (min ((ch.numOfDealsExplained size).map (·.1)).sum (size i),
            ((ch.numOfDealsExplained size).map (·.2.1)).min?.getD 0,
            ((ch.numOfDealsExplained size).map (·.2.2)).max?.getD 0)) :: s.numOfDealsExplained size := by
  cases ch with
  | nil => simp [Forest.numOfDealsExplained]
  | cons j c t => simp only [reduceCtorEq, if_false]; rw [Forest.numOfDealsExplained]

theorem explained_num (size : ℕ → ℕ) (f : Forest) :
    ((f.numOfDealsExplained size).map (·.1)).sum = f.numOfDeals size := by
  induction f with
  | nil => rfl
  | cons i ch s ih1 ih2 =>
    rw [numOfDealsExplained_cons, numOfDeals_cons, List.map_cons, List.sum_cons, ih2, nodeNum]
    congr 1
    split
    · rfl
    · simp [ih1]

theorem leaves_cons (i : ℕ) (ch s : Forest) :
    leaves (.cons i ch s) = (if ch = .nil then [i] else leaves ch) ++ leaves s := by
  cases ch <;> simp [leaves]

theorem explained_ne_nil {size : ℕ → ℕ} {f : Forest} (h : f ≠ .nil) : f.numOfDealsExplained size ≠ [] := by
  cases f with
  | nil => exact absurd rfl h
  | cons i ch s => rw [numOfDealsExplained_cons]; simp

theorem leaves_ne_nil {f : Forest} (h : f ≠ .nil) : leaves f ≠ [] := by
  induction f with
  | nil => exact absurd rfl h
  | cons i ch s ih1 ih2 =>
    rw [leaves_cons]
    by_cases hc : ch = .nil
    · simp [hc]
    · simp [hc, ih1 hc]

theorem min?_flat {l l' : List ℕ} (h : l ≠ []) : (l.min?.getD 0 :: l').min? = (l ++ l').min? := by
  cases l with
  | nil => exact absurd rfl h
  | cons x l =>
    have h1 : (x :: l).min? = some (l.foldl min x) := by simp [List.min?]
    rw [h1]
    simp [List.min?, List.foldl_append]

theorem max?_flat {l l' : List ℕ} (h : l ≠ []) : (l.max?.getD 0 :: l').max? = (l ++ l').max? := by
  cases l with
  | nil => exact absurd rfl h
  | cons x l =>
    have h1 : (x :: l).max? = some (l.foldl max x) := by simp [List.max?]
    rw [h1]
    simp [List.max?, List.foldl_append]

/-- `kmin` and `kmax` of the trees of a forest: the smallest and largest are those over the leaves. -/
theorem explained_k (size : ℕ → ℕ) (f : Forest) :
    ((f.numOfDealsExplained size).map (·.2.1)).min? = ((leaves f).map size).min? ∧
      ((f.numOfDealsExplained size).map (·.2.2)).max? = ((leaves f).map size).max? := by
  induction f with
  | nil => simp [Forest.numOfDealsExplained, leaves]
  | cons i ch s ih1 ih2 =>
    rw [numOfDealsExplained_cons, leaves_cons, List.map_append]
    by_cases hc : ch = .nil
    · simp only [hc, if_true, List.map_cons, List.map_nil, List.singleton_append]
      rw [List.min?_cons, List.min?_cons, List.max?_cons, List.max?_cons, ih2.1, ih2.2]
      exact ⟨rfl, rfl⟩
    · simp only [hc, if_false, List.map_cons]
      have hne : (leaves ch).map size ≠ [] := by simpa using leaves_ne_nil hc
      rw [List.min?_cons, List.max?_cons, ih2.1, ih2.2, ih1.1, ih1.2, ← List.min?_cons, ← List.max?_cons]
      exact ⟨min?_flat hne, max?_flat hne⟩

/-! ## Largest categories -/

/-- The list that `largest_categories` returns for the first tree of a forest. -/
def nodeLargest (size : ℕ → ℕ) (i : ℕ) (ch : Forest) : List ℕ :=
  if size i > ch.rootSizes size ∨ ch.rootSizes size = 0 then [i] else (ch.largestCategories size).2.2

theorem largest_cons (size : ℕ → ℕ) (i : ℕ) (ch s : Forest) :
    ((Forest.cons i ch s).largestCategories size).2.2 = nodeLargest size i ch ++ (s.largestCategories size).2.2 := by
  rw [Forest.largestCategories, nodeLargest]
  split <;> rfl

theorem largest_size (size : ℕ → ℕ) (f : Forest) : (f.largestCategories size).2.1 = f.rootSizes size := by
  induction f with
  | nil => rfl
  | cons i ch s ih1 ih2 =>
    rw [Forest.largestCategories, Forest.rootSizes]
    simp only
    rw [ih2]
    split <;> rfl

theorem largest_subset (size : ℕ → ℕ) (f : Forest) : ∀ j ∈ (f.largestCategories size).2.2, j ∈ nodes f := by
  induction f with
  | nil => simp [Forest.largestCategories]
  | cons i ch s ih1 ih2 =>
    intro j hj
    rw [largest_cons, List.mem_append] at hj
    rw [nodes, List.mem_cons, List.mem_append]
    rcases hj with hj | hj
    · rw [nodeLargest] at hj
      split at hj
      · left; simpa using hj
      · right; left; exact ih1 j hj
    · right; right; exact ih2 j hj

theorem nodeLargest_subset (size : ℕ → ℕ) (i : ℕ) (ch : Forest) : ∀ j ∈ nodeLargest size i ch, j = i ∨ j ∈ nodes ch := by
  intro j hj
  rw [nodeLargest] at hj
  split at hj
  · left; simpa using hj
  · right; exact largest_subset size ch j hj

theorem rootSizes_ne_nil {size : ℕ → ℕ} {f : Forest} (h : f.rootSizes size ≠ 0) : f ≠ .nil := by
  rintro rfl; exact h rfl

/-- The chosen categories are distinct, and every path contains exactly one. -/
theorem largest_cut (size : ℕ → ℕ) {f : Forest} (hn : (nodes f).Nodup) :
    (f.largestCategories size).2.2.Nodup ∧
      ∀ p, IsPath f p → ((f.largestCategories size).2.2.filter (· ∈ p)).length = 1 := by
  induction f with
  | nil => exact ⟨by simp [Forest.largestCategories], fun p h => absurd h isPath_nil⟩
  | cons i ch s ih1 ih2 =>
    rw [nodes, List.nodup_cons, List.mem_append, List.nodup_append] at hn
    obtain ⟨hi, hch, hs, hdis⟩ := hn
    push Not at hi
    obtain ⟨h1, h2⟩ := ih1 hch
    obtain ⟨h3, h4⟩ := ih2 hs
    have hsub := nodeLargest_subset size i ch
    have hsub2 := largest_subset size s
    have hdisj : ∀ j ∈ nodeLargest size i ch, j ∉ nodes s := by
      intro j hj hjs
      rcases hsub j hj with rfl | h
      · exact hi.2 hjs
      · exact hdis j h j hjs rfl
    rw [largest_cons]
    refine ⟨?_, ?_⟩
    · rw [List.nodup_append]
      refine ⟨?_, h3, ?_⟩
      · rw [nodeLargest]; split
        · simp
        · exact h1
      · rintro a ha b hb rfl
        exact hdisj a ha (hsub2 a hb)
    · intro p hp
      rw [List.filter_append, List.length_append]
      rw [isPath_cons] at hp
      have hfirst : (∀ j ∈ p, j = i ∨ j ∈ nodes ch) → ((s.largestCategories size).2.2.filter (· ∈ p)).length = 0 := by
        intro hj
        rw [List.length_eq_zero_iff, List.filter_eq_nil_iff]
        intro j hjl
        have hjs := hsub2 j hjl
        intro hjp
        rcases hj j (by simpa using hjp) with rfl | h
        · exact hi.2 hjs
        · exact hdis j h j hjs rfl
      rcases hp with ⟨rfl, rfl⟩ | ⟨q, rfl, hq⟩ | hp
      · rw [hfirst (by simp)]
        simp [nodeLargest, Forest.rootSizes]
      · have hqn := isPath_subset hq
        rw [hfirst (by
          intro j hj
          rcases List.mem_cons.1 hj with rfl | hj
          · exact Or.inl rfl
          · exact Or.inr (hqn j hj))]
        rw [nodeLargest]
        split
        · simp
        · have : (ch.largestCategories size).2.2.filter (· ∈ i :: q) = (ch.largestCategories size).2.2.filter (· ∈ q) := by
            apply List.filter_congr
            intro j hj
            have := largest_subset size ch j hj
            have hji : j ≠ i := by rintro rfl; exact hi.1 this
            simp [hji]
          rw [this, h2 q hq]
      · have : (nodeLargest size i ch).filter (· ∈ p) = [] := by
          rw [List.filter_eq_nil_iff]
          intro j hj hjp
          exact hdisj j hj (isPath_subset hp j (by simpa using hjp))
        rw [this, h4 p hp]; rfl

end Auctions
