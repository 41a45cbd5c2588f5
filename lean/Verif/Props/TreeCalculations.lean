import Verif.Model.TreeCalculations
import Verif.Spec.Written
import Verif.Proofs.TreePrices
import Verif.Proofs.TreeTermination
import Verif.Props.Tree
import Mathlib.Order.Bounds.Basic

set_option autoImplicit false

/-!
# C43, C44 — measurements of recipe structures, and structures made from recipes
-/

namespace Auctions.Props

open Auctions Spec TreeCalculations

/-- The entry of the children of a node in a written structure. -/
def childObj (ch : Forest) : PyObj := if ch = .nil then .none else .list (written ch)

theorem written_cons (i : ℕ) (ch s : Forest) : written (.cons i ch s) = .int i :: childObj ch :: written s := by
  cases ch <;> simp [written, childObj]

theorem written_length (f : Forest) : (written f).length = 2 * (trees f).length := by
  induction f with
  | nil => rfl
  | cons i ch s ih1 ih2 => rw [written_cons]; simp [trees, ih2]; omega

/-- A written structure denotes its forest. -/
theorem written_denotes (f : Forest) : Denotes (written f) f := by
  induction f with
  | nil => exact .nil
  | cons i ch s ih1 ih2 =>
    cases ch with
    | nil => exact .leaf ih2
    | cons j c s' => exact .node ih1 ih2

theorem depthLoop_written (f : Forest) : depthAndSizeLoop (written f) = .ok (height f - 1, (nodes f).foldr max 0) := by
  induction f with
  | nil => rfl
  | cons i ch s ih1 ih2 =>
    have hch : depthAndSize (childObj ch) = .ok (height ch, (nodes ch).foldr max 0) := by
      unfold childObj
      split
      · rename_i h; subst h; rfl
      · rename_i h
        rw [depthAndSize, ih1]
        have : 1 ≤ height ch := by
          cases ch with
          | nil => exact absurd rfl h
          | cons a b c => rw [height]; omega
        simp only [bind, Except.bind]
        congr 2
        omega
    rw [written_cons, depthAndSizeLoop, hch]
    simp only [bind, Except.bind, asIndex, ih2]
    congr 2
    · rw [height]; omega
    · have : ∀ (a b : List ℕ), (a ++ b).foldr max 0 = max (a.foldr max 0) (b.foldr max 0) := by
        intro a b
        induction a with
        | nil => simp
        | cons x a ih => simp only [List.cons_append, List.foldr_cons, ih, max_assoc]
      rw [nodes, List.foldr_cons, this, max_assoc]

theorem foldr_max_greatest {l : List ℕ} (h : l ≠ []) : IsGreatest {i | i ∈ l} (l.foldr max 0) := by
  induction l with
  | nil => exact absurd rfl h
  | cons a l ih =>
    rw [List.foldr_cons]
    by_cases hl : l = []
    · subst hl
      simp [IsGreatest, upperBounds]
    · obtain ⟨h1, h2⟩ := ih hl
      constructor
      · rcases max_choice a (l.foldr max 0) with e | e
        · rw [e]; simp
        · rw [e]; exact List.mem_cons_of_mem _ h1
      · intro x hx
        rcases List.mem_cons.1 hx with rfl | hx
        · exact le_max_left _ _
        · exact (h2 hx).trans (le_max_right _ _)

/-- **C43**. On the structure of a non-empty forest (for a tree: of a forest of one tree), `get_depth_and_agents_size` returns the number of categories on a
longest path, and the largest category index. -/
theorem depth_and_agents_size {f : Forest} (hf : f ≠ .nil) :
    ∃ d k, depthAndSize (.list (written f)) = .ok (d, k) ∧ IsGreatest {l | ∃ p, IsPath f p ∧ p.length = l} d ∧
      IsGreatest {i | i ∈ nodes f} k := by
  refine ⟨height f, (nodes f).foldr max 0, ?_, ?_, ?_⟩
  · rw [depthAndSize, depthLoop_written]
    have : 1 ≤ height f := by
      cases f with
      | nil => exact absurd rfl hf
      | cons a b c => rw [height]; omega
    simp only [bind, Except.bind]
    congr 2
    omega
  · refine ⟨exists_longest hf, ?_⟩
    rintro l ⟨p, hp, rfl⟩
    exact isPath_length_le hp
  · apply foldr_max_greatest
    cases f with
    | nil => exact absurd rfl hf
    | cons a b c => simp [nodes]

/-- **C43**, the condition that leaves are written with `None` is needed: `[0, []]` denotes the same tree as `[0, None]`, but has depth 2. -/
theorem depth_of_empty_list :
    Denotes [.int 0, .list []] (.cons 0 .nil .nil) ∧ depthAndSize (.list [.int 0, .list []]) = .ok (2, 0) ∧
      depthAndSize (.list (written (.cons 0 .nil .nil))) = .ok (1, 0) := by
  refine ⟨.node .nil .nil, ?_, ?_⟩ <;> decide +kernel

theorem setAt_ok {l : List ℕ} {i : ℕ} (x : ℕ) (h : i < l.length) : setAt l i x = .ok (l.set i x) := by simp [setAt, h]

theorem getD_set_ne {l : List ℕ} {i j x : ℕ} (h : j ≠ i) : (l.set i x).getD j 0 = l.getD j 0 := by
  rw [List.getD_eq_getElem?_getD, List.getD_eq_getElem?_getD, List.getElem?_set_ne (Ne.symm h)]

theorem getD_set_self {l : List ℕ} {i x : ℕ} (h : i < l.length) : (l.set i x).getD i 0 = x := by
  rw [List.getD_eq_getElem?_getD, List.getElem?_set_self h]; rfl

/-- What `calculate_children_counts` writes for a node with the children `ch`. -/
theorem childrenCounts_spec {f : Forest} (hn : (nodes f).Nodup) {c : List ℕ} (hl : ∀ i ∈ nodes f, i < c.length) :
    ∃ c', childrenCounts (written f) c = .ok c' ∧ c'.length = c.length ∧ (∀ j, j ∉ nodes f → c'.getD j 0 = c.getD j 0) ∧
      ∀ i ch, IsNode f i ch → c'.getD i 0 = if ch = .nil then 1 else (trees ch).length := by
  induction f generalizing c with
  | nil => exact ⟨c, rfl, rfl, fun _ _ => rfl, fun i ch h => by cases h⟩
  | cons i ch s ih1 ih2 =>
    rw [nodes, List.nodup_cons] at hn
    obtain ⟨hi, hn⟩ := hn
    have hn1 := (List.nodup_append.1 hn).1
    have hn2 := (List.nodup_append.1 hn).2.1
    have hdis := (List.nodup_append.1 hn).2.2
    have hil : i < c.length := hl i (by simp [nodes])
    have hnode : ∃ c1, childrenCountsNode (.int i) (childObj ch) c = .ok c1 ∧ c1.length = c.length ∧
        (∀ j, j ∉ i :: nodes ch → c1.getD j 0 = c.getD j 0) ∧ (c1.getD i 0 = if ch = .nil then 1 else (trees ch).length) ∧
        ∀ j cj, IsNode ch j cj → c1.getD j 0 = if cj = .nil then 1 else (trees cj).length := by
      unfold childObj
      split
      · rename_i h
        subst h
        refine ⟨c.set i 1, ?_, by simp, ?_, ?_, ?_⟩
        · rw [childrenCountsNode]; simp only [asIndex, bind, Except.bind, setAt_ok _ hil]
        · intro j hj
          exact getD_set_ne (by rintro rfl; simp at hj)
        · rw [getD_set_self hil]
        · intro j cj h; cases h
      · rename_i h
        obtain ⟨c', h1, h2, h3, h4⟩ := ih1 hn1 (c := c.set i ((written ch).length / 2)) (by
          intro j hj; rw [List.length_set]; exact hl j (by simp [nodes, hj]))
        refine ⟨c', ?_, by rw [h2, List.length_set], ?_, ?_, h4⟩
        · rw [childrenCountsNode]; simp only [asIndex, bind, Except.bind, setAt_ok _ hil, h1]
        · intro j hj
          rw [h3 j (by intro h; simp [h] at hj), getD_set_ne (by rintro rfl; simp at hj)]
        · have : i ∉ nodes ch := by intro h; apply hi; simp [h]
          rw [h3 i this, getD_set_self hil, written_length]; omega
    obtain ⟨c1, e1, e2, e3, e4, e5⟩ := hnode
    obtain ⟨c2, g1, g2, g3, g4⟩ := ih2 hn2 (c := c1) (by intro j hj; rw [e2]; exact hl j (by simp [nodes, hj]))
    have hnot : ∀ j ∈ i :: nodes ch, j ∉ nodes s := by
      intro j hj hs
      rcases List.mem_cons.1 hj with rfl | hj
      · apply hi; simp [hs]
      · exact hdis j hj j hs rfl
    refine ⟨c2, ?_, by rw [g2, e2], ?_, ?_⟩
    · rw [written_cons, childrenCounts, e1]; exact g1
    · intro j hj
      rw [nodes] at hj
      rw [g3 j (by intro h; apply hj; simp [h]), e3 j (by intro h; apply hj; simp at h ⊢; tauto)]
    · intro j cj h
      cases h with
      | here => rw [g3 _ (hnot _ (by simp)), e4]
      | down h => rw [g3 _ (hnot _ (by simp [isNode_mem h])), e5 _ _ h]
      | next h => exact g4 _ _ h

/-- **C43**. On the structure of a forest of different categories below `n`, `get_children_counts` returns a list with, for every category of the forest,
its number of children, or 1 if it has none, and 0 for all other categories. -/
theorem children_counts {f : Forest} {n : ℕ} (hn : (nodes f).Nodup) (hl : ∀ i ∈ nodes f, i < n) :
    ∃ c, getChildrenCounts (written f) n = .ok c ∧ c.length = n ∧ (∀ j, j ∉ nodes f → c.getD j 0 = 0) ∧
      ∀ i ch, IsNode f i ch → c.getD i 0 = if ch = .nil then 1 else (trees ch).length := by
  obtain ⟨c, h1, h2, h3, h4⟩ := childrenCounts_spec hn (c := List.replicate n 0) (by simpa using hl)
  refine ⟨c, h1, by simpa using h2, ?_, h4⟩
  intro j hj
  rw [h3 j hj, List.getD_eq_getElem?_getD]
  by_cases h : j < n
  · simp [h]
  · rw [List.getElem?_eq_none (by simpa using h)]; rfl

theorem leaves_subset {f : Forest} : ∀ j ∈ leaves f, j ∈ nodes f := by
  induction f with
  | nil => simp [leaves]
  | cons i ch s ih1 ih2 =>
    intro j hj
    rw [leaves_cons] at hj
    rw [nodes]
    rcases List.mem_append.1 hj with h | h
    · split at h
      · simp only [List.mem_singleton] at h; simp [h]
      · simp [ih1 j h]
    · simp [ih2 j h]

/-- What `analyze_recipe_tree` writes: the count of a leaf makes up for the length of its path. -/
theorem analyze_spec {f : Forest} (hn : (nodes f).Nodup) {c : List ℕ} (hl : ∀ i ∈ nodes f, i < c.length) {d : ℕ} (hd : height f ≤ d) :
    ∃ c', analyze (written f) c d = .ok c' ∧ c'.length = c.length ∧ (∀ j, j ∉ leaves f → c'.getD j 0 = c.getD j 0) ∧
      ∀ p, IsPath f p → ∀ x ∈ p.getLast?, c'.getD x 0 + (p.length - 1) = d := by
  induction f generalizing c d with
  | nil => exact ⟨c, rfl, rfl, fun _ _ => rfl, fun p h => absurd h isPath_nil⟩
  | cons i ch s ih1 ih2 =>
    rw [nodes, List.nodup_cons] at hn
    obtain ⟨hi, hn⟩ := hn
    have hn1 := (List.nodup_append.1 hn).1
    have hn2 := (List.nodup_append.1 hn).2.1
    have hdis := (List.nodup_append.1 hn).2.2
    have hil : i < c.length := hl i (by simp [nodes])
    rw [height] at hd
    have hnode : ∃ c1, analyzeNode (.int i) (childObj ch) c d = .ok c1 ∧ c1.length = c.length ∧
        (∀ j, j ∉ (if ch = .nil then [i] else leaves ch) → c1.getD j 0 = c.getD j 0) ∧
        ∀ p, IsPath (.cons i ch .nil) p → ∀ x ∈ p.getLast?, c1.getD x 0 + (p.length - 1) = d := by
      unfold childObj
      split
      · rename_i h
        subst h
        refine ⟨c.set i d, ?_, by simp, ?_, ?_⟩
        · rw [analyzeNode]; simp only [asIndex, bind, Except.bind, setAt_ok _ hil]
        · intro j hj
          exact getD_set_ne (by rintro rfl; simp at hj)
        · intro p hp x hx
          rw [isPath_cons] at hp
          rcases hp with ⟨-, rfl⟩ | ⟨q, -, h⟩ | h
          · simp only [List.getLast?_singleton, Option.mem_def, Option.some.injEq] at hx
            subst hx
            rw [getD_set_self hil]; simp
          · exact absurd h isPath_nil
          · exact absurd h isPath_nil
      · rename_i h
        obtain ⟨c', h1, h2, h3, h4⟩ := ih1 hn1 (c := c) (d := d - 1) (by
          intro j hj; exact hl j (by simp [nodes, hj])) (by omega)
        refine ⟨c', ?_, h2, h3, ?_⟩
        · rw [analyzeNode]; exact h1
        · intro p hp x hx
          rw [isPath_cons] at hp
          rcases hp with ⟨h', -⟩ | ⟨q, rfl, hq⟩ | h'
          · exact absurd h' h
          · have hqn := isPath_ne_nil hq
            have hql := List.length_pos_iff.2 hqn
            have := h4 q hq x (by cases q with
              | nil => exact absurd rfl hqn
              | cons a b => rw [List.getLast?_cons_cons] at hx; exact hx)
            simp only [List.length_cons]
            omega
          · exact absurd h' isPath_nil
    obtain ⟨c1, e1, e2, e3, e4⟩ := hnode
    obtain ⟨c2, g1, g2, g3, g4⟩ := ih2 hn2 (c := c1) (d := d) (by intro j hj; rw [e2]; exact hl j (by simp [nodes, hj])) (by omega)
    have hnot : ∀ j ∈ i :: nodes ch, j ∉ leaves s := by
      intro j hj hs
      have hs := leaves_subset j hs
      rcases List.mem_cons.1 hj with rfl | hj
      · apply hi; simp [hs]
      · exact hdis j hj j hs rfl
    refine ⟨c2, ?_, by rw [g2, e2], ?_, ?_⟩
    · rw [written_cons, analyze, e1]; exact g1
    · intro j hj
      rw [leaves_cons] at hj
      rw [g3 j (by intro h; apply hj; simp [h]), e3 j (by intro h; apply hj; exact List.mem_append_left _ h)]
    · intro p hp x hx
      by_cases hs : IsPath s p
      · exact g4 p hs x hx
      · have hp' : IsPath (.cons i ch .nil) p := by
          rw [isPath_cons] at hp ⊢
          rcases hp with h | h | h
          · exact .inl h
          · exact .inr (.inl h)
          · exact absurd h hs
        rw [g3 x (hnot x ?_)]
        · exact e4 p hp' x hx
        · have := isPath_subset hp' x (List.mem_of_getLast? hx)
          simpa [nodes] using this

theorem getLast_not_mem_dropLast {l : List ℕ} (h : l.Nodup) {x : ℕ} (hx : x ∈ l.getLast?) : x ∉ l.dropLast := by
  obtain ⟨l', rfl⟩ : ∃ l', l = l' ++ [x] := List.getLast?_eq_some_iff.1 hx
  rw [List.nodup_append] at h
  intro hm
  simp only [List.dropLast_concat] at hm
  exact h.2.2 x hm x (by simp) rfl

/-- A category of a path other than the last one is not a leaf, if the categories are different. -/
theorem inner_not_leaf {f : Forest} (hn : (nodes f).Nodup) {p : List ℕ} (hp : IsPath f p) : ∀ x ∈ p.dropLast, x ∉ leaves f := by
  induction f generalizing p with
  | nil => exact absurd hp isPath_nil
  | cons i ch s ih1 ih2 =>
    rw [nodes, List.nodup_cons] at hn
    obtain ⟨hi, hn⟩ := hn
    have hn1 := (List.nodup_append.1 hn).1
    have hn2 := (List.nodup_append.1 hn).2.1
    have hdis := (List.nodup_append.1 hn).2.2
    intro x hx hlf
    rw [leaves_cons] at hlf
    rw [isPath_cons] at hp
    rcases hp with ⟨-, rfl⟩ | ⟨q, rfl, h⟩ | h
    · simp at hx
    · have hch : ch ≠ .nil := by rintro rfl; exact isPath_nil h
      rw [if_neg hch] at hlf
      rw [List.dropLast_cons_of_ne_nil (isPath_ne_nil h)] at hx
      rcases List.mem_cons.1 hx with rfl | hx
      · apply hi
        rcases List.mem_append.1 hlf with h | h
        · simp [leaves_subset _ h]
        · simp [leaves_subset _ h]
      · have hxc := isPath_subset h x (List.mem_of_mem_dropLast hx)
        rcases List.mem_append.1 hlf with h' | h'
        · exact ih1 hn1 h x hx h'
        · exact hdis x hxc x (leaves_subset _ h') rfl
    · have hxs := isPath_subset h x (List.mem_of_mem_dropLast hx)
      rcases List.mem_append.1 hlf with h' | h'
      · split at h'
        · simp only [List.mem_singleton] at h'
          subst h'; apply hi; simp [hxs]
        · exact hdis x (leaves_subset _ h') x hxs rfl
      · exact ih2 hn2 h x hx h'

theorem sum_map_one {l : List ℕ} {g : ℕ → ℕ} (h : ∀ x ∈ l, g x = 1) : (l.map g).sum = l.length := by
  induction l with
  | nil => rfl
  | cons a l ih => simp [h a (by simp), ih (fun x hx => h x (by simp [hx]))]; omega

/-- **C43**. For a tree of different categories with root 0 and at least one more category, the counts that `get_agents_analyze` returns have the same
sum on every path from the root to a leaf, namely twice the depth minus 2, and they are 1 except at the root and the leaves. -/
theorem agents_analyze {ch : Forest} (hn : (nodes (.cons 0 ch .nil)).Nodup) (hch : ch ≠ .nil) {d : ℕ}
    (hd : IsGreatest {l | ∃ p, IsPath (.cons 0 ch .nil) p ∧ p.length = l} d) :
    ∃ c, getAgentsAnalyze (written (.cons 0 ch .nil)) = .ok c ∧
      (∀ p, IsPath (.cons 0 ch .nil) p → (p.map (fun i => c.getD i 0)).sum = 2 * d - 2) ∧
      ∀ i ∈ nodes ch, i ∉ leaves ch → c.getD i 0 = 1 := by
  obtain ⟨d', k, h1, h2, h3⟩ := depth_and_agents_size (f := .cons 0 ch .nil) (by simp)
  have hdd : d' = d := h2.unique hd
  subst hdd
  have hlt : ∀ i ∈ nodes (.cons 0 ch .nil), i < (List.replicate (k + 1) 1).length := by
    intro i hi
    have := h3.2 hi
    simp; omega
  have hh : height (.cons 0 ch .nil) ≤ d' := by
    obtain ⟨p, hp, hl⟩ := exists_longest (f := .cons 0 ch .nil) (by simp)
    rw [← hl]; exact h2.2 ⟨p, hp, rfl⟩
  obtain ⟨c, g1, g2, g3, g4⟩ := analyze_spec hn hlt hh
  have h0 : 0 < c.length := by rw [g2]; simp
  have hone : ∀ i ∈ nodes (.cons 0 ch .nil), i ∉ leaves (.cons 0 ch .nil) → c.getD i 0 = 1 := by
    intro i hi hi'
    have := hlt i hi
    rw [List.length_replicate] at this
    rw [g3 i hi', List.getD_eq_getElem?_getD]; simp [this]
  have h0n : 0 ∉ nodes ch := by
    rw [nodes, List.nodup_cons] at hn
    intro h; apply hn.1; simp [h]
  refine ⟨c.set 0 (d' - 1), ?_, ?_, ?_⟩
  · unfold getAgentsAnalyze
    rw [h1]
    simp only [bind, Except.bind, g1, setAt_ok _ h0]
  · intro p hp
    have hp0 := hp
    rw [isPath_cons] at hp
    rcases hp with ⟨h, -⟩ | ⟨q, rfl, hq⟩ | h
    · exact absurd h hch
    · have hqn := isPath_ne_nil hq
      have hql := List.length_pos_iff.2 hqn
      have h0q : ∀ x ∈ q, x ≠ 0 := by
        rintro x hx rfl
        exact h0n (isPath_subset hq 0 hx)
      obtain ⟨q', x, rfl⟩ : ∃ q' x, q = q' ++ [x] := ⟨q.dropLast, q.getLast hqn, (List.dropLast_append_getLast hqn).symm⟩
      have hx := g4 _ hp0 x (by rw [← List.cons_append]; simp only [List.getLast?_concat, Option.mem_def])
      have hin : ∀ y ∈ q', (c.set 0 (d' - 1)).getD y 0 = 1 := by
        intro y hy
        rw [getD_set_ne (h0q y (by simp [hy]))]
        apply hone
        · exact isPath_subset hp0 y (by simp [hy])
        · apply inner_not_leaf hn hp0
          rw [← List.cons_append, List.dropLast_concat]; simp [hy]
      rw [List.map_cons, List.map_append, List.sum_cons, List.sum_append, sum_map_one hin]
      simp only [List.map_cons, List.map_nil, List.sum_cons, List.sum_nil]
      rw [getD_set_self h0, getD_set_ne (h0q x (by simp))]
      have hd2 : (0 :: (q' ++ [x])).length ≤ d' := h2.2 ⟨_, hp0, rfl⟩
      simp only [List.length_cons, List.length_append, List.length_nil] at hx hd2
      omega
    · exact absurd h isPath_nil
  · intro i hi hi'
    rw [getD_set_ne (by rintro rfl; exact h0n hi)]
    apply hone i (by simp [nodes, hi])
    rw [leaves_cons, if_neg hch]
    simpa [leaves] using hi'

/-- Non-vacuity of C43: the tree `[0, [1, [2, None, 3, None], 4, None]]`. -/
example :
    let f : Forest := .cons 0 (.cons 1 (.cons 2 .nil (.cons 3 .nil .nil)) (.cons 4 .nil .nil)) .nil
    (nodes f).Nodup ∧ depthAndSize (.list (written f)) = .ok (3, 4) ∧ getChildrenCounts (written f) 6 = .ok [2, 2, 1, 1, 1, 0] ∧
      getAgentsAnalyze (written f) = .ok [2, 1, 1, 1, 2] := by
  refine ⟨by decide, by decide +kernel, by decide +kernel, by decide +kernel⟩

/-! ## C44 -/

/-- A tree with a single path, as a forest. -/
def chain (l : List ℕ) : Forest := l.foldr (fun i f => .cons i f .nil) .nil

theorem chain_ne_nil {l : List ℕ} (h : l ≠ []) : chain l ≠ .nil := by
  cases l with
  | nil => exact absurd rfl h
  | cons a l => simp [chain]

theorem childObj_chain_cons (i : ℕ) (l : List ℕ) : childObj (chain (i :: l)) = .list [.int i, childObj (chain l)] := by
  rw [childObj, if_neg (chain_ne_nil (by simp)), show chain (i :: l) = .cons i (chain l) .nil from rfl, written_cons]
  rfl

theorem structLoop_chain (L : List (ℕ × ℕ)) (l : List ℕ) :
    structLoop L (childObj (chain l)) = childObj (chain (((L.filter (fun a => a.2 > 0)).map Prod.fst).reverse ++ l)) := by
  induction L generalizing l with
  | nil => rfl
  | cons a L ih =>
    obtain ⟨i, c⟩ := a
    rw [structLoop]
    by_cases hc : c > 0
    · rw [if_pos hc, ← childObj_chain_cons, ih]
      simp [hc]
    · rw [if_neg hc, ih]
      simp [hc]

/-- The categories that the recipe uses, in the order 1, 2, …, n - 1, 0. -/
def usedCategories (recipe : List ℕ) : List ℕ := ((List.range' 1 (recipe.length - 1)) ++ [0]).filter (fun i => 0 < recipe.getD i 0)

theorem struct_eq (r : List ℕ) : psRecipeToRecipeStruct r = childObj (chain (usedCategories r)) := by
  unfold psRecipeToRecipeStruct
  have h0 : (.none : PyObj) = childObj (chain []) := by simp [childObj, chain]
  simp only
  rw [h0, structLoop_chain, List.append_nil, ← List.map_reverse, ← List.filter_reverse]
  congr 2
  cases r with
  | nil => simp [usedCategories]
  | cons c cs =>
    have e : ((c :: cs).zipIdx.map (fun a => (a.2, a.1))) = (0, c) :: ((List.range' 1 cs.length).map (fun i => (i, (c :: cs).getD i 0))) := by
      rw [List.zipIdx_cons, List.map_cons]
      congr 1
      apply List.ext_getElem
      · simp
      · intro i h1 h2
        simp at h1
        simp only [List.getElem_map, List.getElem_zipIdx, List.getElem_range']
        rw [List.getD_eq_getElem?_getD, show 0 + 1 + i = i + 1 by omega, show 1 + 1 * i = i + 1 by omega, List.getElem?_cons_succ,
          List.getElem?_eq_getElem h1]
        rfl
    rw [e, List.reverse_cons, List.getLast?_concat, List.dropLast_concat]
    simp only [Option.toList, List.reverse_append, List.reverse_reverse, List.reverse_cons, List.reverse_nil, List.nil_append]
    rw [usedCategories, List.filter_append, List.filter_append, List.map_append, List.length_cons, Nat.add_sub_cancel]
    congr 1
    · rw [List.filter_map, List.map_map]
      conv_rhs => rw [← List.map_id (List.filter _ _)]
      rfl
    · simp only [List.filter_cons, List.filter_nil, List.getD_cons_zero]
      by_cases hc : c > 0
      · simp [hc]
      · simp [hc]

theorem isPath_chain {l p : List ℕ} (hl : l ≠ []) : IsPath (chain l) p ↔ p = l := by
  induction l generalizing p with
  | nil => exact absurd rfl hl
  | cons i l ih =>
    rw [show chain (i :: l) = .cons i (chain l) .nil from rfl, isPath_cons]
    by_cases h : l = []
    · subst h
      constructor
      · rintro (⟨-, h⟩ | ⟨q, -, h⟩ | h)
        · exact h
        · exact absurd h isPath_nil
        · exact absurd h isPath_nil
      · rintro rfl; exact .inl ⟨rfl, rfl⟩
    · constructor
      · rintro (⟨h', -⟩ | ⟨q, rfl, h'⟩ | h')
        · exact absurd h' (chain_ne_nil h)
        · rw [(ih h).1 h']
        · exact absurd h' isPath_nil
      · rintro rfl
        exact .inr (.inl ⟨l, rfl, (ih h).2 rfl⟩)

theorem nodes_chain (l : List ℕ) : nodes (chain l) = l := by
  induction l with
  | nil => rfl
  | cons i l ih => rw [show chain (i :: l) = .cons i (chain l) .nil from rfl, nodes, ih]; simp [nodes]

theorem pathsToLeaf_chain {l : List ℕ} (hl : l ≠ []) (pre : List ℕ) : (chain l).pathsToLeaf id pre = [pre ++ l] := by
  induction l generalizing pre with
  | nil => exact absurd rfl hl
  | cons i l ih =>
    rw [show chain (i :: l) = .cons i (chain l) .nil from rfl, pathsToLeaf_cons]
    by_cases h : l = []
    · subst h; rfl
    · rw [if_neg (chain_ne_nil h), ih h]
      simp [Forest.pathsToLeaf]

theorem mem_usedCategories {r : List ℕ} {i : ℕ} : i ∈ usedCategories r ↔ 0 < r.getD i 0 := by
  unfold usedCategories
  rw [List.mem_filter]
  simp only [decide_eq_true_eq, and_iff_right_iff_imp]
  intro h
  have hi : i < r.length := by
    by_contra hc
    rw [List.getD_eq_getElem?_getD, List.getElem?_eq_none (by omega)] at h
    simp at h
  simp only [List.mem_append, List.mem_range'_1, List.mem_singleton]
  omega

/-- **C44**. For a recipe that uses some category, `ps_recipe_to_recipe_struct` returns a structure from which a tree with exactly one path is constructed,
through the categories that the recipe uses in the order 1, 2, …, n - 1, 0. Its only recipe has 1 for these categories and 0 for the others. -/
theorem recipe_struct {r : List ℕ} (hr : ∃ c ∈ r, 0 < c) :
    ∃ x y t, psRecipeToRecipeStruct r = .list [x, y] ∧ RecipeTree.init r.length [x, y] = .ok t ∧
      (∀ p, TreePath t p ↔ p = ((List.range' 1 (r.length - 1)) ++ [0]).filter (fun i => 0 < r.getD i 0)) ∧
      t.recipes r.length = .ok [r.map (fun c => if 0 < c then 1 else 0)] := by
  have hne : usedCategories r ≠ [] := by
    obtain ⟨c, hc, h0⟩ := hr
    obtain ⟨i, hi, rfl⟩ := List.getElem_of_mem hc
    apply List.ne_nil_of_mem (a := i)
    rw [mem_usedCategories, List.getD_eq_getElem?_getD, List.getElem?_eq_getElem hi]; exact h0
  have hlt : ∀ i ∈ usedCategories r, i < r.length := by
    intro i h
    rw [mem_usedCategories] at h
    by_contra hc
    rw [List.getD_eq_getElem?_getD, List.getElem?_eq_none (by omega)] at h
    simp at h
  obtain ⟨i, l, hl⟩ := List.exists_cons_of_ne_nil hne
  have hinit : RecipeTree.init r.length [.int i, childObj (chain l)] = .ok ⟨i, chain l⟩ := by
    rw [tree_construction (rest := []) rfl]
    constructor
    · have := written_denotes (chain (i :: l))
      rw [show chain (i :: l) = .cons i (chain l) .nil from rfl, written_cons] at this
      exact this
    · intro j hj
      rw [treeNodes, nodes_chain] at hj
      apply hlt; rw [hl]; exact hj
  refine ⟨.int i, childObj (chain l), ⟨i, chain l⟩, ?_, hinit, ?_, ?_⟩
  · rw [struct_eq, hl, childObj_chain_cons]
  · intro p
    have := isPath_chain (p := p) hne
    rw [hl] at this
    have e : ((List.range' 1 (r.length - 1)) ++ [0]).filter (fun i => decide (0 < r.getD i 0)) = i :: l := hl
    rw [e]
    exact this
  · rw [(tree_recipes hinit).1, RecipeTree.pathsToLeaf, RecipeTree.forest]
    have := pathsToLeaf_chain (l := i :: l) (by simp) []
    rw [show chain (i :: l) = .cons i (chain l) .nil from rfl] at this
    rw [this, List.map_cons, List.map_nil, List.nil_append, ← hl]
    congr 2
    rw [indicator]
    apply List.ext_getElem
    · simp
    · intro j h1 h2
      simp at h1
      simp only [List.getElem_map, List.getElem_range, mem_usedCategories]
      rw [List.getD_eq_getElem?_getD, List.getElem?_eq_getElem h1]
      rfl

/-- **C44**. For a recipe of zeros and ones that uses some category, the only recipe of that tree is the given recipe. -/
theorem recipe_struct_binary {r : List ℕ} (hr : ∃ c ∈ r, 0 < c) (h01 : ∀ c ∈ r, c = 0 ∨ c = 1) :
    ∃ x y t, psRecipeToRecipeStruct r = .list [x, y] ∧ RecipeTree.init r.length [x, y] = .ok t ∧ t.recipes r.length = .ok [r] := by
  obtain ⟨x, y, t, h1, h2, -, h4⟩ := recipe_struct hr
  refine ⟨x, y, t, h1, h2, ?_⟩
  rw [h4]
  congr 2
  conv_rhs => rw [← List.map_id r]
  apply List.map_congr_left
  intro c hc
  rcases h01 c hc with rfl | rfl <;> simp

/-- **C44**. A recipe that uses no category gives `None`, of which no tree can be constructed. -/
theorem recipe_struct_zero {r : List ℕ} (hr : ∀ c ∈ r, c = 0) : psRecipeToRecipeStruct r = .none := by
  rw [struct_eq]
  have : usedCategories r = [] := by
    rw [List.eq_nil_iff_forall_not_mem]
    intro i hi
    rw [mem_usedCategories, List.getD_eq_getElem?_getD] at hi
    cases h : r[i]? with
    | none => rw [h] at hi; simp at hi
    | some c =>
      rw [h] at hi
      have := hr c (List.mem_of_getElem? h)
      simp [this] at hi
  rw [this]; rfl

/-- Non-vacuity of C44: the doctest `[1, 0, 1, 1]` gives `[2, [3, [0, None]]]`. -/
example : psRecipeToRecipeStruct [1, 0, 1, 1] = .list [.int 2, .list [.int 3, .list [.int 0, .none]]] := rfl

end Auctions.Props
