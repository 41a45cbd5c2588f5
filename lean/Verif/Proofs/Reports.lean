import Verif.Spec.Lottery
import Verif.Proofs.Tree
import Verif.Proofs.TreeShape

set_option autoImplicit false

/-! # The explanation of a trade in a recipe tree -/

namespace Auctions

open Spec

/-- The lines of the explanations of the trees of a forest, one after the other. -/
def expLines (size : ℕ → ℕ) (price : ℕ → ℚ) : Forest → List Line
  | .nil => []
  | .cons i ch s =>
    (match ch with
      | .nil => [Line.potential i (size i) (price i)]
      | .cons .. => expLines size price ch
          ++ [if min (ch.numOfDeals size) (size i) = size i then Line.allTraders i (size i) (price i)
              else Line.someTraders i (min (ch.numOfDeals size) (size i)) (size i) (price i)]
          ++ [if min (ch.numOfDeals size) (size i) = ch.numOfDeals size then Line.allOf ch.roots (ch.numOfDeals size)
              else Line.someOf ch.roots (min (ch.numOfDeals size) (size i)) (ch.numOfDeals size)]) ++ expLines size price s

theorem expLines_leaf (size : ℕ → ℕ) (price : ℕ → ℚ) (i : ℕ) (s : Forest) :
    expLines size price (.cons i .nil s) = [Line.potential i (size i) (price i)] ++ expLines size price s := by
  rw [expLines]

theorem expLines_node (size : ℕ → ℕ) (price : ℕ → ℚ) (i : ℕ) {ch : Forest} (s : Forest) (h : ch ≠ .nil) :
    expLines size price (.cons i ch s) = expLines size price ch
          ++ [if min (ch.numOfDeals size) (size i) = size i then Line.allTraders i (size i) (price i)
              else Line.someTraders i (min (ch.numOfDeals size) (size i)) (size i) (price i)]
          ++ [if min (ch.numOfDeals size) (size i) = ch.numOfDeals size then Line.allOf ch.roots (ch.numOfDeals size)
              else Line.someOf ch.roots (min (ch.numOfDeals size) (size i)) (ch.numOfDeals size)] ++ expLines size price s := by
  cases ch with
  | nil => exact absurd rfl h
  | cons j c r => rw [expLines]

/-- Every category has one line with its price. -/
theorem shown_perm (size : ℕ → ℕ) (price : ℕ → ℚ) (f : Forest) :
    ((expLines size price f).filterMap shownPrice).Perm ((nodes f).map (fun i => (i, price i))) := by
  induction f with
  | nil => simp [expLines, nodes]
  | cons i ch s ih1 ih2 =>
    rw [nodes, List.map_cons, List.map_append]
    by_cases hc : ch = .nil
    · subst hc
      rw [expLines_leaf]
      simpa [shownPrice, nodes] using ih2
    · rw [expLines_node _ _ _ _ hc, List.filterMap_append, List.filterMap_append, List.filterMap_append]
      have h1 : List.filterMap shownPrice [if min (ch.numOfDeals size) (size i) = size i then Line.allTraders i (size i) (price i)
              else Line.someTraders i (min (ch.numOfDeals size) (size i)) (size i) (price i)] = [(i, price i)] := by
        split <;> rfl
      have h2 : List.filterMap shownPrice [if min (ch.numOfDeals size) (size i) = ch.numOfDeals size then Line.allOf ch.roots (ch.numOfDeals size)
              else Line.someOf ch.roots (min (ch.numOfDeals size) (size i)) (ch.numOfDeals size)] = [] := by
        split <;> rfl
      rw [h1, h2, List.append_nil]
      refine ((List.perm_append_singleton _ _).append_right _).trans ?_
      rw [List.cons_append]
      exact ((ih1.append ih2).cons _)

theorem explained_ok {size : ℕ → ℕ} {prices : List ℚ} {f : Forest} (h : ∀ i ∈ nodes f, i < prices.length) :
    ∃ es, f.explained size prices = .ok es ∧ es.map (fun e => (e.1, e.2.2)) = f.numOfDealsExplained size ∧
      (es.map (·.2.1)).flatten = expLines size (fun i => prices.getD i 0) f := by
  induction f with
  | nil => exact ⟨[], rfl, rfl, rfl⟩
  | cons i ch s ih1 ih2 =>
    obtain ⟨es1, e1, e2, e3⟩ := ih1 (fun j hj => h j (by simp [nodes, hj]))
    obtain ⟨es2, g1, g2, g3⟩ := ih2 (fun j hj => h j (by simp [nodes, hj]))
    have hi := h i (by simp [nodes])
    have hp : pyGet prices i = .ok (prices.getD i 0) := by simp [pyGet, hi]
    have hsum : (es1.map (·.1)).sum = ch.numOfDeals size := by
      rw [← explained_num, ← e2, List.map_map]; rfl
    cases ch with
    | nil =>
      refine ⟨(size i, [Line.potential i (size i) (prices.getD i 0)], size i, size i) :: es2, ?_, ?_, ?_⟩
      · rw [Forest.explained, hp]; simp only [bind, Except.bind]; rw [g1]
      · rw [numOfDealsExplained_cons, List.map_cons, g2]; simp
      · rw [List.map_cons, List.flatten_cons, g3, expLines_leaf]
    | cons j c r =>
      refine ⟨(min (es1.map (·.1)).sum (size i),
          (es1.map (·.2.1)).flatten
            ++ [if min (es1.map (·.1)).sum (size i) = size i then Line.allTraders i (size i) (prices.getD i 0)
                else Line.someTraders i (min (es1.map (·.1)).sum (size i)) (size i) (prices.getD i 0)]
            ++ [if min (es1.map (·.1)).sum (size i) = (es1.map (·.1)).sum then Line.allOf (Forest.cons j c r).roots (es1.map (·.1)).sum
                else Line.someOf (Forest.cons j c r).roots (min (es1.map (·.1)).sum (size i)) (es1.map (·.1)).sum],
          (es1.map (·.2.2.1)).min?.getD 0, (es1.map (·.2.2.2)).max?.getD 0) :: es2, ?_, ?_, ?_⟩
      · rw [Forest.explained, hp]; simp only [bind, Except.bind]; rw [e1, g1]
      · rw [numOfDealsExplained_cons, List.map_cons, g2, ← e2]
        simp only [reduceCtorEq, if_false, List.map_map, Function.comp_def]
      · rw [List.map_cons, List.flatten_cons, g3, expLines_node _ _ _ _ (by simp), hsum, e3]

theorem always_mono {vals : ℕ → List ℚ} {Q R : Lottery → Prop} (h : ∀ s, Q s → R s) {ls : List Line} :
    ∀ {s}, Always vals Q ls s → Always vals R ls s := by
  induction ls with
  | nil => intro s hs; exact h s hs
  | cons l ls ih => intro s hs; exact ⟨hs.1, fun s' hs' => ih (hs.2 s' hs')⟩

theorem always_append {vals : ℕ → List ℚ} {Q : Lottery → Prop} {a b : List Line} :
    ∀ {s}, Always vals Q (a ++ b) s ↔ Always vals (Always vals Q b) a s := by
  induction a with
  | nil => intro s; rfl
  | cons l ls ih => intro s; simp only [List.cons_append, Always, ih]

theorem numOfDeals_leaf (size : ℕ → ℕ) (i : ℕ) (s : Forest) : (Forest.cons i .nil s).numOfDeals size = size i + s.numOfDeals size := by
  rw [Forest.numOfDeals]

theorem numOfDeals_node (size : ℕ → ℕ) (i : ℕ) {ch : Forest} (s : Forest) (h : ch ≠ .nil) :
    (Forest.cons i ch s).numOfDeals size = min (ch.numOfDeals size) (size i) + s.numOfDeals size := by
  cases ch with
  | nil => exact absurd rfl h
  | cons j c r => rw [Forest.numOfDeals]

theorem roots_subset (f : Forest) : ∀ i ∈ f.roots, i ∈ nodes f := by
  induction f with
  | nil => simp [Forest.roots]
  | cons i ch s _ ih =>
    intro j hj
    rw [Forest.roots, List.mem_cons] at hj
    rw [nodes]
    rcases hj with rfl | hj
    · simp
    · simp [ih j hj]

/-- Feasible partial deals of a tree and of its siblings together are feasible. -/
theorem feasible_cons {i : ℕ} {ch s : Forest} {vals : ℕ → List ℚ} {N S : List TreeDeal} (hn : (nodes (.cons i ch s)).Nodup)
    (h1 : TreeFeasible (.cons i ch .nil) vals N) (h2 : TreeFeasible s vals S) : TreeFeasible (.cons i ch s) vals (N ++ S) := by
  have hN : nodes (.cons i ch .nil) = i :: nodes ch := by simp [nodes]
  rw [nodes, List.nodup_cons, List.mem_append, List.nodup_append] at hn
  obtain ⟨hi, hch, hs, hdis⟩ := hn
  push Not at hi
  refine ⟨fun d hd => ?_, fun j => ?_⟩
  · rw [isPath_cons]
    rcases List.mem_append.1 hd with hd | hd
    · have := h1.1 d hd
      rw [isPath_cons] at this
      rcases this with h | h | h
      · exact Or.inl h
      · exact Or.inr (Or.inl h)
      · exact absurd h isPath_nil
    · exact Or.inr (Or.inr (h2.1 d hd))
  · rw [List.flatten_append, agentsOf_append]
    by_cases hj : j ∈ nodes s
    · rw [agentsOf_eq_nil (l := N.flatten), List.nil_append]
      · exact h2.2 j
      · intro a ha
        have := deals_nodes h1.1 a ha
        rw [hN, List.mem_cons] at this
        rintro rfl
        rcases this with h | h
        · rw [h] at hj; exact hi.2 hj
        · exact hdis _ h _ hj rfl
    · rw [agentsOf_eq_nil (l := S.flatten), List.append_nil]
      · exact h1.2 j
      · intro a ha; have := deals_nodes h2.1 a ha; rintro rfl; exact hj this

theorem feasible_leaf (i : ℕ) (vals : ℕ → List ℚ) : TreeFeasible (.cons i .nil .nil) vals ((vals i).map (fun a => [(i, a)])) := by
  have := treeDeals_feasible vals (.cons i .nil .nil) (by simp [nodes])
  rw [treeDeals_cons] at this
  simpa [nodeDeals, treeDeals] using this

theorem feasible_node {i : ℕ} {ch : Forest} {vals : ℕ → List ℚ} (hi : i ∉ nodes ch) {D D' : List TreeDeal} (hD : TreeFeasible ch vals D)
    (hsub : D'.Subperm D) {sel : List ℚ} (hsel : sel.Subperm (vals i)) :
    TreeFeasible (.cons i ch .nil) vals (List.zipWith (fun a d => (i, a) :: d) sel D') := by
  have hD' : TreeFeasible ch vals D' := by
    obtain ⟨w, hw, hs⟩ := hsub
    refine ⟨fun d hd => hD.1 d (hs.subset (hw.mem_iff.2 hd)), fun j => ?_⟩
    exact ((agentsOf_perm (flatten_perm hw)).symm.subperm.trans (agentsOf_sublist (flatten_sublist hs)).subperm).trans (hD.2 j)
  refine ⟨fun d hd => ?_, fun j => ?_⟩
  · obtain ⟨k, hk, rfl⟩ := List.getElem_of_mem hd
    rw [List.getElem_zipWith, isPath_cons]
    exact Or.inr (Or.inl ⟨_, rfl, hD'.1 _ (List.getElem_mem _)⟩)
  · refine (agentsOf_zip i j _ _ ?_).trans ?_
    · intro a ha; have := deals_nodes hD'.1 a ha; rintro rfl; exact hi this
    · by_cases hj : j = i
      · rw [if_pos hj, hj]; exact hsel
      · rw [if_neg hj]; exact hD'.2 j

theorem flatMap_congr_pool {l : List ℕ} {p q : ℕ → List TreeDeal} (h : ∀ i ∈ l, p i = q i) : l.flatMap p = l.flatMap q := by
  induction l with
  | nil => rfl
  | cons a l ih =>
    rw [List.flatMap_cons, List.flatMap_cons, h a (by simp), ih (fun i hi => h i (by simp [hi]))]

/-- Following the explanation of a forest gives as many feasible partial deals as announced, and touches no other category. -/
theorem follow_forest {vals : ℕ → List ℚ} {price : ℕ → ℚ} {f : Forest} (hn : (nodes f).Nodup) :
    ∀ s, Always vals (fun s' => (∀ i, i ∉ nodes f → s'.pool i = s.pool i) ∧ TreeFeasible f vals (f.roots.flatMap s'.pool) ∧
        (f.roots.flatMap s'.pool).length = f.numOfDeals (fun i => (vals i).length))
      (expLines (fun i => (vals i).length) price f) s := by
  induction f with
  | nil =>
    intro s
    refine ⟨fun i _ => rfl, ⟨by simp [Forest.roots], by simp [Forest.roots, agentsOf]⟩, by simp [Forest.roots, Forest.numOfDeals]⟩
  | cons i ch sib ih1 ih2 =>
    intro s
    have hn' := hn
    rw [nodes, List.nodup_cons, List.mem_append, List.nodup_append] at hn'
    obtain ⟨hi, hch, hs, hdis⟩ := hn'
    push Not at hi
    -- after the node, go on with the siblings
    have hsib : ∀ s1 : Lottery, (∀ j, j ∉ i :: nodes ch → s1.pool j = s.pool j) → TreeFeasible (.cons i ch .nil) vals (s1.pool i) →
        (s1.pool i).length + sib.numOfDeals (fun i => (vals i).length) = (Forest.cons i ch sib).numOfDeals (fun i => (vals i).length) →
        Always vals (fun s' => (∀ j, j ∉ nodes (.cons i ch sib) → s'.pool j = s.pool j) ∧
            TreeFeasible (.cons i ch sib) vals ((Forest.cons i ch sib).roots.flatMap s'.pool) ∧
            ((Forest.cons i ch sib).roots.flatMap s'.pool).length = (Forest.cons i ch sib).numOfDeals (fun i => (vals i).length))
          (expLines (fun i => (vals i).length) price sib) s1 := by
      intro s1 h1 h2 h3
      refine always_mono ?_ (ih2 hs s1)
      rintro s' ⟨g1, g2, g3⟩
      have hpi : s'.pool i = s1.pool i := g1 i hi.2
      refine ⟨fun j hj => ?_, ?_, ?_⟩
      · rw [nodes, List.mem_cons, List.mem_append] at hj
        push Not at hj
        rw [g1 j hj.2.2]
        exact h1 j (by rw [List.mem_cons]; push Not; exact ⟨hj.1, hj.2.1⟩)
      · rw [Forest.roots, List.flatMap_cons, hpi]; exact feasible_cons hn h2 g2
      · rw [Forest.roots, List.flatMap_cons, hpi, List.length_append, g3, h3]
    by_cases hc : ch = .nil
    · subst hc
      rw [expLines_leaf, always_append]
      refine ⟨⟨_, .potential⟩, ?_⟩
      intro s1 hs1
      cases hs1
      refine hsib _ ?_ ?_ ?_
      · intro j hj
        have : j ≠ i := by rintro rfl; simp at hj
        simp [Function.update_of_ne this]
      · simpa using feasible_leaf i vals
      · simp [numOfDeals_leaf]
    · rw [expLines_node _ _ _ _ hc, List.append_assoc, List.append_assoc, always_append]
      refine always_mono ?_ (ih1 hch s)
      rintro s1 ⟨g1, g2, g3⟩
      set k := ch.numOfDeals (fun i => (vals i).length) with hk
      -- the line with the agents
      rw [always_append]
      have hsel : Always vals (fun s2 => s2.pool = s1.pool ∧ s2.chosen.1 = i ∧ s2.chosen.2.Subperm (vals i) ∧
          s2.chosen.2.length = min k (vals i).length)
          [if min k (vals i).length = (vals i).length then Line.allTraders i (vals i).length (price i)
            else Line.someTraders i (min k (vals i).length) (vals i).length (price i)] s1 := by
        split_ifs with hm
        · refine ⟨⟨_, .allTraders⟩, ?_⟩
          intro s2 h2
          cases h2
          exact ⟨rfl, rfl, List.Subperm.refl _, hm.symm⟩
        · constructor
          · have hlen : ((vals i).take (min k (vals i).length)).length = min k (vals i).length := by
              rw [List.length_take]; omega
            have := Obeys.someTraders (vals := vals) (s := s1) (i := i) (p := price i) (List.take_sublist (min k (vals i).length) (vals i)).subperm
            rw [hlen] at this
            exact ⟨_, this⟩
          · intro s2 h2
            generalize hl : Line.someTraders i (min k (vals i).length) (vals i).length (price i) = l at h2
            cases h2 with
            | someTraders hsub =>
              simp only [Line.someTraders.injEq] at hl
              obtain ⟨rfl, h5, -, -⟩ := hl
              exact ⟨rfl, rfl, hsub, h5.symm⟩
            | _ => simp at hl
      refine always_mono ?_ hsel
      rintro s2 ⟨p1, p2, p3, p4⟩
      have hpool : ch.roots.flatMap s2.pool = ch.roots.flatMap s1.pool := by rw [p1]
      -- the line with the children
      rw [always_append]
      have hcomb : Always vals (fun s3 => ∃ ds : List TreeDeal, ds.Subperm (ch.roots.flatMap s1.pool) ∧ ds.length = min k (vals i).length ∧
          s3 = s2.combine ds)
          [if min k (vals i).length = k then Line.allOf ch.roots k else Line.someOf ch.roots (min k (vals i).length) k] s2 := by
        split_ifs with hm
        · constructor
          · have := Obeys.allOf (vals := vals) (s := s2) (is := ch.roots) (List.Perm.refl _) (by rw [hpool, p4, g3]; exact hm.symm)
            rw [hpool, g3] at this
            exact ⟨_, this⟩
          · intro s3 h3
            generalize hl : Line.allOf ch.roots k = l at h3
            cases h3 with
            | allOf hperm hlen =>
              simp only [Line.allOf.injEq] at hl
              obtain ⟨rfl, -⟩ := hl
              refine ⟨_, by rw [← hpool]; exact hperm.subperm, by rw [hlen, p4], rfl⟩
            | _ => simp at hl
        · have hlen : ((ch.roots.flatMap s1.pool).take (min k (vals i).length)).length = min k (vals i).length := by
            rw [List.length_take, g3]; omega
          constructor
          · have := Obeys.someOf (vals := vals) (s := s2) (is := ch.roots)
              (ds := (ch.roots.flatMap s1.pool).take (min k (vals i).length))
              (by rw [hpool]; exact (List.take_sublist _ _).subperm) (by rw [hlen, p4])
            rw [hlen, hpool, g3] at this
            exact ⟨_, this⟩
          · intro s3 h3
            generalize hl : Line.someOf ch.roots (min k (vals i).length) k = l at h3
            cases h3 with
            | someOf hsub hlen =>
              simp only [Line.someOf.injEq] at hl
              obtain ⟨rfl, -, -⟩ := hl
              refine ⟨_, by rw [← hpool]; exact hsub, by rw [hlen, p4], rfl⟩
            | _ => simp at hl
      refine always_mono ?_ hcomb
      rintro s3 ⟨ds, q1, q2, rfl⟩
      have hpi : (s2.combine ds).pool i = List.zipWith (fun a d => (i, a) :: d) s2.chosen.2 ds := by
        unfold Lottery.combine
        rw [p2]; simp
      refine hsib _ ?_ ?_ ?_
      · intro j hj
        rw [List.mem_cons] at hj
        push Not at hj
        unfold Lottery.combine
        simp only
        rw [Function.update_of_ne (by rw [p2]; exact hj.1), p1, g1 j hj.2]
      · rw [hpi]; exact feasible_node hi.1 g2 q1 p3
      · rw [hpi, numOfDeals_node _ _ _ hc, List.length_zipWith, p4, q2]; omega

end Auctions
