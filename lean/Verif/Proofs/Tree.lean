import Verif.Spec.Tree
import Verif.Proofs.Lists
import Mathlib.Data.List.Perm.Lattice

set_option autoImplicit false

/-! # Helper lemmas: recipe trees -/

namespace Auctions

open Spec

/-! ## Paths -/

theorem isPath_nil {p : List ℕ} : ¬ IsPath .nil p := by rintro ⟨a, h⟩; cases h

theorem atAddress_ne_nil {f : Forest} {a p : List ℕ} (h : AtAddress f a p) : a ≠ [] := by cases h <;> simp

/-- A path of a forest goes through the first tree, or is a path of the siblings. -/
theorem isPath_cons {i : ℕ} {ch s : Forest} {p : List ℕ} :
    IsPath (.cons i ch s) p ↔ (ch = .nil ∧ p = [i]) ∨ (∃ q, p = i :: q ∧ IsPath ch q) ∨ IsPath s p := by
  constructor
  · rintro ⟨a, h⟩
    cases h with
    | leaf => exact Or.inl ⟨rfl, rfl⟩
    | down h => exact Or.inr (Or.inl ⟨_, rfl, _, h⟩)
    | next h => exact Or.inr (Or.inr ⟨_, h⟩)
  · rintro (⟨rfl, rfl⟩ | ⟨q, rfl, a, h⟩ | ⟨a, h⟩)
    · exact ⟨_, .leaf i s⟩
    · exact ⟨_, .down h⟩
    · cases a with
      | nil => exact absurd rfl (atAddress_ne_nil h)
      | cons k a => exact ⟨_, .next h⟩

theorem isPath_subset {f : Forest} : ∀ {p : List ℕ}, IsPath f p → ∀ x ∈ p, x ∈ nodes f := by
  induction f with
  | nil => intro p h; exact absurd h isPath_nil
  | cons i ch s ih1 ih2 =>
    intro p h x hx
    rw [isPath_cons] at h
    rcases h with ⟨-, rfl⟩ | ⟨q, rfl, h⟩ | h
    · simp only [List.mem_singleton] at hx; simp [nodes, hx]
    · rcases List.mem_cons.1 hx with rfl | hx
      · simp [nodes]
      · simp [nodes, ih1 h x hx]
    · simp [nodes, ih2 h x hx]

theorem isPath_ne_nil {f : Forest} {p : List ℕ} (h : IsPath f p) : p ≠ [] := by
  induction f generalizing p with
  | nil => exact absurd h isPath_nil
  | cons i ch s ih1 ih2 =>
    rw [isPath_cons] at h
    rcases h with ⟨-, rfl⟩ | ⟨q, rfl, h⟩ | h
    · simp
    · simp
    · exact ih2 h

theorem exists_path {f : Forest} (h : f ≠ .nil) : ∃ p, IsPath f p := by
  induction f with
  | nil => exact absurd rfl h
  | cons i ch s ih1 ih2 =>
    by_cases hc : ch = .nil
    · exact ⟨[i], isPath_cons.2 (Or.inl ⟨hc, rfl⟩)⟩
    · obtain ⟨q, hq⟩ := ih1 hc
      exact ⟨i :: q, isPath_cons.2 (Or.inr (Or.inl ⟨q, rfl, hq⟩))⟩

/-! ## The deals behind `combined_values` -/

/-- The deals that the code forms: mirrors `combined_values_detailed`, with the categories kept. -/
def treeDeals (vals : ℕ → List ℚ) : Forest → List TreeDeal
  | .nil => []
  | .cons i ch s =>
    (match ch with
      | .nil => (vals i).map (fun v => [(i, v)])
      | .cons .. => List.zipWith (fun v d => (i, v) :: d) (vals i)
          ((treeDeals vals ch).insertionSort (fun x y => treeGain x ≥ treeGain y)))
      ++ treeDeals vals s

/-- The deals of the first tree of a forest. -/
def nodeDeals (vals : ℕ → List ℚ) (i : ℕ) (ch : Forest) : List TreeDeal :=
  match ch with
  | .nil => (vals i).map (fun v => [(i, v)])
  | .cons .. => List.zipWith (fun v d => (i, v) :: d) (vals i)
      ((treeDeals vals ch).insertionSort (fun x y => treeGain x ≥ treeGain y))

theorem treeDeals_cons (vals : ℕ → List ℚ) (i : ℕ) (ch s : Forest) :
    treeDeals vals (.cons i ch s) = nodeDeals vals i ch ++ treeDeals vals s := by
  cases ch <;> rw [treeDeals] <;> rfl

theorem nodeDeals_of_ne (vals : ℕ → List ℚ) (i : ℕ) {ch : Forest} (h : ch ≠ .nil) :
    nodeDeals vals i ch = List.zipWith (fun v d => (i, v) :: d) (vals i)
      ((treeDeals vals ch).insertionSort (fun x y => treeGain x ≥ treeGain y)) := by
  cases ch with
  | nil => exact absurd rfl h
  | cons j c s => rfl

/-- The combined values of the first tree of a forest. -/
def nodeValues (vals : ℕ → List ℚ) (i : ℕ) (ch : Forest) : List ℚ :=
  match ch with
  | .nil => vals i
  | .cons .. => List.zipWith (· + ·) (vals i) (sortDesc (ch.combinedValues vals))

theorem combinedValues_cons (vals : ℕ → List ℚ) (i : ℕ) (ch s : Forest) :
    (Forest.cons i ch s).combinedValues vals = nodeValues vals i ch ++ s.combinedValues vals := by
  cases ch <;> rw [Forest.combinedValues] <;> rfl

theorem nodeValues_of_ne (vals : ℕ → List ℚ) (i : ℕ) {ch : Forest} (h : ch ≠ .nil) :
    nodeValues vals i ch = List.zipWith (· + ·) (vals i) (sortDesc (ch.combinedValues vals)) := by
  cases ch with
  | nil => exact absurd rfl h
  | cons j c s => rfl

theorem sort_deals_gain (l : List TreeDeal) :
    (l.insertionSort (fun x y => treeGain x ≥ treeGain y)).map treeGain = sortDesc (l.map treeGain) := by
  unfold sortDesc
  rw [List.map_insertionSort (r := fun x y => treeGain x ≥ treeGain y) (s := (· ≥ ·))]
  intro a _ b _; exact Iff.rfl

theorem zipWith_cons_gain (i : ℕ) (vs : List ℚ) (ds : List TreeDeal) :
    (List.zipWith (fun v d => (i, v) :: d) vs ds).map treeGain = List.zipWith (· + ·) vs (ds.map treeGain) := by
  induction vs generalizing ds with
  | nil => simp
  | cons v vs ih =>
    cases ds with
    | nil => simp
    | cons d ds => simp [ih, treeGain]

theorem combinedValues_eq (vals : ℕ → List ℚ) (f : Forest) :
    f.combinedValues vals = (treeDeals vals f).map treeGain := by
  induction f with
  | nil => rfl
  | cons i ch s ih1 ih2 =>
    rw [combinedValues_cons, treeDeals_cons, List.map_append, ← ih2]
    congr 1
    by_cases h : ch = .nil
    · subst h
      simp [nodeValues, nodeDeals, treeGain, Function.comp_def]
    · rw [nodeValues_of_ne _ _ h, nodeDeals_of_ne _ _ h, zipWith_cons_gain, sort_deals_gain, ih1]

/-- The element of `combined_values_detailed` for a deal. -/
def toItem : TreeDeal → Forest.Item
  | [(_, v)] => .num v
  | d => .tup (d.map Prod.snd)

theorem toItem_key (d : TreeDeal) : (toItem d).key = treeGain d := by
  rcases d with _ | ⟨a, _ | ⟨b, d⟩⟩ <;> simp [toItem, Forest.Item.key, treeGain]

theorem toItem_flat (d : TreeDeal) : (toItem d).flat = d.map Prod.snd := by
  rcases d with _ | ⟨a, _ | ⟨b, d⟩⟩ <;> simp [toItem, Forest.Item.flat]

theorem toItem_cons (i : ℕ) (v : ℚ) {d : TreeDeal} (h : d ≠ []) : toItem ((i, v) :: d) = .tup (v :: d.map Prod.snd) := by
  cases d with
  | nil => exact absurd rfl h
  | cons a d => simp [toItem]

/-- Every deal formed by the code follows a path of the forest. -/
theorem treeDeals_path (vals : ℕ → List ℚ) (f : Forest) : ∀ d ∈ treeDeals vals f, IsPath f (d.map Prod.fst) := by
  induction f with
  | nil => simp [treeDeals]
  | cons i ch s ih1 ih2 =>
    intro d hd
    rw [treeDeals_cons, List.mem_append] at hd
    rw [isPath_cons]
    rcases hd with hd | hd
    · by_cases h : ch = .nil
      · subst h
        simp only [nodeDeals, List.mem_map] at hd
        obtain ⟨v, -, rfl⟩ := hd
        exact Or.inl ⟨rfl, rfl⟩
      · rw [nodeDeals_of_ne _ _ h] at hd
        right; left
        obtain ⟨k, hk, rfl⟩ := List.getElem_of_mem hd
        rw [List.getElem_zipWith]
        refine ⟨_, rfl, ih1 _ ?_⟩
        exact (List.mem_insertionSort _).1 (List.getElem_mem _)
    · exact Or.inr (Or.inr (ih2 d hd))

theorem zipWith_toItem (i : ℕ) (vs : List ℚ) (ds : List TreeDeal) (h : ∀ d ∈ ds, d ≠ []) :
    (List.zipWith (fun v d => (i, v) :: d) vs ds).map toItem
      = List.zipWith (fun a x => Forest.Item.tup (a :: x.flat)) vs (ds.map toItem) := by
  induction vs generalizing ds with
  | nil => simp
  | cons v vs ih =>
    cases ds with
    | nil => simp
    | cons d ds =>
      simp only [List.zipWith_cons_cons, List.map_cons]
      rw [ih ds (fun d hd => h d (by simp [hd])), toItem_cons i v (h d (by simp)), toItem_flat]

theorem combinedValuesDetailed_eq (vals : ℕ → List ℚ) (f : Forest) :
    f.combinedValuesDetailed vals = (treeDeals vals f).map toItem := by
  induction f with
  | nil => rfl
  | cons i ch s ih1 ih2 =>
    rw [treeDeals_cons, List.map_append, ← ih2]
    by_cases h : ch = .nil
    · subst h
      rw [Forest.combinedValuesDetailed]
      simp [nodeDeals, toItem, Function.comp_def]
    · have hne : ∀ d ∈ (treeDeals vals ch).insertionSort (fun x y => treeGain x ≥ treeGain y), d ≠ [] := by
        intro d hd
        have := treeDeals_path vals ch d ((List.mem_insertionSort _).1 hd)
        intro hn; subst hn
        exact isPath_ne_nil this rfl
      rw [nodeDeals_of_ne _ _ h, zipWith_toItem _ _ _ hne,
        List.map_insertionSort (r := fun x y => treeGain x ≥ treeGain y) (s := fun x y => x.key ≥ y.key) toItem _
          (by intro a _ b _; rw [toItem_key, toItem_key]), ← ih1]
      cases ch with
      | nil => exact absurd rfl h
      | cons j c s' => rw [Forest.combinedValuesDetailed]

/-! ## Feasibility of the deals formed by the code -/

theorem agentsOf_append (i : ℕ) (l l' : List (ℕ × ℚ)) : agentsOf i (l ++ l') = agentsOf i l ++ agentsOf i l' := by
  simp [agentsOf]

theorem agentsOf_perm {i : ℕ} {l l' : List (ℕ × ℚ)} (h : l.Perm l') : (agentsOf i l).Perm (agentsOf i l') :=
  (h.filter _).map _

theorem agentsOf_sublist {i : ℕ} {l l' : List (ℕ × ℚ)} (h : l.Sublist l') : (agentsOf i l).Sublist (agentsOf i l') :=
  (h.filter _).map _

theorem agentsOf_eq_nil {i : ℕ} {l : List (ℕ × ℚ)} (h : ∀ a ∈ l, a.1 ≠ i) : agentsOf i l = [] := by
  unfold agentsOf
  rw [List.map_eq_nil_iff, List.filter_eq_nil_iff]
  intro a ha; simpa using h a ha

theorem flatten_perm {α : Type} {l l' : List (List α)} (h : l.Perm l') : l.flatten.Perm l'.flatten := h.flatten

theorem flatten_sublist {α : Type} {l l' : List (List α)} (h : l.Sublist l') : l.flatten.Sublist l'.flatten := by
  induction h with
  | slnil => simp
  | cons a h ih => rw [List.flatten_cons]; exact ih.trans (List.sublist_append_right _ _)
  | cons_cons a h ih => rw [List.flatten_cons, List.flatten_cons]; exact List.Sublist.append (List.Sublist.refl _) ih

theorem deals_nodes {f : Forest} {deals : List TreeDeal} (h : ∀ d ∈ deals, IsPath f (d.map Prod.fst)) :
    ∀ a ∈ deals.flatten, a.1 ∈ nodes f := by
  intro a ha
  obtain ⟨d, hd, had⟩ := List.mem_flatten.1 ha
  exact isPath_subset (h d hd) _ (List.mem_map_of_mem had)

theorem agentsOf_zip (i j : ℕ) (vs : List ℚ) (ds : List TreeDeal) (hi : ∀ a ∈ ds.flatten, a.1 ≠ i) :
    (agentsOf j (List.zipWith (fun v d => (i, v) :: d) vs ds).flatten).Subperm
      (if j = i then vs else agentsOf j ds.flatten) := by
  induction vs generalizing ds with
  | nil => simp [agentsOf]
  | cons v vs ih =>
    cases ds with
    | nil => simp [agentsOf]
    | cons d ds =>
      have h1 := ih ds (fun a ha => hi a (by simp at ha ⊢; tauto))
      have hd : ∀ a ∈ d, a.1 ≠ i := fun a ha => hi a (by simp [ha])
      simp only [List.zipWith_cons_cons, List.flatten_cons]
      rw [agentsOf_append]
      by_cases hj : j = i
      · subst hj
        simp only [if_true] at h1 ⊢
        have : agentsOf j ((j, v) :: d) = [v] := by
          have := agentsOf_eq_nil hd
          simp only [agentsOf] at this ⊢
          simp [this]
        rw [this]
        exact (List.subperm_cons v).2 h1
      · simp only [hj, if_false] at h1 ⊢
        have : agentsOf j ((i, v) :: d) = agentsOf j d := by
          simp [agentsOf, Ne.symm hj]
        rw [this, agentsOf_append]
        exact (List.subperm_append_left _).2 h1

theorem treeDeals_feasible (vals : ℕ → List ℚ) (f : Forest) (hn : (nodes f).Nodup) : TreeFeasible f vals (treeDeals vals f) := by
  refine ⟨treeDeals_path vals f, ?_⟩
  induction f with
  | nil => intro i; simp [treeDeals, agentsOf]
  | cons i ch s ih1 ih2 =>
    intro j
    rw [nodes, List.nodup_cons, List.mem_append, List.nodup_append] at hn
    obtain ⟨hi, hch, hs, hdis⟩ := hn
    push Not at hi
    rw [treeDeals_cons, List.flatten_append, agentsOf_append]
    have hsn := deals_nodes (treeDeals_path vals s)
    have hcn := deals_nodes (treeDeals_path vals ch)
    have hnode : (agentsOf j (nodeDeals vals i ch).flatten).Subperm
        (if j = i then vals i else agentsOf j (treeDeals vals ch).flatten) := by
      by_cases h : ch = .nil
      · subst h
        simp only [nodeDeals]
        by_cases hj : j = i
        · subst hj
          have : agentsOf j ((vals j).map (fun v => [(j, v)])).flatten = vals j := by
            induction vals j with
            | nil => simp [agentsOf]
            | cons v vs ih =>
              rw [List.map_cons, List.flatten_cons, agentsOf_append, ih]
              simp [agentsOf]
          rw [this, if_pos rfl]
        · rw [agentsOf_eq_nil]
          · exact List.nil_subperm
          · intro a ha
            simp only [List.mem_flatten, List.mem_map] at ha
            obtain ⟨l, ⟨v, -, rfl⟩, h⟩ := ha
            simp only [List.mem_singleton] at h
            rw [h]; exact Ne.symm hj
      · rw [nodeDeals_of_ne _ _ h]
        have hp := List.perm_insertionSort (fun x y => treeGain x ≥ treeGain y) (treeDeals vals ch)
        refine (agentsOf_zip i j _ _ ?_).trans ?_
        · intro a ha
          have := hcn a ((flatten_perm hp).mem_iff.1 ha)
          rintro rfl; exact hi.1 this
        · by_cases hj : j = i
          · rw [if_pos hj, if_pos hj]
          · simp only [hj, if_false]
            exact (agentsOf_perm (flatten_perm hp)).subperm
    by_cases hjs : j ∈ nodes s
    · -- category of the siblings: the first tree does not use it
      have hji : j ≠ i := by rintro rfl; exact hi.2 hjs
      have hjc : j ∉ nodes ch := fun h => hdis _ h _ hjs rfl
      simp only [hji, if_false] at hnode
      rw [agentsOf_eq_nil (l := (treeDeals vals ch).flatten)] at hnode
      · rw [List.subperm_nil.1 hnode]
        exact ih2 hs j
      · intro a ha; have := hcn a ha; rintro rfl; exact hjc this
    · rw [agentsOf_eq_nil (l := (treeDeals vals s).flatten), List.append_nil]
      · refine hnode.trans ?_
        by_cases hji : j = i
        · rw [if_pos hji, hji]
        · simp only [hji, if_false]; exact ih1 hch j
      · intro a ha; have := hsn a ha; rintro rfl; exact hjs this

/-! ## The upper bound -/

theorem treeTotalGain_perm {l l' : List TreeDeal} (h : l.Perm l') : treeTotalGain l = treeTotalGain l' :=
  (h.map treeGain).sum_eq

theorem sum_take_zipWith (l l' : List ℚ) (k : ℕ) (h : k ≤ l.length) (h' : k ≤ l'.length) :
    ((List.zipWith (· + ·) l l').take k).sum = (l.take k).sum + (l'.take k).sum := by
  induction k generalizing l l' with
  | zero => simp
  | succ k ih =>
    cases l with
    | nil => simp at h
    | cons a l =>
      cases l' with
      | nil => simp at h'
      | cons b l' =>
        simp only [List.zipWith_cons_cons, List.take_succ_cons, List.sum_cons]
        rw [ih l l' (by simpa using h) (by simpa using h')]
        ring

/-- Every feasible list of deals can be matched by as many elements of the combined values, with at least the same total. -/
theorem feasible_le_combined {vals : ℕ → List ℚ} {f : Forest} (hn : (nodes f).Nodup)
    (hs : ∀ i ∈ nodes f, SortedDesc (vals i)) {deals : List TreeDeal} (h : TreeFeasible f vals deals) :
    ∃ u : List ℚ, u.Subperm (f.combinedValues vals) ∧ u.length = deals.length ∧ treeTotalGain deals ≤ u.sum := by
  induction f generalizing deals with
  | nil =>
    cases deals with
    | nil => exact ⟨[], by simp, rfl, by simp [treeTotalGain]⟩
    | cons d ds => exact absurd (h.1 d (by simp)) isPath_nil
  | cons i ch s ih1 ih2 =>
    have hn0 := hn
    rw [nodes, List.nodup_cons, List.mem_append, List.nodup_append] at hn
    obtain ⟨hi, hch, hns, hdis⟩ := hn
    push Not at hi
    -- split the deals
    let through : TreeDeal → Bool := fun d => d.head?.map Prod.fst = some i
    have hperm : (deals.filter through ++ deals.filter (fun d => ! through d)).Perm deals :=
      List.filter_append_perm through deals
    have hsub : ∀ (q : TreeDeal → Bool) j, (agentsOf j (deals.filter q).flatten).Subperm (vals j) := fun q j =>
      ((agentsOf_sublist (i := j) (flatten_sublist List.filter_sublist)).subperm).trans (h.2 j)
    -- the deals of the siblings
    obtain ⟨u2, hu2, hl2, hg2⟩ := ih2 hns (fun j hj => hs j (by simp [nodes, hj]))
      (deals := deals.filter (fun d => ! through d)) ⟨by
        intro d hd
        simp only [List.mem_filter, Bool.not_eq_true', through, decide_eq_false_iff_not] at hd
        have hp := h.1 d hd.1
        rw [isPath_cons] at hp
        rcases hp with ⟨-, hp⟩ | ⟨q, hp, -⟩ | hp
        · exfalso; apply hd.2
          cases d with
          | nil => simp at hp
          | cons a d => simp at hp; simp [hp]
        · exfalso; apply hd.2
          cases d with
          | nil => simp at hp
          | cons a d => simp at hp; simp [hp]
        · exact hp, hsub _⟩
    -- the deals of the first tree
    have hD1 : ∀ d ∈ deals.filter through, ∃ v d', d = (i, v) :: d' ∧
        ((ch = .nil ∧ d' = []) ∨ IsPath ch (d'.map Prod.fst)) := by
      intro d hd
      simp only [List.mem_filter, through, decide_eq_true_eq] at hd
      have hp := h.1 d hd.1
      cases d with
      | nil => simp at hd
      | cons a d =>
        obtain ⟨j, v⟩ := a
        have hji : j = i := by simpa using hd.2
        subst hji
        refine ⟨v, d, rfl, ?_⟩
        rw [isPath_cons] at hp
        rcases hp with ⟨h1, h2⟩ | ⟨q, h1, h2⟩ | hp
        · left; exact ⟨h1, by simpa using h2⟩
        · right; simp only [List.map_cons, List.cons.injEq, true_and] at h1; rw [h1]; exact h2
        · exact absurd (isPath_subset hp j (by simp)) hi.2
    have hheads : ∀ (D : List TreeDeal), (∀ d ∈ D, ∃ v d', d = (i, v) :: d' ∧
        ((ch = .nil ∧ d' = []) ∨ IsPath ch (d'.map Prod.fst))) →
        ∃ (vs : List ℚ) (D' : List TreeDeal), vs.length = D.length ∧ D'.length = D.length ∧
          D = List.zipWith (fun v d => (i, v) :: d) vs D' ∧
          (∀ d ∈ D', (ch = .nil ∧ d = []) ∨ IsPath ch (d.map Prod.fst)) ∧
          treeTotalGain D = vs.sum + treeTotalGain D' ∧
          vs.Sublist (agentsOf i D.flatten) ∧ ∀ j, (agentsOf j D'.flatten).Sublist (agentsOf j D.flatten) := by
      intro D
      induction D with
      | nil => intro _; exact ⟨[], [], rfl, rfl, rfl, by simp, by simp [treeTotalGain], by simp, by simp⟩
      | cons d D ih =>
        intro hD
        obtain ⟨v, d', rfl, hd'⟩ := hD d (by simp)
        obtain ⟨vs, D', e1, e2, e3, e4, e5, e6, e7⟩ := ih (fun d hd => hD d (by simp [hd]))
        refine ⟨v :: vs, d' :: D', by simp [e1], by simp [e2], by simp [← e3], ?_, ?_, ?_, ?_⟩
        · intro d hd
          rcases List.mem_cons.1 hd with rfl | hd
          · exact hd'
          · exact e4 d hd
        · simp only [treeTotalGain, List.map_cons, List.sum_cons] at e5 ⊢
          rw [e5]; simp only [treeGain, List.map_cons, List.sum_cons]; ring
        · simp only [List.flatten_cons, agentsOf_append]
          have : agentsOf i ((i, v) :: d') = v :: agentsOf i d' := by simp [agentsOf]
          rw [this, List.cons_append]
          exact (e6.trans (List.sublist_append_right _ _)).cons_cons v
        · intro j
          simp only [List.flatten_cons, agentsOf_append]
          refine List.Sublist.append ?_ (e7 j)
          exact agentsOf_sublist (List.sublist_cons_self _ _)
    obtain ⟨vs, D', e1, e2, e3, e4, e5, e6, e7⟩ := hheads _ hD1
    have hvs : vs.Subperm (vals i) := e6.subperm.trans (hsub _ i)
    obtain ⟨u1, hu1, hl1, hg1⟩ : ∃ u1 : List ℚ, u1.Subperm (nodeValues vals i ch) ∧
        u1.length = (deals.filter through).length ∧ treeTotalGain (deals.filter through) ≤ u1.sum := by
      by_cases hc : ch = .nil
      · subst hc
        refine ⟨vs, hvs, e1, ?_⟩
        rw [e5]
        have : treeTotalGain D' = 0 := by
          unfold treeTotalGain
          apply List.sum_eq_zero
          intro x hx
          obtain ⟨d, hd, rfl⟩ := List.mem_map.1 hx
          rcases e4 d hd with ⟨-, rfl⟩ | hp
          · rfl
          · exact absurd hp isPath_nil
        rw [this, add_zero]
      · obtain ⟨u', hu', hl', hg'⟩ := ih1 hch (fun j hj => hs j (by simp [nodes, hj])) (deals := D')
          ⟨fun d hd => by rcases e4 d hd with ⟨h1, -⟩ | h1; exacts [absurd h1 hc, h1],
           fun j => (e7 j).subperm.trans (hsub _ j)⟩
        rw [nodeValues_of_ne _ _ hc]
        have hu'' : u'.Subperm (sortDesc (ch.combinedValues vals)) := hu'.trans (sortDesc_perm _).symm.subperm
        have hk1 : vs.length ≤ (vals i).length := hvs.length_le
        have hk2 : vs.length ≤ (sortDesc (ch.combinedValues vals)).length := by
          have := hu''.length_le; omega
        refine ⟨(List.zipWith (· + ·) (vals i) (sortDesc (ch.combinedValues vals))).take vs.length,
          (List.take_sublist _ _).subperm, ?_, ?_⟩
        · simp only [List.length_take, List.length_zipWith]; omega
        · rw [sum_take_zipWith _ _ _ hk1 hk2, e5]
          have h1 := sum_le_sum_take (hs i (by simp [nodes])) hvs
          have h2 := sum_le_sum_take (sortDesc_sorted _) hu''
          rw [show u'.length = vs.length by omega] at h2
          linarith
    refine ⟨u1 ++ u2, ?_, ?_, ?_⟩
    · rw [combinedValues_cons]
      exact List.Subperm.append hu1 hu2
    · rw [List.length_append, hl1, hl2, ← hperm.length_eq, List.length_append]
    · rw [← treeTotalGain_perm hperm, List.sum_append]
      have : treeTotalGain (deals.filter through ++ deals.filter (fun d => ! through d))
          = treeTotalGain (deals.filter through) + treeTotalGain (deals.filter (fun d => ! through d)) := by
        simp [treeTotalGain]
      rw [this]; linarith

/-- A sub-multiset of a list sums to at most the sum of the non-negative elements. -/
theorem subperm_sum_le_filter {u l : List ℚ} (h : u.Subperm l) : u.sum ≤ (l.filter (fun v => v ≥ 0)).sum := by
  obtain ⟨w, hw, hs⟩ := h
  rw [← hw.sum_eq]
  clear hw
  induction hs with
  | slnil => simp
  | @cons l1 l2 a h ih =>
    by_cases ha : a ≥ 0
    · rw [List.filter_cons_of_pos (by simpa using ha), List.sum_cons]; linarith
    · rw [List.filter_cons_of_neg (by simpa using ha)]; exact ih
  | @cons_cons l1 l2 a h ih =>
    by_cases ha : a ≥ 0
    · rw [List.filter_cons_of_pos (by simpa using ha), List.sum_cons, List.sum_cons]; linarith
    · rw [List.filter_cons_of_neg (by simpa using ha), List.sum_cons]
      have := not_le.1 ha; linarith

end Auctions
