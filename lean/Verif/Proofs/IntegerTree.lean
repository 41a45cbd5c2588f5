import Verif.Proofs.IntegerBlocks
import Verif.Spec.IntegerTree
import Verif.Proofs.TreeAuction

set_option autoImplicit false

/-! # Helper lemmas: deals in recipe trees with agent counts -/

namespace Auctions.IntegerTree

open Auctions Spec

/-- A deal made of groups of agents: for each category of a path, a group. -/
abbrev GroupDeal := List (ℕ × List ℚ)

/-- Total value of a deal made of groups. -/
def groupGain (d : GroupDeal) : ℚ := (d.map (fun a => a.2.sum)).sum

/-- The agents of a deal made of groups. -/
def agents (d : GroupDeal) : TreeDeal := d.flatMap (fun a => a.2.map (fun v => (a.1, v)))

/-- The values of the agents of a deal made of groups, in order. -/
def dealValues (d : GroupDeal) : List ℚ := d.flatMap Prod.snd

/-- The groups of category `i`. -/
def groupsOf (i : ℕ) (l : GroupDeal) : List (List ℚ) := (l.filter (fun a => a.1 = i)).map Prod.snd

/-- The deals that the code forms from given groups. -/
def groupDeals (B : ℕ → List (List ℚ)) : Forest → List GroupDeal
  | .nil => []
  | .cons i ch s =>
    (if ch = .nil then (B i).map (fun b => [(i, b)])
      else List.zipWith (fun b d => (i, b) :: d) (B i) ((groupDeals B ch).insertionSort (fun x y => groupGain x ≥ groupGain y)))
      ++ groupDeals B s

theorem dealValues_agents (d : GroupDeal) : (agents d).map Prod.snd = dealValues d := by
  unfold agents dealValues
  rw [List.map_flatMap]
  simp [Function.comp_def]

theorem dealValues_sum (d : GroupDeal) : (dealValues d).sum = groupGain d := by
  unfold dealValues groupGain
  induction d with
  | nil => rfl
  | cons a d ih => simp [List.flatMap_cons, ih]

theorem treeGain_agents (d : GroupDeal) : treeGain (agents d) = groupGain d := by
  rw [treeGain, dealValues_agents, dealValues_sum]

/-- The combined values are the values of these deals. -/
theorem combinedValues_deals {cnt : ℕ → ℕ} {vals : ℕ → List ℚ} {f : Forest} (hc : ∀ i ∈ nodes f, 0 < cnt i) :
    combinedValues cnt vals f = (groupDeals (fun i => groups (cnt i) (sortDesc (vals i))) f).map dealValues := by
  induction f with
  | nil => rfl
  | cons i ch s ih1 ih2 =>
    have hi := hc i (by simp [nodes])
    have e1 := ih1 (fun j hj => hc j (by simp [nodes, hj]))
    have e2 := ih2 (fun j hj => hc j (by simp [nodes, hj]))
    cases ch with
    | nil =>
      rw [combinedValues, groupDeals, List.map_append, ← e2]
      congr 1
      simp only [sortBySumDesc_groups hi, if_true, List.map_map]
      symm
      rw [show (dealValues ∘ fun b => [(i, b)]) = id by funext b; simp [dealValues], List.map_id]
    | cons j c r =>
      rw [combinedValues, groupDeals, List.map_append, ← e2]
      congr 1
      simp only [sortBySumDesc_groups hi, reduceCtorEq, if_false]
      rw [e1]
      generalize groupDeals (fun i => groups (cnt i) (sortDesc (vals i))) (Forest.cons j c r) = ds
      have hsort : sortBySumDesc (ds.map dealValues)
          = (ds.insertionSort (fun x y => groupGain x ≥ groupGain y)).map dealValues := by
        unfold sortBySumDesc
        rw [List.map_insertionSort (r := fun x y => groupGain x ≥ groupGain y) (s := fun a b => a.sum ≥ b.sum)]
        intro a _ b _
        rw [dealValues_sum, dealValues_sum]
      rw [hsort, List.map_zipWith]
      rw [List.zipWith_map_right]
      rfl

theorem groupDeals_path (B : ℕ → List (List ℚ)) (f : Forest) : ∀ d ∈ groupDeals B f,
    IsPath f (d.map Prod.fst) ∧ ∀ a ∈ d, a.2 ∈ B a.1 := by
  induction f with
  | nil => simp [groupDeals]
  | cons i ch s ih1 ih2 =>
    intro d hd
    rw [groupDeals, List.mem_append] at hd
    rw [isPath_cons]
    rcases hd with hd | hd
    · by_cases h : ch = .nil
      · rw [if_pos h, List.mem_map] at hd
        obtain ⟨v, hv, rfl⟩ := hd
        exact ⟨Or.inl ⟨h, rfl⟩, by simpa using hv⟩
      · rw [if_neg h] at hd
        obtain ⟨k, hk, rfl⟩ := List.getElem_of_mem hd
        rw [List.getElem_zipWith]
        have hk' : k < (B i).length ∧ k < ((groupDeals B ch).insertionSort (fun x y => groupGain x ≥ groupGain y)).length := by
          simpa using hk
        obtain ⟨h1, h2⟩ := ih1 _ ((List.mem_insertionSort _).1 (List.getElem_mem hk'.2))
        refine ⟨Or.inr (Or.inl ⟨_, rfl, h1⟩), ?_⟩
        intro a ha
        rcases List.mem_cons.1 ha with rfl | ha
        · exact List.getElem_mem _
        · exact h2 a ha
    · exact ⟨Or.inr (Or.inr (ih2 d hd).1), (ih2 d hd).2⟩

theorem groupsOf_append (i : ℕ) (l l' : GroupDeal) : groupsOf i (l ++ l') = groupsOf i l ++ groupsOf i l' := by
  simp [groupsOf]

theorem groupsOf_eq_nil {i : ℕ} {l : GroupDeal} (h : ∀ a ∈ l, a.1 ≠ i) : groupsOf i l = [] := by
  unfold groupsOf
  rw [List.map_eq_nil_iff, List.filter_eq_nil_iff]
  intro a ha; simpa using h a ha

theorem groupsOf_perm {i : ℕ} {l l' : GroupDeal} (h : l.Perm l') : (groupsOf i l).Perm (groupsOf i l') :=
  (h.filter _).map _

theorem groupsOf_sublist {i : ℕ} {l l' : GroupDeal} (h : l.Sublist l') : (groupsOf i l).Sublist (groupsOf i l') :=
  (h.filter _).map _

theorem groupDeals_nodes {f : Forest} {deals : List GroupDeal} (h : ∀ d ∈ deals, IsPath f (d.map Prod.fst)) :
    ∀ a ∈ deals.flatten, a.1 ∈ nodes f := by
  intro a ha
  obtain ⟨d, hd, had⟩ := List.mem_flatten.1 ha
  exact isPath_subset (h d hd) _ (List.mem_map_of_mem had)

theorem groupsOf_zip (i j : ℕ) (vs : List (List ℚ)) (ds : List GroupDeal) (hi : ∀ a ∈ ds.flatten, a.1 ≠ i) :
    (groupsOf j (List.zipWith (fun v d => (i, v) :: d) vs ds).flatten).Subperm
      (if j = i then vs else groupsOf j ds.flatten) := by
  induction vs generalizing ds with
  | nil => simp [groupsOf]
  | cons v vs ih =>
    cases ds with
    | nil => simp [groupsOf]
    | cons d ds =>
      have h1 := ih ds (fun a ha => hi a (by simp at ha ⊢; tauto))
      have hd : ∀ a ∈ d, a.1 ≠ i := fun a ha => hi a (by simp [ha])
      simp only [List.zipWith_cons_cons, List.flatten_cons]
      rw [groupsOf_append]
      by_cases hj : j = i
      · subst hj
        simp only [if_true] at h1 ⊢
        have : groupsOf j ((j, v) :: d) = [v] := by
          have := groupsOf_eq_nil hd
          simp only [groupsOf] at this ⊢
          simp [this]
        rw [this]
        exact (List.subperm_cons v).2 h1
      · simp only [hj, if_false] at h1 ⊢
        have : groupsOf j ((i, v) :: d) = groupsOf j d := by
          simp [groupsOf, Ne.symm hj]
        rw [this, groupsOf_append]
        exact (List.subperm_append_left _).2 h1

/-- No group is used twice. -/
theorem groupDeals_feasible (B : ℕ → List (List ℚ)) (f : Forest) (hn : (nodes f).Nodup) :
    ∀ i, (groupsOf i (groupDeals B f).flatten).Subperm (B i) := by
  induction f with
  | nil => intro i; simp [groupDeals, groupsOf]
  | cons i ch s ih1 ih2 =>
    intro j
    rw [nodes, List.nodup_cons, List.mem_append, List.nodup_append] at hn
    obtain ⟨hi, hch, hs, hdis⟩ := hn
    push Not at hi
    rw [groupDeals, List.flatten_append, groupsOf_append]
    have hsn := groupDeals_nodes (fun d hd => (groupDeals_path B s d hd).1)
    have hcn := groupDeals_nodes (fun d hd => (groupDeals_path B ch d hd).1)
    have hnode : (groupsOf j (if ch = .nil then (B i).map (fun b => [(i, b)])
      else List.zipWith (fun b d => (i, b) :: d) (B i)
        ((groupDeals B ch).insertionSort (fun x y => groupGain x ≥ groupGain y))).flatten).Subperm
        (if j = i then B i else groupsOf j (groupDeals B ch).flatten) := by
      by_cases h : ch = .nil
      · subst h
        simp only [if_true]
        by_cases hj : j = i
        · subst hj
          have : groupsOf j ((B j).map (fun v => [(j, v)])).flatten = B j := by
            induction B j with
            | nil => simp [groupsOf]
            | cons v vs ih =>
              rw [List.map_cons, List.flatten_cons, groupsOf_append, ih]
              simp [groupsOf]
          rw [this, if_pos rfl]
        · rw [groupsOf_eq_nil]
          · exact List.nil_subperm
          · intro a ha
            simp only [List.mem_flatten, List.mem_map] at ha
            obtain ⟨l, ⟨v, -, rfl⟩, h⟩ := ha
            simp only [List.mem_singleton] at h
            rw [h]; exact Ne.symm hj
      · rw [if_neg h]
        have hp := List.perm_insertionSort (fun x y => groupGain x ≥ groupGain y) (groupDeals B ch)
        refine (groupsOf_zip i j _ _ ?_).trans ?_
        · intro a ha
          have := hcn a ((flatten_perm hp).mem_iff.1 ha)
          rintro rfl; exact hi.1 this
        · by_cases hj : j = i
          · rw [if_pos hj, if_pos hj]
          · simp only [hj, if_false]
            exact (groupsOf_perm (flatten_perm hp)).subperm
    by_cases hjs : j ∈ nodes s
    · have hji : j ≠ i := by rintro rfl; exact hi.2 hjs
      have hjc : j ∉ nodes ch := fun h => hdis _ h _ hjs rfl
      simp only [hji, if_false] at hnode
      rw [groupsOf_eq_nil (l := (groupDeals B ch).flatten)] at hnode
      · rw [List.subperm_nil.1 hnode]
        exact ih2 hs j
      · intro a ha; have := hcn a ha; rintro rfl; exact hjc this
    · rw [groupsOf_eq_nil (l := (groupDeals B s).flatten), List.append_nil]
      · refine hnode.trans ?_
        by_cases hji : j = i
        · rw [if_pos hji, hji]
        · simp only [hji, if_false]; exact ih1 hch j
      · intro a ha; have := hsn a ha; rintro rfl; exact hjs this

theorem agentsOf_agents (i : ℕ) (d : GroupDeal) : agentsOf i (agents d) = (groupsOf i d).flatten := by
  induction d with
  | nil => rfl
  | cons a d ih =>
    obtain ⟨j, b⟩ := a
    have h1 : agents ((j, b) :: d) = b.map (fun v => (j, v)) ++ agents d := by simp [agents]
    rw [h1, agentsOf_append, ih]
    by_cases h : j = i
    · subst h
      have : agentsOf j (b.map (fun v => (j, v))) = b := by
        unfold agentsOf
        rw [List.filter_eq_self.2]
        · simp [Function.comp_def]
        · intro a ha; obtain ⟨v, -, rfl⟩ := List.mem_map.1 ha; simp
      rw [this]; simp [groupsOf]
    · rw [agentsOf_eq_nil]
      · simp [groupsOf, h]
      · intro a ha; obtain ⟨v, -, rfl⟩ := List.mem_map.1 ha; exact h

theorem agents_flatten (l : List GroupDeal) : (l.map agents).flatten = agents l.flatten := by
  induction l with
  | nil => rfl
  | cons d l ih => rw [List.map_cons, List.flatten_cons, ih, List.flatten_cons]; simp [agents]

theorem flatten_subperm {α : Type} {l l' : List (List α)} (h : l.Subperm l') : l.flatten.Subperm l'.flatten := by
  obtain ⟨w, hw, hs⟩ := h
  exact (flatten_perm hw).symm.subperm.trans (flatten_sublist hs).subperm

/-- Some of the code's deals, with their agents, are feasible. -/
theorem groupDeals_weighted {t : RecipeTree} {cnt : ℕ → ℕ} {vals : ℕ → List ℚ} (hn : (treeNodes t).Nodup)
    (hc : ∀ i ∈ treeNodes t, 0 < cnt i) {deals : List GroupDeal}
    (hd : deals.Sublist (groupDeals (fun i => groups (cnt i) (sortDesc (vals i))) t.forest)) :
    WeightedFeasible t cnt vals (deals.map agents) := by
  have hnode : nodes t.forest = treeNodes t := by simp [RecipeTree.forest, nodes, treeNodes]
  have hall := fun d h => groupDeals_path (fun i => groups (cnt i) (sortDesc (vals i))) t.forest d (hd.subset h)
  have hfeas := groupDeals_feasible (fun i => groups (cnt i) (sortDesc (vals i))) t.forest (by rw [hnode]; exact hn)
  constructor
  · intro d hd'
    obtain ⟨g, hg, rfl⟩ := List.mem_map.1 hd'
    obtain ⟨h1, h2⟩ := hall g hg
    refine ⟨g.map Prod.fst, h1, ?_⟩
    intro i
    have hnd : (g.map Prod.fst).Nodup := by
      have hsub := isPath_sublist h1
      rw [hnode] at hsub
      exact hsub.nodup hn
    have hsubn : ∀ a ∈ g, a.1 ∈ treeNodes t := by
      intro a ha
      rw [← hnode]; exact isPath_subset h1 _ (List.mem_map_of_mem ha)
    rw [agentsOf_agents]
    clear hg h1 hd'
    induction g with
    | nil => simp [groupsOf]
    | cons a g ih =>
      rw [List.map_cons, List.nodup_cons] at hnd
      have e := ih (fun a ha => h2 a (by simp [ha])) hnd.2 (fun a ha => hsubn a (by simp [ha]))
      by_cases hi : a.1 = i
      · subst hi
        rw [if_neg hnd.1] at e
        have hlen := groups_size (hc _ (hsubn a (by simp))) _ _ (h2 a (by simp))
        have : groupsOf a.1 (a :: g) = a.2 :: groupsOf a.1 g := by simp [groupsOf]
        rw [this, List.flatten_cons, List.length_append, e, hlen]
        simp
      · have : groupsOf i (a :: g) = groupsOf i g := by simp [groupsOf, hi]
        have hi' : ¬ i = a.1 := fun h => hi h.symm
        have hm : (i ∈ (a :: g).map Prod.fst) = (i ∈ g.map Prod.fst) := by
          rw [List.map_cons, List.mem_cons, eq_false hi', false_or]
        rw [this, e]
        simp only [hm]
  · intro i
    rw [agents_flatten, agentsOf_agents]
    refine (flatten_subperm ((groupsOf_sublist (flatten_sublist hd)).subperm.trans (hfeas i))).trans ?_
    by_cases hi : 0 < cnt i
    · exact (groups_flatten hi _).trans (sortDesc_perm _).subperm
    · have : cnt i = 0 := by omega
      rw [this, groups_zero]; exact List.nil_subperm

/-! ## The upper bound -/

/-- Splitting a list in parts as given. -/
theorem split_map {α β : Type} {g : α → β} {l : List α} {D : List (List β)} (h : l.map g = D.flatten) :
    ∃ W : List (List α), W.flatten = l ∧ W.map (List.map g) = D := by
  induction D generalizing l with
  | nil => exact ⟨[], by simpa using h.symm, rfl⟩
  | cons d D ih =>
    rw [List.flatten_cons, List.map_eq_append_iff] at h
    obtain ⟨l1, l2, rfl, h1, h2⟩ := h
    obtain ⟨W, hW, hD⟩ := ih h2
    exact ⟨l1 :: W, by simp [hW], by simp [h1, hD]⟩

/-- Agents for a list of categories, taken from the top of each. -/
theorem assign (B : ℕ → List ℚ) (l : List ℕ) (h : ∀ i, l.count i ≤ (B i).length) :
    ∃ A : List (ℕ × ℚ), A.map Prod.fst = l ∧ ∀ i, agentsOf i A = (B i).take (l.count i) := by
  induction l generalizing B with
  | nil => exact ⟨[], rfl, fun i => by simp [agentsOf]⟩
  | cons j l ih =>
    have hj := h j
    rw [List.count_cons_self] at hj
    obtain ⟨v, tl, hv⟩ : ∃ v tl, B j = v :: tl := by
      cases hB : B j with
      | nil => rw [hB] at hj; simp at hj
      | cons v tl => exact ⟨v, tl, rfl⟩
    obtain ⟨A, h1, h2⟩ := ih (Function.update B j tl) (by
      intro i
      by_cases hi : i = j
      · subst hi; rw [Function.update_self]; rw [hv] at hj; simpa using hj
      · rw [Function.update_of_ne hi]
        have := h i
        rwa [List.count_cons_of_ne (Ne.symm hi)] at this)
    refine ⟨(j, v) :: A, by simp [h1], ?_⟩
    intro i
    by_cases hi : i = j
    · subst hi
      have e := h2 i
      rw [Function.update_self] at e
      rw [List.count_cons_self, hv, List.take_succ_cons, ← e]
      simp [agentsOf]
    · have e := h2 i
      rw [Function.update_of_ne hi] at e
      rw [List.count_cons_of_ne (Ne.symm hi), ← e]
      simp [agentsOf, Ne.symm hi]

theorem sum_agentsOf (A : List (ℕ × ℚ)) (S : Finset ℕ) (h : ∀ a ∈ A, a.1 ∈ S) :
    (A.map Prod.snd).sum = ∑ i ∈ S, (agentsOf i A).sum := by
  induction A with
  | nil => simp [agentsOf]
  | cons a A ih =>
    rw [List.map_cons, List.sum_cons, ih (fun b hb => h b (by simp [hb]))]
    have : ∀ i ∈ S, (agentsOf i (a :: A)).sum = (if a.1 = i then a.2 else 0) + (agentsOf i A).sum := by
      intro i _
      by_cases hi : a.1 = i
      · simp [agentsOf, hi]
      · simp [agentsOf, hi]
    rw [Finset.sum_congr rfl this, Finset.sum_add_distrib, Finset.sum_ite_eq, if_pos (h a (by simp))]

theorem treeTotalGain_flatten (deals : List TreeDeal) : treeTotalGain deals = (deals.flatten.map Prod.snd).sum := by
  induction deals with
  | nil => rfl
  | cons d deals ih =>
    rw [List.flatten_cons, List.map_append, List.sum_append, ← ih]
    rfl

/-- Every feasible collection of deals with counts is matched by a feasible collection of deals of single agents, whose values are the sums of
the groups: as many deals, and no smaller gain. -/
theorem weighted_le {t : RecipeTree} {cnt : ℕ → ℕ} {vals : ℕ → List ℚ} (hn : (treeNodes t).Nodup)
    (hc : ∀ i ∈ treeNodes t, 0 < cnt i) {deals : List TreeDeal} (hd : WeightedFeasible t cnt vals deals) :
    ∃ D, FeasibleDeals t (fun i => (groups (cnt i) (sortDesc (vals i))).map List.sum) D ∧ D.length = deals.length ∧
      treeTotalGain deals ≤ treeTotalGain D := by
  obtain ⟨h1, h2⟩ := hd
  have hnode : nodes t.forest = treeNodes t := by simp [RecipeTree.forest, nodes, treeNodes]
  -- the paths
  obtain ⟨P, hP⟩ : ∃ P : List (List ℕ), List.Forall₂
      (fun d p => TreePath t p ∧ ∀ i, (agentsOf i d).length = if i ∈ p then cnt i else 0) deals P := by
    clear h2
    induction deals with
    | nil => exact ⟨[], List.Forall₂.nil⟩
    | cons d deals ih =>
      obtain ⟨p, hp⟩ := h1 d (by simp)
      obtain ⟨P, hP⟩ := ih (fun d hd => h1 d (by simp [hd]))
      exact ⟨p :: P, List.Forall₂.cons hp hP⟩
  have hpath : ∀ p ∈ P, TreePath t p := by
    intro p hp
    obtain ⟨k, hk, rfl⟩ := List.getElem_of_mem hp
    exact ((List.forall₂_iff_get.1 hP).2 k (by rw [hP.length_eq]; exact hk) hk).1
  have hload : ∀ i, (agentsOf i deals.flatten).length = cnt i * P.flatten.count i := by
    intro i
    clear h1 h2 hpath
    induction hP with
    | nil => simp [agentsOf]
    | @cons d p deals P hdp _ ih =>
      rw [List.flatten_cons, agentsOf_append, List.length_append, ih, hdp.2 i, List.flatten_cons, List.count_append]
      have hpn : p.Nodup := (isPath_sublist hdp.1).nodup (by rw [← hnode] at hn; exact hn)
      by_cases hi : i ∈ p
      · rw [if_pos hi, List.count_eq_one_of_mem hpn hi]; ring
      · rw [if_neg hi, List.count_eq_zero_of_not_mem hi]; ring
  have hin : ∀ i, i ∉ treeNodes t → P.flatten.count i = 0 := by
    intro i hi
    apply List.count_eq_zero_of_not_mem
    intro h
    obtain ⟨p, hp, hip⟩ := List.mem_flatten.1 h
    exact hi (by rw [← hnode]; exact isPath_subset (hpath p hp) i hip)
  have hcount : ∀ i ∈ treeNodes t, P.flatten.count i ≤ (sortDesc (vals i)).length / cnt i := by
    intro i hi
    rw [Nat.le_div_iff_mul_le (hc i hi), sortDesc_length, mul_comm, ← hload i]
    exact (h2 i).length_le
  obtain ⟨A, hA1, hA2⟩ := assign (fun i => (groups (cnt i) (sortDesc (vals i))).map List.sum) P.flatten (by
    intro i
    rw [List.length_map]
    by_cases hi : i ∈ treeNodes t
    · rw [groups_length (hc i hi)]
      exact hcount i hi
    · rw [hin i hi]; omega)
  obtain ⟨D, hD1, hD2⟩ := split_map hA1
  refine ⟨D, ⟨?_, ?_⟩, ?_, ?_⟩
  · intro d hd
    have : d.map Prod.fst ∈ P := by rw [← hD2]; exact List.mem_map_of_mem hd
    exact hpath _ this
  · intro i
    rw [hD1, hA2]
    exact (List.take_sublist _ _).subperm
  · have := congrArg List.length hD2
    rw [List.length_map] at this
    rw [this, hP.length_eq]
  · rw [treeTotalGain_flatten, treeTotalGain_flatten, hD1]
    have hS1 : ∀ a ∈ deals.flatten, a.1 ∈ (treeNodes t).toFinset := by
      intro a ha
      rw [List.mem_toFinset]
      by_contra hna
      have h0 : (agentsOf a.1 deals.flatten).length = 0 := by rw [hload, hin _ hna, mul_zero]
      have : a.2 ∈ agentsOf a.1 deals.flatten := List.mem_map.2 ⟨a, List.mem_filter.2 ⟨ha, by simp⟩, rfl⟩
      rw [List.length_eq_zero_iff.1 h0] at this
      simp at this
    have hS2 : ∀ a ∈ A, a.1 ∈ (treeNodes t).toFinset := by
      intro a ha
      rw [List.mem_toFinset]
      have : a.1 ∈ P.flatten := by rw [← hA1]; exact List.mem_map_of_mem ha
      obtain ⟨p, hp, hip⟩ := List.mem_flatten.1 this
      rw [← hnode]; exact isPath_subset (hpath p hp) _ hip
    rw [sum_agentsOf _ _ hS1, sum_agentsOf _ _ hS2]
    apply Finset.sum_le_sum
    intro i hi
    have hci := hc i (List.mem_toFinset.1 hi)
    rw [hA2 i, groups_sums_take hci _ _ (hcount i (List.mem_toFinset.1 hi)), ← hload i]
    exact sum_le_sum_take (sortDesc_sorted _) ((h2 i).trans (sortDesc_perm _).symm.subperm)

/-! ## Relation to trees without counts -/

/-- The sums of the code's combined values are the combined values of single agents with the group sums as values. -/
theorem combinedValues_sums {cnt : ℕ → ℕ} {vals : ℕ → List ℚ} {f : Forest} (hc : ∀ i ∈ nodes f, 0 < cnt i) :
    (combinedValues cnt vals f).map List.sum
      = f.combinedValues (fun i => (groups (cnt i) (sortDesc (vals i))).map List.sum) := by
  induction f with
  | nil => rfl
  | cons i ch s ih1 ih2 =>
    have hi := hc i (by simp [nodes])
    have e1 := ih1 (fun j hj => hc j (by simp [nodes, hj]))
    have e2 := ih2 (fun j hj => hc j (by simp [nodes, hj]))
    cases ch with
    | nil =>
      rw [combinedValues, combinedValues_cons, List.map_append, e2]
      simp only [sortBySumDesc_groups hi, nodeValues]
    | cons j c r =>
      rw [combinedValues, combinedValues_cons, List.map_append, e2]
      simp only [sortBySumDesc_groups hi, nodeValues]
      rw [← e1]
      congr 1
      have hsort : (sortBySumDesc (combinedValues cnt vals (Forest.cons j c r))).map List.sum
          = sortDesc ((combinedValues cnt vals (Forest.cons j c r)).map List.sum) := by
        unfold sortBySumDesc sortDesc
        rw [List.map_insertionSort (r := fun a b : List ℚ => a.sum ≥ b.sum) (s := (· ≥ ·))]
        intro a _ b _; exact Iff.rfl
      rw [← hsort, List.map_zipWith, List.zipWith_map]
      congr 1
      funext a b; simp

theorem numOfDeals_div (cnt size : ℕ → ℕ) (f : Forest) :
    numOfDeals cnt size f = f.numOfDeals (fun i => size i / cnt i) := by
  induction f with
  | nil => rfl
  | cons i ch s ih1 ih2 =>
    rw [numOfDeals_cons, nodeNum]
    cases ch with
    | nil => rw [numOfDeals, ih2]; simp
    | cons j c r => rw [numOfDeals, ih2]; simp [ih1]

end Auctions.IntegerTree
