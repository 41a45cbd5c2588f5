import Verif.Proofs.Tree
import Verif.Proofs.IntegerTree
import Mathlib.Data.Finset.Card

set_option autoImplicit false

/-! # Helper lemmas: dropping one deal per path, and replacing agents by better ones -/

namespace Auctions

open Spec

/-! ## Assigning agents to paths -/

/-- Give every path in turn the best unused agent of each of its categories. -/
def assign : List (List ℕ) → (ℕ → List ℚ) → List TreeDeal
  | [], _ => []
  | p :: ps, W => p.map (fun x => (x, (W x).headD 0)) :: assign ps (fun x => if x ∈ p then (W x).tail else W x)

theorem assign_paths (ps : List (List ℕ)) (W : ℕ → List ℚ) : (assign ps W).map (List.map Prod.fst) = ps := by
  induction ps generalizing W with
  | nil => rfl
  | cons p ps ih => simp [assign, ih, Function.comp_def]

theorem agentsOf_path {p : List ℕ} (hp : p.Nodup) (g : ℕ → ℚ) (x : ℕ) :
    agentsOf x (p.map (fun y => (y, g y))) = if x ∈ p then [g x] else [] := by
  induction p with
  | nil => simp [agentsOf]
  | cons a p ih =>
    rw [List.nodup_cons] at hp
    have hcons : agentsOf x ((a :: p).map (fun y => (y, g y))) = (if a = x then [g a] else []) ++ agentsOf x (p.map (fun y => (y, g y))) := by
      by_cases h : a = x <;> simp [agentsOf, h]
    rw [hcons, ih hp.2]
    by_cases h : a = x
    · subst h; simp [hp.1]
    · have : x ≠ a := fun e => h e.symm
      simp [h, this]

theorem assign_agents {ps : List (List ℕ)} (hp : ∀ p ∈ ps, p.Nodup) {W : ℕ → List ℚ} (h : ∀ x, ps.flatten.count x ≤ (W x).length) (x : ℕ) :
    agentsOf x (assign ps W).flatten = (W x).take (ps.flatten.count x) := by
  induction ps generalizing W with
  | nil => simp [assign, agentsOf]
  | cons p ps ih =>
    have hcount : ∀ y, (p :: ps).flatten.count y = (if y ∈ p then 1 else 0) + ps.flatten.count y := by
      intro y
      rw [List.flatten_cons, List.count_append]
      congr 1
      by_cases hy : y ∈ p
      · rw [if_pos hy, List.count_eq_one_of_mem (hp p (by simp)) hy]
      · rw [if_neg hy, List.count_eq_zero_of_not_mem hy]
    rw [assign, List.flatten_cons, agentsOf_append, agentsOf_path (hp p (by simp)), ih (fun q hq => hp q (by simp [hq]))]
    · rw [hcount]
      have hx := h x
      rw [hcount] at hx
      by_cases hxp : x ∈ p
      · rw [if_pos hxp, if_pos hxp, if_pos hxp]
        rw [if_pos hxp] at hx
        cases hW : W x with
        | nil => rw [hW] at hx; simp at hx
        | cons a l =>
          rw [List.headD_cons, List.tail_cons, Nat.add_comm, List.take_succ_cons]
          rfl
      · rw [if_neg hxp, if_neg hxp, if_neg hxp]; simp
    · intro y
      have hy := h y
      rw [hcount] at hy
      by_cases hyp : y ∈ p
      · rw [if_pos hyp] at hy ⊢
        rw [List.length_tail]; omega
      · rw [if_neg hyp] at hy ⊢
        omega

theorem agentsOf_length (x : ℕ) (E : List TreeDeal) : (agentsOf x E.flatten).length = (E.map (List.map Prod.fst)).flatten.count x := by
  have key : ∀ l : List (ℕ × ℚ), (agentsOf x l).length = (l.map Prod.fst).count x := by
    intro l
    induction l with
    | nil => rfl
    | cons a l ih =>
      by_cases h : a.1 = x
      · simp only [agentsOf] at ih; simp [agentsOf, h, ih]
      · simp only [agentsOf] at ih; simp [agentsOf, h, ih]
  rw [key, List.map_flatten]

/-- Deals that use at most as many agents as a better supply has can be replaced by deals of that supply with at least the same gain. -/
theorem replace_deals {f : Forest} (hn : (nodes f).Nodup) {V W : ℕ → List ℚ} (hs : ∀ x ∈ nodes f, SortedDesc (V x))
    (hW : ∀ x ∈ nodes f, ∃ r, W x = (V x).take r) {E : List TreeDeal} (hE : TreeFeasible f V E)
    (hlen : ∀ x ∈ nodes f, (agentsOf x E.flatten).length ≤ (W x).length) :
    ∃ E', TreeFeasible f W E' ∧ E'.length = E.length ∧ treeTotalGain E ≤ treeTotalGain E' := by
  have hnodes := deals_nodes hE.1
  have hpn : ∀ p ∈ E.map (List.map Prod.fst), p.Nodup := by
    intro p hp
    obtain ⟨d, hd, rfl⟩ := List.mem_map.1 hp
    refine List.Nodup.sublist ?_ hn
    have := hE.1 d hd
    clear hd hp hnodes hlen hE hW hs hn
    generalize d.map Prod.fst = p at *
    induction f generalizing p with
    | nil => exact absurd this isPath_nil
    | cons i ch s ih1 ih2 =>
      rw [isPath_cons] at this
      rw [nodes]
      rcases this with ⟨-, rfl⟩ | ⟨q, rfl, h⟩ | h
      · exact (List.nil_sublist _).cons_cons i
      · exact ((ih1 q h).trans (List.sublist_append_left _ _)).cons_cons i
      · exact ((ih2 p h).trans (List.sublist_append_right _ _)).cons i
  have hc : ∀ x, (E.map (List.map Prod.fst)).flatten.count x ≤ (W x).length := by
    intro x
    rw [← agentsOf_length]
    by_cases hx : x ∈ nodes f
    · exact hlen x hx
    · rw [agentsOf_eq_nil]
      · simp
      · intro a ha; have := hnodes a ha; rintro rfl; exact hx this
  have hag := assign_agents hpn hc
  have hpaths := assign_paths (E.map (List.map Prod.fst)) W
  generalize assign (E.map (List.map Prod.fst)) W = E' at *
  have hl : E'.length = E.length := by
    have := congrArg List.length hpaths
    simpa using this
  have hE'1 : ∀ d ∈ E', IsPath f (d.map Prod.fst) := by
    intro d hd
    have : d.map Prod.fst ∈ E.map (List.map Prod.fst) := by rw [← hpaths]; exact List.mem_map_of_mem hd
    obtain ⟨e, he, hee⟩ := List.mem_map.1 this
    rw [← hee]; exact hE.1 e he
  refine ⟨E', ⟨hE'1, ?_⟩, hl, ?_⟩
  · intro x
    rw [hag]; exact (List.take_sublist _ _).subperm
  · rw [IntegerTree.treeTotalGain_flatten, IntegerTree.treeTotalGain_flatten,
      IntegerTree.sum_agentsOf _ (nodes f).toFinset (fun a ha => List.mem_toFinset.2 (hnodes a ha)),
      IntegerTree.sum_agentsOf _ (nodes f).toFinset (fun a ha => List.mem_toFinset.2 (deals_nodes hE'1 a ha))]
    apply Finset.sum_le_sum
    intro x hx
    rw [List.mem_toFinset] at hx
    rw [hag, ← agentsOf_length]
    obtain ⟨r, hr⟩ := hW x hx
    have h1 := sum_le_sum_take (hs x hx) (hE.2 x)
    have h2 := hlen x hx
    rw [hr, List.length_take] at h2
    rw [hr, List.take_take, min_eq_left (by omega)]
    exact h1

/-! ## Dropping the worst deal of every path -/

theorem sum_ge_length_mul {l : List ℚ} {b : ℚ} (h : ∀ x ∈ l, b ≤ x) : l.length * b ≤ l.sum := by
  induction l with
  | nil => simp
  | cons a l ih =>
    have h1 := h a (by simp)
    have h2 := ih (fun x hx => h x (by simp [hx]))
    rw [List.sum_cons, List.length_cons]; push_cast; linarith

theorem agentsOf_same_path {p : List ℕ} {x : ℕ} (hx : x ∈ p) {l : List TreeDeal} (h : ∀ d ∈ l, d.map Prod.fst = p) (hp : p.Nodup) :
    (agentsOf x l.flatten).length = l.length := by
  rw [agentsOf_length]
  induction l with
  | nil => rfl
  | cons d l ih =>
    rw [List.map_cons, List.flatten_cons, List.count_append, ih (fun e he => h e (by simp [he])), h d (by simp),
      List.count_eq_one_of_mem hp hx, List.length_cons]
    omega

/-- From deals sorted by their gain, drop the worst one of every path. -/
theorem drop_worst (k : ℕ) (n : ℕ) {l : List TreeDeal} (hlen : l.length = n) (hs : l.Pairwise (fun a b => treeGain b ≤ treeGain a))
    (hnn : ∀ d ∈ l, 0 ≤ treeGain d) (hk : ∀ d ∈ l, k ≤ dealsOnPath l d) (hp : ∀ d ∈ l, (d.map Prod.fst).Nodup) :
    ∃ E : List TreeDeal, E.Subperm l ∧ (∀ x, (agentsOf x l.flatten).length ≠ 0 → (agentsOf x E.flatten).length + 1 ≤ (agentsOf x l.flatten).length) ∧
      ((k : ℚ) - 1) * treeTotalGain l ≤ k * treeTotalGain E ∧
      l.length ≤ E.length + (l.map (List.map Prod.fst)).toFinset.card := by
  induction n using Nat.strong_induction_on generalizing l with
  | _ n ih =>
    cases hl : l with
    | nil => exact ⟨[], by simp, by simp [agentsOf], by simp [treeTotalGain], by simp⟩
    | cons d0 l0 =>
      rw [← hl]
      have hd0 : d0 ∈ l := by rw [hl]; simp
      let on : TreeDeal → Bool := fun d => d.map Prod.fst = d0.map Prod.fst
      have hperm : (l.filter on ++ l.filter (fun d => ! on d)).Perm l := List.filter_append_perm on l
      have hl1 : d0 ∈ l.filter on := by simp [hd0, on]
      have hlt : (l.filter (fun d => ! on d)).length < n := by
        have h1 := hperm.length_eq
        have h2 := List.length_pos_of_mem hl1
        rw [List.length_append] at h1
        omega
      have hdp : ∀ d ∈ l.filter (fun d => ! on d), dealsOnPath (l.filter (fun d => ! on d)) d = dealsOnPath l d := by
        intro d hd
        unfold dealsOnPath
        rw [List.filter_filter]
        congr 1
        apply List.filter_congr
        intro e _
        have hne : ¬ d.map Prod.fst = d0.map Prod.fst := by simpa [on] using (List.mem_filter.1 hd).2
        by_cases he : e.map Prod.fst = d.map Prod.fst
        · simp [on, he, hne]
        · simp [he]
      obtain ⟨E2, e1, e2, e3, e4⟩ := ih _ hlt (l := l.filter (fun d => ! on d)) rfl (hs.sublist List.filter_sublist)
        (fun d hd => hnn d (List.mem_of_mem_filter hd)) (fun d hd => by rw [hdp d hd]; exact hk d (List.mem_of_mem_filter hd))
        (fun d hd => hp d (List.mem_of_mem_filter hd))
      have hon : ∀ d ∈ l.filter on, d.map Prod.fst = d0.map Prod.fst := by
        intro d hd; simpa [on] using (List.mem_filter.1 hd).2
      have hk1 : k ≤ (l.filter on).length := hk d0 hd0
      have hsort1 : (l.filter on).Pairwise (fun a b => treeGain b ≤ treeGain a) := hs.sublist List.filter_sublist
      have hnn1 : ∀ d ∈ l.filter on, 0 ≤ treeGain d := fun d hd => hnn d (List.mem_of_mem_filter hd)
      have hagl : ∀ x, (agentsOf x l.flatten).length
          = (agentsOf x (l.filter on).flatten).length + (agentsOf x (l.filter (fun d => ! on d)).flatten).length := by
        intro x
        rw [← (agentsOf_perm (flatten_perm hperm)).length_eq, List.flatten_append, agentsOf_append, List.length_append]
      have hgl : treeTotalGain l = treeTotalGain (l.filter on) + treeTotalGain (l.filter (fun d => ! on d)) := by
        rw [← treeTotalGain_perm hperm]; simp [treeTotalGain]
      have hcard : (l.map (List.map Prod.fst)).toFinset.card = ((l.filter (fun d => ! on d)).map (List.map Prod.fst)).toFinset.card + 1 := by
        have hset : (l.map (List.map Prod.fst)).toFinset
            = insert (d0.map Prod.fst) ((l.filter (fun d => ! on d)).map (List.map Prod.fst)).toFinset := by
          ext p
          simp only [List.mem_toFinset, List.mem_map, Finset.mem_insert]
          constructor
          · rintro ⟨d, hd, rfl⟩
            by_cases h : d.map Prod.fst = d0.map Prod.fst
            · exact Or.inl h
            · exact Or.inr ⟨d, List.mem_filter.2 ⟨hd, by simp [on, h]⟩, rfl⟩
          · rintro (rfl | ⟨d, hd, rfl⟩)
            · exact ⟨d0, hd0, rfl⟩
            · exact ⟨d, List.mem_of_mem_filter hd, rfl⟩
        rw [hset, Finset.card_insert_of_notMem]
        rw [List.mem_toFinset]
        intro h
        obtain ⟨d, hd, hde⟩ := List.mem_map.1 h
        have : ¬ d.map Prod.fst = d0.map Prod.fst := by simpa [on] using (List.mem_filter.1 hd).2
        exact this hde
      have hlen2 := hperm.length_eq
      rw [List.length_append] at hlen2
      generalize l.filter on = l1 at *
      generalize l.filter (fun d => ! on d) = l2 at *
      have hne : l1 ≠ [] := List.ne_nil_of_mem hl1
      -- the first group loses its last deal
      obtain ⟨l1', w, rfl⟩ : ∃ l1' w, l1 = l1' ++ [w] := ⟨l1.dropLast, l1.getLast hne, (List.dropLast_append_getLast hne).symm⟩
      have hw : ∀ d ∈ l1', treeGain w ≤ treeGain d := by
        intro d hd
        exact (List.pairwise_append.1 hsort1).2.2 d hd w (by simp)
      have hw0 := hnn1 w (by simp)
      refine ⟨l1' ++ E2, ?_, ?_, ?_, ?_⟩
      · refine (List.Subperm.append ?_ e1).trans hperm.subperm
        exact (List.sublist_append_left _ _).subperm
      · intro x hx
        rw [List.flatten_append, agentsOf_append, List.length_append, hagl x]
        rw [hagl x] at hx
        have hE2 : (agentsOf x E2.flatten).length ≤ (agentsOf x l2.flatten).length := by
          by_cases h0 : (agentsOf x l2.flatten).length = 0
          · obtain ⟨w2, hw2, hsub⟩ := e1
            have h1 := (agentsOf_perm (i := x) (flatten_perm hw2)).length_eq
            have h2 := (agentsOf_sublist (i := x) (flatten_sublist hsub)).length_le
            omega
          · have := e2 x h0; omega
        by_cases hxp : x ∈ d0.map Prod.fst
        · have h1 := agentsOf_same_path hxp hon (hp d0 hd0)
          have h2 := agentsOf_same_path hxp (l := l1') (fun d hd => hon d (by simp [hd])) (hp d0 hd0)
          rw [h1, h2, List.length_append, List.length_singleton]
          omega
        · have h1 : ∀ l' : List TreeDeal, (∀ d ∈ l', d.map Prod.fst = d0.map Prod.fst) → agentsOf x l'.flatten = [] := by
            intro l' hl'
            apply agentsOf_eq_nil
            intro a ha
            obtain ⟨d, hd, had⟩ := List.mem_flatten.1 ha
            rintro rfl
            exact hxp (by rw [← hl' d hd]; exact List.mem_map_of_mem had)
          rw [h1 l1' (fun d hd => hon d (by simp [hd])), h1 _ hon] at *
          simp only [List.length_nil, zero_add] at hx ⊢
          exact e2 x hx
      · have hg1 : treeTotalGain (l1' ++ [w]) = treeTotalGain l1' + treeGain w := by simp [treeTotalGain]
        have hg2 : treeTotalGain (l1' ++ E2) = treeTotalGain l1' + treeTotalGain E2 := by simp [treeTotalGain]
        have h1 : (l1'.length : ℚ) * treeGain w ≤ treeTotalGain l1' := by
          have := sum_ge_length_mul (l := l1'.map treeGain) (b := treeGain w) (by
            intro y hy
            obtain ⟨d, hd, rfl⟩ := List.mem_map.1 hy
            exact hw d hd)
          simpa [treeTotalGain] using this
        have h2 : (k : ℚ) ≤ l1'.length + 1 := by
          rw [List.length_append, List.length_singleton] at hk1
          exact_mod_cast hk1
        have h3 : (k : ℚ) * treeGain w ≤ (l1'.length + 1) * treeGain w := mul_le_mul_of_nonneg_right h2 hw0
        rw [hgl, hg1, hg2]
        nlinarith
      · rw [List.length_append, hcard]
        rw [List.length_append, List.length_singleton] at hlen2
        omega

end Auctions
