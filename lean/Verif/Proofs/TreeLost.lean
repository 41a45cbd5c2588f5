import Verif.Proofs.TreeClearing
import Verif.Spec.LeafParents

set_option autoImplicit false

/-! # Helper lemmas: how many deals the recipe-tree auction loses -/

namespace Auctions

open Spec TreeAuction

/-! ## Lists -/

theorem le_countP_of_getElem {l : List ℚ} (hs : SortedDesc l) {j : ℕ} (hj : j < l.length) {q : ℚ} (hq : q ≤ l[j]) : j + 1 ≤ l.countP (fun x => q ≤ x) := by
  have h1 : (l.take (j + 1)).countP (fun x => decide (q ≤ x)) = (l.take (j + 1)).length := by
    rw [List.countP_eq_length]
    intro x hx
    obtain ⟨k, hk, rfl⟩ := List.getElem_of_mem hx
    rw [List.length_take] at hk
    rw [List.getElem_take, decide_eq_true_eq]
    have : l[k] ≥ l[j] := by apply hs.getElem_ge; omega
    linarith
  have h2 := (List.take_sublist (j + 1) l).countP_le (p := fun x => decide (q ≤ x))
  rw [h1, List.length_take] at h2
  omega

theorem zipWith_take_take {α β γ : Type} (g : α → β → γ) (l : List α) (l' : List β) (a b : ℕ) :
    List.zipWith g (l.take a) (l'.take b) = (List.zipWith g l l').take (min a b) := by
  induction l generalizing l' a b with
  | nil => simp
  | cons x l ih =>
    cases l' with
    | nil => simp
    | cons y l' =>
      cases a with
      | zero => simp
      | succ a =>
        cases b with
        | zero => simp
        | succ b =>
          rw [List.take_succ_cons, List.take_succ_cons, List.zipWith_cons_cons, ih, List.zipWith_cons_cons, Nat.succ_min_succ, List.take_succ_cons]

theorem sorted_zip {l l' : List ℚ} (h : SortedDesc l) (h' : SortedDesc l') : SortedDesc (List.zipWith (· + ·) l l') := by
  unfold SortedDesc
  rw [List.pairwise_iff_getElem]
  intro i j hi hj hij
  rw [List.length_zipWith] at hi hj
  rw [List.getElem_zipWith, List.getElem_zipWith]
  have h1 : l[i] ≥ l[j] := by apply h.getElem_ge; omega
  have h2 : l'[i] ≥ l'[j] := by apply h'.getElem_ge; omega
  linarith

/-- A list sorted downwards: the average of the first elements does not rise with their number. -/
theorem sum_take_pred {l : List ℚ} (hs : SortedDesc l) {k : ℕ} (hk : k < l.length) : (k : ℚ) * (l.take (k + 1)).sum ≤ (k + 1) * (l.take k).sum := by
  have h1 : (l.take (k + 1)).sum = (l.take k).sum + l[k] := by
    rw [List.take_succ_eq_append_getElem hk, List.sum_append]; simp
  have h2 : (k : ℚ) * l[k] ≤ (l.take k).sum := by
    have := List.card_nsmul_le_sum (l.take k) l[k] (by
      intro x hx
      obtain ⟨j, hj, rfl⟩ := List.getElem_of_mem hx
      rw [List.length_take] at hj
      rw [List.getElem_take]
      have : l[j] ≥ l[k] := by apply hs.getElem_ge; omega
      exact this)
    rw [List.length_take, Nat.min_eq_left hk.le, nsmul_eq_mul] at this
    exact this
  rw [h1]; linarith

/-- When agents and offers are put together, as many offers as pairs reach the level. -/
theorem zip_count_le {A Y : List ℚ} {R s : ℕ} {p q : ℚ} (hA : A.Pairwise (· > ·)) (hY : SortedDesc Y) (hsA : SplitAt A R p) (hsY : SplitAt Y s q)
    (hR : s < R → R = s + 1 ∧ q ∈ Y) : (List.zipWith (· + ·) A Y).countP (fun x => p + q ≤ x) ≤ Y.countP (fun x => q ≤ x) := by
  have hstrict := strict_zip hA hY
  have hft := filter_eq_take (g := id) (hstrict.imp (fun {a b} h => le_of_lt h)) (p + q)
  simp only [id] at hft
  have hs1 : s ≤ Y.countP (fun x => decide (q ≤ x)) := by
    rw [← splitAt_count hsY]
    exact countP_le_of (fun x hx => le_of_lt hx)
  generalize hK : (List.zipWith (· + ·) A Y).countP (fun x => decide (p + q ≤ x)) = K at *
  have hKlen : K ≤ (List.zipWith (· + ·) A Y).length := by rw [← hK]; exact List.countP_le_length
  rw [List.length_zipWith] at hKlen
  by_contra hlt
  push Not at hlt
  by_cases hKR : R ≤ K - 1
  · have hm : (List.zipWith (· + ·) A Y)[K - 1]'(by rw [List.length_zipWith]; omega) ∈ (List.zipWith (· + ·) A Y).take K := by
      rw [List.mem_take_iff_getElem]; exact ⟨K - 1, by rw [List.length_zipWith]; omega, rfl⟩
    rw [← hft, List.mem_filter] at hm
    have h1 := hm.2
    rw [decide_eq_true_eq, List.getElem_zipWith] at h1
    have h2 := hsA.rest (K - 1) (by omega) hKR
    have := le_countP_of_getElem hY (j := K - 1) (q := q) (by omega) (by linarith)
    omega
  · obtain ⟨e1, e2⟩ := hR (by omega)
    obtain ⟨h1, h2⟩ := splitAt_mem hY hsY e2
    have := le_countP_of_getElem hY (j := s) (q := q) h1 h2.ge
    omega

/-! ## Deals that are lost -/

open Classical in
/-- The number of groups of siblings with a leaf, the roots included. -/
noncomputable def leafGroups (f : Forest) : ℕ := (if HasLeaf f then 1 else 0) + leafParents f

theorem leafGroups_pos {f : Forest} (h : f ≠ .nil) : 1 ≤ leafGroups f := by
  induction f with
  | nil => exact absurd rfl h
  | cons i ch s ih1 _ =>
    unfold leafGroups
    by_cases hc : ch = .nil
    · rw [if_pos (show HasLeaf (.cons i ch s) from Or.inl hc)]; omega
    · have := ih1 hc
      unfold leafGroups at this
      rw [leafParents]
      omega

/-- One of the leaves among the roots has an agent of value `q`. -/
def LeafAt (V : ℕ → List ℚ) (q : ℚ) : Forest → Prop
  | .nil => False
  | .cons i ch s => (ch = .nil ∧ q ∈ V i) ∨ LeafAt V q s

theorem LeafAt.hasLeaf {V : ℕ → List ℚ} {q : ℚ} {f : Forest} (h : LeafAt V q f) : HasLeaf f := by
  induction f with
  | nil => exact h
  | cons i ch s _ ih => exact h.imp And.left ih

theorem LeafAt.mem {V : ℕ → List ℚ} {q : ℚ} {f : Forest} (h : LeafAt V q f) : q ∈ f.combinedValues V := by
  induction f with
  | nil => exact h.elim
  | cons i ch s _ ih =>
    rw [combinedValues_cons, List.mem_append]
    rcases h with ⟨rfl, h⟩ | h
    · exact Or.inl h
    · exact Or.inr (ih h)

section

variable {V W : ℕ → List ℚ} {R : ℕ → ℕ} {p : ℕ → ℚ} {M B : ℚ}

open Classical in
/-- The offers that reach the clock are at most those that the agents left can make, and one for each group with a leaf. -/
theorem lost_le (hB : 0 ≤ B) {f : Forest} {t q a κ : ℚ} (hd : Distinct V f)
    (hset : Setting V R p B f) (hl : Level p f q) (hcl : Clocked V R p M B f t q)
    (hcap : Capped B p κ f) (hta : t ≤ a) (hκ : B * (κ - 1) ≤ t + M) (ha : a + height f * B < 0) (hq : t < q)
    (hW : ∀ i ∈ nodes f, (W i).length = R i) :
    (f.combinedValues V).countP (fun x => q ≤ x) ≤ (f.combinedValues W).length + leafParents f + (if LeafAt V q f then 1 else 0) := by
  induction f generalizing t q a κ with
  | nil => simp [Forest.combinedValues]
  | cons i ch s ih1 ih2 =>
    have hh1 : (height ch : ℚ) + 1 ≤ height (.cons i ch s) := by rw [height]; exact_mod_cast le_max_left _ _
    have hh2 : (height s : ℚ) ≤ height (.cons i ch s) := by rw [height]; exact_mod_cast le_max_right _ _
    have h1 : (height ch : ℚ) * B + B ≤ height (.cons i ch s) * B := by nlinarith
    have h2 : (height s : ℚ) * B ≤ height (.cons i ch s) * B := mul_le_mul_of_nonneg_right hh2 hB
    have hsib := ih2 hd.2.2.1 hset.siblings hl.siblings hcl.2.2 hcap.2.2 hta hκ (by linarith) hq (fun j hj => hW j (by simp [nodes, hj]))
    have hWi := hW i (by simp [nodes])
    have hsp := hset.split i (by simp [nodes])
    have hns := node_split hB hset hl hcl hcap hta hκ ha hq (fun hc htc =>
      count_above hB hset.children hl.children hcl.2.1 hcap.2.1 (a := a + B) (by linarith) (by linarith) (by linarith) htc)
    have hstrict : (nodeValues V i ch).Pairwise (· > ·) := nodeValues_strict (hset.sorted i (by simp [nodes])) hd.1
    have hK := countP_le_succ hstrict hns
    rw [combinedValues_cons, List.countP_append, combinedValues_cons, List.length_append, leafParents]
    by_cases hc : ch = .nil
    · subst hc
      have hnl : ¬ HasLeaf .nil := id
      rw [if_neg hnl, leafParents]
      show _ ≤ (W i).length + _ + _ + _
      by_cases hqi : q ∈ V i
      · have hns2 : ¬ LeafAt V q s := fun hx => hd.2.2.2 q hqi hx.mem
        rw [if_neg hns2] at hsib
        rw [if_pos (show LeafAt V q (.cons i .nil s) from Or.inl ⟨rfl, hqi⟩)]
        omega
      · have heq : (nodeValues V i .nil).countP (fun x => decide (q ≤ x)) ≤ R i := by
          rw [← splitAt_count hns]
          apply le_of_eq
          apply List.countP_congr
          intro x hx
          simp only [decide_eq_true_eq]
          refine ⟨fun h => lt_of_le_of_ne h ?_, le_of_lt⟩
          rintro rfl
          exact hqi hx
        have : LeafAt V q (.cons i .nil s) ↔ LeafAt V q s := ⟨fun h => h.resolve_left (fun h => hqi h.2), Or.inr⟩
        simp only [this]
        omega
    · have hleaf : LeafAt V q (.cons i ch s) ↔ LeafAt V q s := ⟨fun h => h.resolve_left (fun h => hc h.1), Or.inr⟩
      simp only [hleaf]
      have hg := leafGroups_pos hc
      unfold leafGroups at hg
      have hWlen : (nodeValues W i ch).length = min (R i) (ch.combinedValues W).length := by
        rw [nodeValues_of_ne _ _ hc, List.length_zipWith, hWi, (sortDesc_perm _).length_eq]
      by_cases htc : t - B < q - p i
      · have hIH := ih1 hd.2.1 hset.children hl.children hcl.2.1 hcap.2.1 (a := a + B) (by linarith) (by linarith) (by linarith)
          htc (fun j hj => hW j (by simp [nodes, hj]))
        have hN := count_above hB hset.children hl.children hcl.2.1 hcap.2.1 (a := a + B) (by linarith) (by linarith) (by linarith) htc
        have hY : SplitAt (sortDesc (ch.combinedValues V)) (ch.rootSizes R) (q - p i) := by
          have := splitAt_of_sorted (sortDesc_sorted (ch.combinedValues V)) (q - p i)
          rwa [(sortDesc_perm _).countP_eq, hN] at this
        have hz := zip_count_le (strict_of_nodup (hset.sorted i (by simp [nodes])) hd.1) (sortDesc_sorted _) hsp hY
          (fun h => by obtain ⟨e1, e2⟩ := (hcl.1 hc).1 htc h; exact ⟨e1, mem_sortDesc.2 e2⟩)
        rw [show p i + (q - p i) = q by ring, (sortDesc_perm _).countP_eq, ← nodeValues_of_ne _ _ hc] at hz
        have hle : (if LeafAt V (q - p i) ch then 1 else 0) ≤ (if HasLeaf ch then 1 else 0) := by
          by_cases h : LeafAt V (q - p i) ch
          · rw [if_pos h, if_pos h.hasLeaf]
          · rw [if_neg h]; exact Nat.zero_le _
        omega
      · rw [node_low hB hc hset hl hcl hta ha hq htc]
        simp only [List.countP_nil]
        omega

theorem leafParents_cons (i : ℕ) (ch s : Forest) : leafParents (.cons i ch s) = leafGroups ch + leafParents s := by
  rw [leafParents, leafGroups]

theorem take_eq_filter {l : List ℚ} {c : ℕ} {q : ℚ} (h : SplitAt l c q) : l.take c = l.filter (fun x => q < x) := by
  induction l generalizing c with
  | nil => simp
  | cons a l ih =>
    cases c with
    | zero =>
      rw [List.take_zero, eq_comm, List.filter_eq_nil_iff]
      intro x hx
      obtain ⟨k, hk, rfl⟩ := List.getElem_of_mem hx
      simpa using h.rest k hk (Nat.zero_le _)
    | succ c =>
      have h0 := h.above 0 (by simp) (by omega)
      rw [List.take_succ_cons, List.filter_cons_of_pos (by simpa using h0), ih]
      refine ⟨by have := h.le; simpa using this, ?_, ?_⟩
      · intro k hk hkc; have := h.above (k + 1) (by simpa using hk) (by omega); simpa using this
      · intro k hk hkc; have := h.rest (k + 1) (by simpa using hk) (by omega); simpa using this

theorem sortDesc_filter (l : List ℚ) (q : ℚ) : sortDesc (l.filter (fun x => q < x)) = (sortDesc l).take (l.countP (fun x => q < x)) := by
  have h := splitAt_of_sorted (sortDesc_sorted l) q
  rw [(sortDesc_perm l).countP_eq] at h
  rw [take_eq_filter h]
  exact List.Perm.eq_of_pairwise (fun _ _ _ _ h1 h2 => le_antisymm h2 h1) (sortDesc_sorted _) ((sortDesc_sorted l).sublist List.filter_sublist)
    ((sortDesc_perm _).trans ((sortDesc_perm l).symm.filter _))

/-- If all roots are leaves, the agents left are the offers above the clock. -/
theorem flat_filter {f : Forest} {q : ℚ} (hflat : leafParents f = 0) (hset : Setting V R p B f) (hl : Level p f q)
    (hW : ∀ i ∈ nodes f, W i = (V i).take (R i)) : f.combinedValues W = (f.combinedValues V).filter (fun x => q < x) := by
  induction f with
  | nil => rfl
  | cons i ch s _ ih =>
    rw [leafParents_cons] at hflat
    have hc : ch = .nil := by
      by_contra hc
      have := leafGroups_pos hc
      omega
    subst hc
    rw [combinedValues_cons, combinedValues_cons, List.filter_append, ih (by omega) hset.siblings hl.siblings (fun j hj => hW j (by simp [nodes, hj]))]
    congr 1
    show W i = (V i).filter _
    rw [hW i (by simp [nodes]), take_eq_filter (hset.split i (by simp [nodes])), hl.leaf]

/-- With only one group with a leaf, the offers that the agents left can make are the best ones. -/
theorem top_offers {f : Forest} {q : ℚ} (hone : leafGroups f = 1) (hset : Setting V R p B f) (hl : Level p f q)
    (hW : ∀ i ∈ nodes f, W i = (V i).take (R i)) : ∃ n, sortDesc (f.combinedValues W) = (sortDesc (f.combinedValues V)).take n := by
  induction f generalizing q with
  | nil => exact ⟨0, rfl⟩
  | cons i ch s ih1 _ =>
    by_cases hleaf : HasLeaf (.cons i ch s)
    · rw [leafGroups, if_pos hleaf] at hone
      rw [flat_filter (by omega) hset hl hW]
      exact ⟨_, sortDesc_filter _ _⟩
    · have hc : ch ≠ .nil := fun h => hleaf (Or.inl h)
      have hg := leafGroups_pos hc
      rw [leafGroups, if_neg hleaf, leafParents_cons] at hone
      have hs : s = .nil := by
        by_contra hs
        have h1 := leafGroups_pos hs
        rw [leafGroups, if_neg (fun h => hleaf (Or.inr h))] at h1
        omega
      subst hs
      obtain ⟨n, hn⟩ := ih1 (by omega) hset.children hl.children (fun j hj => hW j (by simp [nodes, hj]))
      have hsort := hset.sorted i (by simp [nodes])
      have hnil : ∀ U : ℕ → List ℚ, (Forest.nil).combinedValues U = [] := fun _ => rfl
      have hzip : SortedDesc (nodeValues V i ch) := by
        rw [nodeValues_of_ne _ _ hc]
        exact sorted_zip hsort (sortDesc_sorted _)
      rw [combinedValues_cons, combinedValues_cons, hnil, hnil, List.append_nil, List.append_nil]
      refine ⟨min (R i) n, ?_⟩
      have hVs : sortDesc (nodeValues V i ch) = nodeValues V i ch := sortDesc_of_sorted hzip
      have hWe : nodeValues W i ch = (nodeValues V i ch).take (min (R i) n) := by
        rw [nodeValues_of_ne _ _ hc, nodeValues_of_ne _ _ hc, hn, hW i (by simp [nodes]), zipWith_take_take]
      rw [hVs, hWe]
      exact sortDesc_of_sorted (hzip.sublist (List.take_sublist _ _))

end

end Auctions
