import Verif.Proofs.TreePrices
import Verif.Spec.Siblings

set_option autoImplicit false

/-! # Helper lemmas: termination of the tree auction -/

namespace Auctions

open Spec TreeAuction

/-- Sum of prices along a list of nodes. -/
def psum (p : ℕ → ℚ) (l : List ℕ) : ℚ := (l.map p).sum

theorem psum_cons (p : ℕ → ℚ) (i : ℕ) (l : List ℕ) : psum p (i :: l) = p i + psum p l := by simp [psum]

theorem psum_congr {p q : ℕ → ℚ} {l : List ℕ} (h : ∀ i ∈ l, p i = q i) : psum p l = psum q l := by
  unfold psum; congr 1; exact List.map_congr_left h

theorem psum_ge {p : ℕ → ℚ} {l : List ℕ} {b : ℚ} (h : ∀ i ∈ l, b ≤ p i) : b * l.length ≤ psum p l := by
  induction l with
  | nil => simp [psum]
  | cons i l ih =>
    have h1 := ih (fun j hj => h j (by simp [hj]))
    have h2 := h i (by simp)
    rw [psum_cons, List.length_cons]; push_cast; linarith

/-- For every node at depth `d` below a forest with budget `h`, the paths below it sum to at most `V * (h - d)`. -/
def Capped (V : ℚ) (p : ℕ → ℚ) : ℚ → Forest → Prop
  | _, .nil => True
  | h, .cons _ ch s => (∀ q, IsPath ch q → psum p q ≤ V * (h - 1)) ∧ Capped V p (h - 1) ch ∧ Capped V p h s

theorem capped_congr {V : ℚ} {p p' : ℕ → ℚ} {f : Forest} {h : ℚ} (hc : ∀ j ∈ nodes f, p' j = p j) (hf : Capped V p h f) :
    Capped V p' h f := by
  induction f generalizing h with
  | nil => trivial
  | cons i ch s ih1 ih2 =>
    obtain ⟨h1, h2, h3⟩ := hf
    refine ⟨fun q hq => ?_, ih1 (fun j hj => hc j (by simp [nodes, hj])) h2, ih2 (fun j hj => hc j (by simp [nodes, hj])) h3⟩
    rw [psum_congr (q := p)]
    · exact h1 q hq
    · intro j hj; exact hc j (by simp [nodes, isPath_subset hq j hj])

/-- All paths have the same sum. -/
def Even (p : ℕ → ℚ) (f : Forest) : Prop := ∀ q q', IsPath f q → IsPath f q' → psum p q = psum p q'

theorem Even.children {p : ℕ → ℚ} {i : ℕ} {ch s : Forest} (h : Even p (.cons i ch s)) : Even p ch := by
  intro q q' hq hq'
  have := h (i :: q) (i :: q') (isPath_cons.2 (Or.inr (Or.inl ⟨q, rfl, hq⟩))) (isPath_cons.2 (Or.inr (Or.inl ⟨q', rfl, hq'⟩)))
  rw [psum_cons, psum_cons] at this
  linarith

theorem Even.siblings {p : ℕ → ℚ} {i : ℕ} {ch s : Forest} (h : Even p (.cons i ch s)) : Even p s := by
  intro q q' hq hq'
  exact h q q' (isPath_cons.2 (Or.inr (Or.inr hq))) (isPath_cons.2 (Or.inr (Or.inr hq')))

/-- The caps stay valid when the prices of the chosen categories are raised, as long as categories that have agents stay within `V`. -/
theorem capped_step {V : ℚ} (hV : 0 ≤ V) {size : ℕ → ℕ} {p p' : ℕ → ℚ} {f : Forest} {h : ℚ} (hn : (nodes f).Nodup)
    (hh : (height f : ℚ) ≤ h) (hc : Capped V p h f) (he : Even p' f)
    (hp : ∀ j ∈ nodes f, j ∉ (f.largestCategories size).2.2 → p' j = p j)
    (hr : ∀ j ∈ nodes f, size j ≠ 0 → p' j ≤ V) :
    Capped V p' h f ∧ (f.rootSizes size ≠ 0 → ∃ q, IsPath f q ∧ psum p' q ≤ V * h) := by
  induction f generalizing h with
  | nil => exact ⟨trivial, fun h => absurd rfl h⟩
  | cons i ch s ih1 ih2 =>
    rw [nodes, List.nodup_cons, List.mem_append, List.nodup_append] at hn
    obtain ⟨hi, hch, hs, hdis⟩ := hn
    push Not at hi
    obtain ⟨c1, c2, c3⟩ := hc
    rw [height] at hh
    have hh1 : (height ch : ℚ) + 1 ≤ h := le_trans (by exact_mod_cast le_max_left _ _) hh
    have hh2 : (height s : ℚ) ≤ h := le_trans (by exact_mod_cast le_max_right _ _) hh
    have hmemL : ∀ j ∈ nodes ch, j ∉ nodeLargest size i ch → p' j = p j := by
      intro j hj hjl
      refine hp j (by simp [nodes, hj]) ?_
      rw [largest_cons, List.mem_append]
      rintro (h | h)
      · exact hjl h
      · exact hdis j hj j (largest_subset size s j h) rfl
    have hnode : (∀ q, IsPath ch q → psum p' q ≤ V * (h - 1)) ∧ Capped V p' (h - 1) ch := by
      by_cases hcut : size i > ch.rootSizes size ∨ ch.rootSizes size = 0
      · have hsame : ∀ j ∈ nodes ch, p' j = p j := by
          intro j hj
          apply hmemL j hj
          rw [nodeLargest, if_pos hcut, List.mem_singleton]
          rintro rfl; exact hi.1 hj
        refine ⟨fun q hq => ?_, capped_congr hsame c2⟩
        rw [psum_congr (q := p) (fun j hj => hsame j (isPath_subset hq j hj))]
        exact c1 q hq
      · have hrec := ih1 hch (h := h - 1) (by linarith) c2 he.children
          (by
            intro j hj hjl
            apply hmemL j hj
            rw [nodeLargest, if_neg hcut]; exact hjl)
          (fun j hj hsz => hr j (by simp [nodes, hj]) hsz)
        push Not at hcut
        obtain ⟨q0, hq0, hle⟩ := hrec.2 hcut.2
        exact ⟨fun q hq => (he.children q q0 hq hq0).trans_le hle, hrec.1⟩
    have hrest := ih2 hs hh2 c3 he.siblings
      (by
        intro j hj hjl
        refine hp j (by simp [nodes, hj]) ?_
        rw [largest_cons, List.mem_append]
        rintro (h | h)
        · rcases nodeLargest_subset size i ch j h with rfl | h
          · exact hi.2 hj
          · exact hdis j h j hj rfl
        · exact hjl h)
      (fun j hj hsz => hr j (by simp [nodes, hj]) hsz)
    refine ⟨⟨hnode.1, hnode.2, hrest.1⟩, ?_⟩
    intro hpos
    by_cases hsz : size i = 0
    · obtain ⟨q, hq, hle⟩ := hrest.2 (by rw [Forest.rootSizes, hsz] at hpos; simpa using hpos)
      exact ⟨q, isPath_cons.2 (Or.inr (Or.inr hq)), hle⟩
    · have hpi := hr i (by simp [nodes]) hsz
      by_cases hcn : ch = .nil
      · refine ⟨[i], isPath_cons.2 (Or.inl ⟨hcn, rfl⟩), ?_⟩
        have : psum p' [i] = p' i := by simp [psum]
        rw [this]
        have : (0 : ℚ) ≤ height ch := by positivity
        nlinarith
      · obtain ⟨q, hq⟩ := exists_path hcn
        refine ⟨i :: q, isPath_cons.2 (Or.inr (Or.inl ⟨q, rfl, hq⟩)), ?_⟩
        rw [psum_cons]
        have := hnode.1 q hq
        linarith

/-- Nodes that are empty have only empty children (for the nodes in `G`). -/
def Hereditary (G : ℕ → Prop) (size : ℕ → ℕ) (f : Forest) : Prop :=
  ∀ i ch, IsNode f i ch → G i → size i = 0 → ch.rootSizes size = 0

theorem hereditary_below {G : ℕ → Prop} {size : ℕ → ℕ} {f : Forest} (h : Hereditary G size f) (hG : ∀ j ∈ nodes f, G j)
    (h0 : f.rootSizes size = 0) : ∀ j ∈ nodes f, size j = 0 := by
  induction f with
  | nil => simp [nodes]
  | cons i ch s ih1 ih2 =>
    rw [Forest.rootSizes] at h0
    intro j hj
    rw [nodes, List.mem_cons, List.mem_append] at hj
    rcases hj with rfl | hj | hj
    · omega
    · refine ih1 (fun a b hab => h a b (.down hab)) (fun k hk => hG k (by simp [nodes, hk])) ?_ j hj
      exact h i ch (.here i ch s) (hG i (by simp [nodes])) (by omega)
    · exact ih2 (fun a b hab => h a b (.next hab)) (fun k hk => hG k (by simp [nodes, hk])) (by omega) j hj

theorem rootSizes_single {size : ℕ → ℕ} {f : Forest} (h : (trees f).length ≤ 1) {i : ℕ} {ch : Forest} (hi : (i, ch) ∈ trees f) :
    f.rootSizes size = size i := by
  cases f with
  | nil => simp [trees] at hi
  | cons a b c =>
    cases c with
    | nil => simp only [trees, List.mem_singleton, Prod.mk.injEq] at hi; simp [Forest.rootSizes, hi.1]
    | cons _ _ _ => simp [trees] at h

/-- A chosen category without agents cannot have reached `MAX_VALUE`. -/
theorem chosen_below_max {V M : ℚ} (hV : 0 ≤ V) {G : ℕ → Prop} {size : ℕ → ℕ} {p : ℕ → ℚ} {f : Forest} {h : ℚ} (hn : (nodes f).Nodup)
    (hh : (height f : ℚ) ≤ h) (hM : V * (2 * h - 1) < M) (hc : Capped V p h f) (hb : ∀ q, IsPath f q → psum p q ≤ V * h)
    (her : Hereditary G size f) (hG : ∀ j, G j → size j = 0 → -V ≤ p j)
    (hroots : ∀ c ∈ trees f, size c.1 = 0 → c.2 = .nil ∨ ∀ k ∈ c.1 :: nodes c.2, G k)
    (hsib : ∀ i ch, IsNode f i ch → 2 ≤ (trees ch).length → ∀ c ∈ trees ch, c.2 = .nil ∨ ∀ k ∈ c.1 :: nodes c.2, G k)
    {i : ℕ} (hi : i ∈ (f.largestCategories size).2.2) (h0 : size i = 0) : p i < M := by
  induction f generalizing h with
  | nil => simp [Forest.largestCategories] at hi
  | cons a ch s ih1 ih2 =>
    rw [nodes, List.nodup_cons, List.mem_append, List.nodup_append] at hn
    obtain ⟨ha, hch, hs, hdis⟩ := hn
    obtain ⟨c1, c2, c3⟩ := hc
    rw [height] at hh
    have hh1 : (height ch : ℚ) + 1 ≤ h := le_trans (by exact_mod_cast le_max_left _ _) hh
    have hh2 : (height s : ℚ) ≤ h := le_trans (by exact_mod_cast le_max_right _ _) hh
    rw [largest_cons, List.mem_append] at hi
    rcases hi with hi | hi
    · rw [nodeLargest] at hi
      split at hi
      · rename_i hcut
        rw [List.mem_singleton] at hi
        subst hi
        have hz : ch.rootSizes size = 0 := by omega
        by_cases hcn : ch = .nil
        · have := hb [i] (isPath_cons.2 (Or.inl ⟨hcn, rfl⟩))
          have e : psum p [i] = p i := by simp [psum]
          rw [e] at this
          have : (0 : ℚ) ≤ height ch := by positivity
          nlinarith
        · obtain hl | hG' := hroots (i, ch) (by simp [trees]) h0
          · exact absurd hl hcn
          · have hall := hereditary_below (fun a b hab => her a b (.down hab)) (fun j hj => hG' j (by simp [hj])) hz
            obtain ⟨q, hq⟩ := exists_path hcn
            have h1 := hb (i :: q) (isPath_cons.2 (Or.inr (Or.inl ⟨q, rfl, hq⟩)))
            rw [psum_cons] at h1
            have h2 := psum_ge (p := p) (l := q) (b := -V) (by
              intro j hj
              have hjn := isPath_subset hq j hj
              exact hG j (hG' j (by simp [hjn])) (hall j hjn))
            have h3 : (q.length : ℚ) ≤ height ch := by exact_mod_cast isPath_length_le hq
            nlinarith
      · rename_i hcut
        push Not at hcut
        refine ih1 hch (h := h - 1) (by linarith) (by nlinarith) c2 c1 (fun a b hab => her a b (.down hab)) ?_
          (fun a b hab => hsib a b (.down hab)) hi
        intro c hc hsz
        by_cases h2 : 2 ≤ (trees ch).length
        · exact hsib a ch (.here a ch s) h2 c hc
        · exfalso
          have := rootSizes_single (size := size) (f := ch) (by omega) (i := c.1) (ch := c.2) hc
          omega
    · exact ih2 hs hh2 hM c3 (fun q hq => hb q (isPath_cons.2 (Or.inr (Or.inr hq)))) (fun a b hab => her a b (.next hab))
        (fun c hc => hroots c (by simp [trees, hc])) (fun a b hab => hsib a b (.next hab)) hi

/-- If a chosen category is a node with children, then it has more agents than they have, or they have none. -/
theorem chosen_children {size : ℕ → ℕ} {f : Forest} (hn : (nodes f).Nodup) {i : ℕ} {ch : Forest} (h : IsNode f i ch)
    (hi : i ∈ (f.largestCategories size).2.2) : size i > ch.rootSizes size ∨ ch.rootSizes size = 0 := by
  have hmem : ∀ {f : Forest} {i : ℕ} {ch : Forest}, IsNode f i ch → i ∈ nodes f := by
    intro f i ch h
    induction h with
    | here => simp [nodes]
    | down _ ih => simp [nodes, ih]
    | next _ ih => simp [nodes, ih]
  induction h with
  | here i ch s =>
    rw [nodes, List.nodup_cons, List.mem_append] at hn
    rw [largest_cons, List.mem_append] at hi
    rcases hi with hi | hi
    · rw [nodeLargest] at hi
      split at hi
      · assumption
      · exact absurd (Or.inl (largest_subset size ch i hi)) hn.1
    · exact absurd (Or.inr (largest_subset size s i hi)) hn.1
  | @down a j ch s c hj ih =>
    rw [nodes, List.nodup_cons, List.mem_append, List.nodup_append] at hn
    obtain ⟨ha, hch, hs, hdis⟩ := hn
    push Not at ha
    have hjn := hmem hj
    rw [largest_cons, List.mem_append] at hi
    rcases hi with hi | hi
    · rw [nodeLargest] at hi
      split at hi
      · rw [List.mem_singleton] at hi; subst hi; exact absurd hjn ha.1
      · exact ih hch hi
    · exact absurd rfl (hdis j hjn j (largest_subset size s j hi))
  | @next a j ch s c hj ih =>
    rw [nodes, List.nodup_cons, List.mem_append, List.nodup_append] at hn
    obtain ⟨ha, hch, hs, hdis⟩ := hn
    push Not at ha
    have hjn := hmem hj
    rw [largest_cons, List.mem_append] at hi
    rcases hi with hi | hi
    · rcases nodeLargest_subset size a ch j hi with rfl | h
      · exact absurd hjn ha.2
      · exact absurd rfl (hdis j h j hjn)
    · exact ih hs hi

theorem isNode_mem {f : Forest} {i : ℕ} {ch : Forest} (h : IsNode f i ch) : i ∈ nodes f := by
  induction h with
  | here => simp [nodes]
  | down _ ih => simp [nodes, ih]
  | next _ ih => simp [nodes, ih]

theorem rootSizes_mono {size size' : ℕ → ℕ} (h : ∀ i, size' i ≤ size i) (f : Forest) : f.rootSizes size' ≤ f.rootSizes size := by
  induction f with
  | nil => exact le_refl _
  | cons i ch s ih1 ih2 => rw [Forest.rootSizes, Forest.rootSizes]; have := h i; omega

/-- Invariant for the termination proof. `G` are the categories that start with agents, all of different values. -/
structure TermInv (t : RecipeTree) (G : ℕ → Prop) (V : ℚ) (cats : List AgentCategory) (v : SimultaneousAscendingPriceVectors) : Prop where
  rational : Rational cats v
  le_max : ∀ i, priceAt v i ≤ MAX_VALUE
  bound : ∀ i, ∀ x ∈ valuesAt cats i, -V ≤ x ∧ x ≤ V
  capped : Capped V (priceAt v) (height t.forest) t.forest
  strict : ∀ i, G i → ∀ x ∈ valuesAt cats i, priceAt v i < x
  distinct : ∀ i, G i → (valuesAt cats i).Nodup
  emptied : ∀ i, G i → sizeAt cats i = 0 → -V ≤ priceAt v i
  hereditary : Hereditary G (sizeAt cats) t.forest

theorem sizeAt_after {cats cats' : List AgentCategory} {v' : SimultaneousAscendingPriceVectors}
    (h : ∀ i, valuesAt cats' i = afterRemoval (valuesAt cats i) (priceAt v' i)) (i : ℕ) : sizeAt cats' i ≤ sizeAt cats i := by
  rw [sizeAt_eq, sizeAt_eq, h]
  obtain ⟨k, hk⟩ := afterRemoval_take (valuesAt cats i) (priceAt v' i)
  rw [hk]; simp

theorem fits_even {t : RecipeTree} {n : ℕ} {v : SimultaneousAscendingPriceVectors} {s : ℚ} (h : Fits t n v s) :
    Even (priceAt v) t.forest := by
  intro q q' hq hq'
  have h1 := h.balanced q hq
  have h2 := h.balanced q' hq'
  exact h1.trans h2.symm

theorem forest_nodup {t : RecipeTree} {n : ℕ} (ht : TreeOn t n) : (nodes t.forest).Nodup := by
  simpa [RecipeTree.forest, nodes, treeNodes] using ht.nodup

/-- Values left after a removal, for different values and a price below or at the lowest one. -/
theorem strict_after {l : List ℚ} {p : ℚ} (hs : SortedDesc l) (hn : l.Nodup) (h : ∀ x ∈ l, p ≤ x) : ∀ x ∈ afterRemoval l p, p < x := by
  intro x hx
  unfold afterRemoval at hx
  split at hx
  · rename_i hl
    obtain ⟨y, hy, hyp⟩ := hl
    rw [Option.mem_def, List.getLast?_eq_some_iff] at hy
    obtain ⟨l', rfl⟩ := hy
    rw [List.dropLast_concat] at hx
    rw [List.nodup_append] at hn
    have hne : x ≠ y := fun e => hn.2.2 x hx y (by simp) e
    have hle : y ≤ x := hs.getLast_le (by simp) x (by simp [hx])
    have := h y (by simp)
    have : p = y := le_antisymm this hyp
    rw [this]; exact lt_of_le_of_ne hle hne.symm
  · rename_i hl
    push Not at hl
    cases hL : l.getLast? with
    | none => rw [List.getLast?_eq_none_iff] at hL; simp [hL] at hx
    | some y => exact (hl y hL).trans_le (hs.getLast_le hL x hx)

theorem afterRemoval_nodup {l : List ℚ} {p : ℚ} (hn : l.Nodup) : (afterRemoval l p).Nodup := by
  obtain ⟨k, hk⟩ := afterRemoval_take l p
  rw [hk]; exact hn.take

theorem afterRemoval_strict {l : List ℚ} {p : ℚ} (h : ∀ x ∈ l, p < x) : afterRemoval l p = l := by
  unfold afterRemoval
  rw [if_neg]
  rintro ⟨y, hy, hyp⟩
  exact absurd hyp (not_le.2 (h y (List.mem_of_getLast? hy)))

/-- An iteration preserves the invariant and removes an agent. -/
theorem term_step {t : RecipeTree} {n : ℕ} (ht : TreeOn t n) {G : ℕ → Prop} {V : ℚ} (hV : 0 ≤ V)
    (hM : V * (2 * height t.forest - 1) < MAX_VALUE)
    (hsib : SiblingsLeafOr G t) {cats0 cats cats' : List AgentCategory}
    {v v' : SimultaneousAscendingPriceVectors} {s d : ℚ} (h : TInv t n cats0 cats v s) (h' : TInv t n cats0 cats' v' (s + d))
    (hroot : sizeAt cats t.index ≠ 0) (hi : TermInv t G V cats v) (hn : NextState t cats v cats' v' d) :
    TermInv t G V cats' v' ∧ ∃ i < n, sizeAt cats' i < sizeAt cats i := by
  have hd := nextState_nonneg hi.rational hi.le_max hn
  have hmono : ∀ i, priceAt v i ≤ priceAt v' i := by
    intro i; rw [hn.price]; split <;> linarith
  have hsz := sizeAt_after hn.values
  have hnd := forest_nodup ht
  have hVM : V ≤ MAX_VALUE := by
    have : (1 : ℚ) ≤ height t.forest := by
      have : 1 ≤ height t.forest := by rw [RecipeTree.forest, height]; omega
      exact_mod_cast this
    nlinarith
  have hr' := rational_next h hi.rational hn
  -- prices of categories with agents are within `V` after the raise (before the removal)
  have hpv : ∀ j, sizeAt cats j ≠ 0 → priceAt v' j ≤ V := by
    intro j hj
    rw [sizeAt_eq] at hj
    obtain ⟨x, hx⟩ := List.exists_mem_of_length_pos (Nat.pos_of_ne_zero hj)
    have hxV := (hi.bound j x hx).2
    rw [hn.price]
    by_cases hjc : j ∈ cutOf t cats
    · rw [if_pos hjc]
      exact ((hn.le j hjc).trans (target_le (h.sorted j) x hx)).trans hxV
    · rw [if_neg hjc, add_zero]; exact (hi.rational j x hx).trans hxV
  have hcap := capped_step hV (size := sizeAt cats) (p := priceAt v) (p' := priceAt v') hnd (le_refl (height t.forest : ℚ)) hi.capped
    (fits_even h'.fits)
    (by
      intro j _ hj
      rw [hn.price, if_neg, add_zero]; exact hj)
    (fun j _ => hpv j)
  have hroots : t.forest.rootSizes (sizeAt cats) ≠ 0 := by
    rw [RecipeTree.forest, Forest.rootSizes]; omega
  have hle' : ∀ i, priceAt v' i ≤ MAX_VALUE := by
    intro i
    rw [hn.price]
    by_cases hic : i ∈ cutOf t cats
    · rw [if_pos hic]
      exact (hn.le i hic).trans (target_le_max (fun x hx => ((hi.bound i x hx).2).trans hVM))
    · rw [if_neg hic, add_zero]; exact hi.le_max i
  have hlow : ∀ i, ∀ x ∈ valuesAt cats i, priceAt v' i ≤ x := by
    intro i x hx
    rw [hn.price]
    by_cases hic : i ∈ cutOf t cats
    · rw [if_pos hic]; exact (hn.le i hic).trans (target_le (h.sorted i) x hx)
    · rw [if_neg hic, add_zero]; exact hi.rational i x hx
  -- a category of `G` loses an agent only if it is chosen
  have hcutG : ∀ i, G i → sizeAt cats' i < sizeAt cats i → i ∈ cutOf t cats := by
    intro i hG hlt
    by_contra hic
    have : priceAt v' i = priceAt v i := by rw [hn.price, if_neg hic, add_zero]
    have he := hn.values i
    rw [this, afterRemoval_strict (hi.strict i hG)] at he
    rw [sizeAt_eq, sizeAt_eq, he] at hlt
    exact lt_irrefl _ hlt
  have hsize1 : ∀ i, sizeAt cats i ≤ sizeAt cats' i + 1 := by
    intro i
    rw [sizeAt_eq, sizeAt_eq, hn.values]
    unfold afterRemoval
    split
    · simp
      omega
    · simp
  have hher : Hereditary G (sizeAt cats) t.forest := hi.hereditary
  have hempt : ∀ i, G i → sizeAt cats i = 0 → -V ≤ priceAt v' i := fun i hG h0 => (hi.emptied i hG h0).trans (hmono i)
  refine ⟨⟨hr', hle', ?_, hcap.1, ?_, ?_, ?_, ?_⟩, ?_⟩
  · intro i x hx
    rw [hn.values] at hx
    exact hi.bound i x (afterRemoval_subset hx)
  · intro i hG
    rw [hn.values]
    exact strict_after (h.sorted i) (hi.distinct i hG) (hlow i)
  · intro i hG
    rw [hn.values]
    exact afterRemoval_nodup (hi.distinct i hG)
  · intro i hG h0
    by_cases h0' : sizeAt cats i = 0
    · exact hempt i hG h0'
    · -- the last agent has just left
      have hv := hn.values i
      have hne : valuesAt cats' i = [] := by rw [sizeAt_eq] at h0; exact List.length_eq_zero_iff.1 h0
      rw [hne] at hv
      unfold afterRemoval at hv
      split at hv
      · rename_i hl
        obtain ⟨y, hy, hyp⟩ := hl
        exact ((hi.bound i y (List.mem_of_getLast? hy)).1).trans hyp
      · exfalso; apply h0'; rw [sizeAt_eq, ← hv]; rfl
  · intro i ch hnode hG h0
    have hle := rootSizes_mono hsz ch
    by_cases h0' : sizeAt cats i = 0
    · have := hher i ch hnode hG h0'
      omega
    · have hic := hcutG i hG (by omega)
      have hch := chosen_children hnd hnode hic
      have := hsize1 i
      omega
  · -- an agent leaves
    obtain ⟨i, hic, hit⟩ := hn.reached
    refine ⟨i, ht.lt i (cut_mem i hic), ?_⟩
    have hp' : priceAt v' i = target cats i := by rw [hn.price, if_pos hic, hit]
    have hpos : sizeAt cats i ≠ 0 := by
      intro h0
      have hlt := chosen_below_max (M := MAX_VALUE) (G := G) (p := priceAt v') (size := sizeAt cats) hV hnd (le_refl (height t.forest : ℚ)) hM hcap.1
        (by
          obtain ⟨q0, hq0, hle⟩ := hcap.2 hroots
          exact fun q hq => (fits_even h'.fits q q0 hq hq0).trans_le hle)
        hher hempt
        (by
          intro c hc hsz
          exfalso
          simp only [RecipeTree.forest, trees, List.mem_singleton] at hc
          subst hc
          exact hroot hsz)
        hsib hic h0
      rw [hp'] at hlt
      have : target cats i = MAX_VALUE := by
        rw [sizeAt_eq] at h0
        rw [target, List.length_eq_zero_iff.1 h0]; rfl
      rw [this] at hlt
      exact lt_irrefl _ hlt
    rw [sizeAt_eq, sizeAt_eq, hn.values, hp']
    rw [sizeAt_eq] at hpos
    have hne : valuesAt cats i ≠ [] := fun e => hpos (by rw [e]; rfl)
    unfold afterRemoval
    rw [if_pos]
    · rw [List.length_dropLast]; omega
    · exact ⟨(valuesAt cats i).getLast hne, List.getLast?_eq_some_getLast hne, by
        rw [target, List.getLast?_eq_some_getLast hne]; exact le_refl _⟩

/-- Number of agents left. -/
def agentsLeft (n : ℕ) (cats : List AgentCategory) : ℕ := ((List.range n).map (sizeAt cats)).sum

theorem sum_lt_of_lt {l : List ℕ} {f g : ℕ → ℕ} (h : ∀ i, f i ≤ g i) {j : ℕ} (hj : j ∈ l) (hlt : f j < g j) :
    (l.map f).sum < (l.map g).sum := by
  induction l with
  | nil => simp at hj
  | cons a l ih =>
    simp only [List.map_cons, List.sum_cons]
    have hle : (l.map f).sum ≤ (l.map g).sum := List.sum_le_sum (fun i _ => h i)
    rcases List.mem_cons.1 hj with rfl | hj
    · omega
    · have := ih hj; have := h a; omega

/-- The loop ends within as many iterations as there are agents, plus one. -/
theorem tree_loop_terminates {t : RecipeTree} {n : ℕ} (ht : TreeOn t n) {G : ℕ → Prop} {V : ℚ} (hV : 0 ≤ V)
    (hM : V * (2 * height t.forest - 1) < MAX_VALUE) (hsib : SiblingsLeafOr G t) {cats0 : List AgentCategory} (fuel : ℕ)
    {cats : List AgentCategory} {v : SimultaneousAscendingPriceVectors} {s : ℚ} (h : TInv t n cats0 cats v s)
    (hi : TermInv t G V cats v) (hf : agentsLeft n cats < fuel) : ∃ r, loop t fuel cats v = .ok (some r) := by
  induction fuel generalizing cats v s with
  | zero => omega
  | succ fuel ih =>
    rcases tree_loop_step ht h fuel with ⟨h1, h2⟩ | ⟨h1, v', d, h2, -⟩ | ⟨h1, cats', v', d, h2, h3, h4, h5⟩
    · exact ⟨_, h2⟩
    · exact ⟨_, h2⟩
    · rw [h2]
      obtain ⟨hi', i, hin, hlt⟩ := term_step ht hV hM hsib h h4 h1 hi h5
      have : agentsLeft n cats' < agentsLeft n cats :=
        sum_lt_of_lt (sizeAt_after h5.values) (List.mem_range.2 hin) hlt
      exact ih h4 hi' (by omega)

end Auctions
