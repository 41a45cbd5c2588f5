import Verif.Proofs.TreeCounts
import Verif.Spec.Ties

set_option autoImplicit false

/-! # Helper lemmas: an iteration of the tree auction preserves `Clocked` -/

namespace Auctions

open Spec TreeAuction

/-! ## Ties -/

/-- What `TieFree` is used for. -/
def Distinct (V : ℕ → List ℚ) : Forest → Prop
  | .nil => True
  | .cons i ch s => (V i).Nodup ∧ Distinct V ch ∧ Distinct V s ∧ ∀ y ∈ nodeValues V i ch, y ∉ s.combinedValues V

theorem treeDeals_selects (V : ℕ → List ℚ) (f : Forest) : ∀ d ∈ treeDeals V f, Selects f V d := by
  intro d hd
  refine ⟨treeDeals_path V f d hd, ?_⟩
  induction f generalizing d with
  | nil => simp [treeDeals] at hd
  | cons i ch s ih1 ih2 =>
    rw [treeDeals_cons, List.mem_append] at hd
    rcases hd with hd | hd
    · by_cases hc : ch = .nil
      · subst hc
        simp only [nodeDeals, List.mem_map] at hd
        obtain ⟨v, hv, rfl⟩ := hd
        intro a ha
        rw [List.mem_singleton] at ha
        subst ha; exact hv
      · rw [nodeDeals_of_ne _ _ hc] at hd
        obtain ⟨k, hk, rfl⟩ := List.getElem_of_mem hd
        rw [List.getElem_zipWith]
        intro a ha
        rcases List.mem_cons.1 ha with rfl | ha
        · exact List.getElem_mem _
        · exact ih1 _ ((List.mem_insertionSort _).1 (List.getElem_mem _)) a ha
    · exact ih2 d hd

theorem nodeDeals_eq_treeDeals (V : ℕ → List ℚ) (i : ℕ) (ch : Forest) : nodeDeals V i ch = treeDeals V (.cons i ch .nil) := by
  rw [treeDeals_cons]; simp [treeDeals]

theorem nodeValues_eq (V : ℕ → List ℚ) (i : ℕ) (ch : Forest) : nodeValues V i ch = (nodeDeals V i ch).map treeGain := by
  have := combinedValues_eq V (.cons i ch .nil)
  rw [combinedValues_cons, ← nodeDeals_eq_treeDeals] at this
  simpa [Forest.combinedValues] using this

theorem distinct_of_tieFree {V : ℕ → List ℚ} {f : Forest} (h : TieFree V f) : Distinct V f := by
  induction f with
  | nil => trivial
  | cons i ch s ih1 ih2 =>
    obtain ⟨h1, h2, h3, h4⟩ := h
    refine ⟨h1, ih1 h2, ih2 h3, ?_⟩
    intro y hy hys
    rw [nodeValues_eq] at hy
    rw [combinedValues_eq] at hys
    obtain ⟨d, hd, rfl⟩ := List.mem_map.1 hy
    obtain ⟨d', hd', he⟩ := List.mem_map.1 hys
    rw [nodeDeals_eq_treeDeals] at hd
    exact h4 d d' (treeDeals_selects V _ d hd) (treeDeals_selects V _ d' hd') he.symm

/-! ## One iteration -/

/-- The prices of the chosen categories change, and some of them lose the agent whose value is the new price. -/
structure Raise (V : ℕ → List ℚ) (R : ℕ → ℕ) (p : ℕ → ℚ) (R' : ℕ → ℕ) (p' : ℕ → ℚ) (f : Forest) : Prop where
  same : ∀ j ∈ nodes f, j ∉ (f.largestCategories R).2.2 → p' j = p j ∧ R' j = R j
  chosen : ∀ j ∈ (f.largestCategories R).2.2, R' j = R j ∨ (R j = R' j + 1 ∧ (V j)[R' j]? = some (p' j))

section

variable {V : ℕ → List ℚ} {R R' : ℕ → ℕ} {p p' : ℕ → ℚ} {M B : ℚ}

theorem Raise.siblings {i : ℕ} {ch s : Forest} (h : Raise V R p R' p' (.cons i ch s)) (hn : (nodes (.cons i ch s)).Nodup) :
    Raise V R p R' p' s := by
  rw [nodes, List.nodup_cons, List.mem_append, List.nodup_append] at hn
  obtain ⟨hi, hch, hs, hdis⟩ := hn
  push Not at hi
  refine ⟨fun j hj hjl => h.same j (by simp [nodes, hj]) ?_, fun j hj => h.chosen j (by rw [largest_cons, List.mem_append]; exact Or.inr hj)⟩
  rw [largest_cons, List.mem_append]
  rintro (h | h)
  · rcases nodeLargest_subset R i ch j h with rfl | h
    · exact hi.2 hj
    · exact hdis j h j hj rfl
  · exact hjl h

theorem Raise.cut {i : ℕ} {ch s : Forest} (h : Raise V R p R' p' (.cons i ch s)) (hn : (nodes (.cons i ch s)).Nodup)
    (hcut : R i > ch.rootSizes R ∨ ch.rootSizes R = 0) : ∀ j ∈ nodes ch, p' j = p j ∧ R' j = R j := by
  rw [nodes, List.nodup_cons, List.mem_append, List.nodup_append] at hn
  obtain ⟨hi, hch, hs, hdis⟩ := hn
  push Not at hi
  intro j hj
  refine h.same j (by simp [nodes, hj]) ?_
  rw [largest_cons, List.mem_append, nodeLargest, if_pos hcut, List.mem_singleton]
  rintro (rfl | h)
  · exact hi.1 hj
  · exact hdis j hj j (largest_subset R s j h) rfl

theorem Raise.down {i : ℕ} {ch s : Forest} (h : Raise V R p R' p' (.cons i ch s)) (hn : (nodes (.cons i ch s)).Nodup)
    (hcut : ¬ (R i > ch.rootSizes R ∨ ch.rootSizes R = 0)) : Raise V R p R' p' ch ∧ p' i = p i ∧ R' i = R i := by
  rw [nodes, List.nodup_cons, List.mem_append, List.nodup_append] at hn
  obtain ⟨hi, hch, hs, hdis⟩ := hn
  push Not at hi
  have hL : ∀ j, j ∈ ((Forest.cons i ch s).largestCategories R).2.2 ↔ j ∈ (ch.largestCategories R).2.2 ∨ j ∈ (s.largestCategories R).2.2 := by
    intro j; rw [largest_cons, List.mem_append, nodeLargest, if_neg hcut]
  refine ⟨⟨fun j hj hjl => h.same j (by simp [nodes, hj]) ?_, fun j hj => h.chosen j ((hL j).2 (Or.inl hj))⟩, h.same i (by simp [nodes]) ?_⟩
  · rw [hL]
    rintro (h | h)
    · exact hjl h
    · exact hdis j hj j (largest_subset R s j h) rfl
  · rw [hL]
    rintro (h | h)
    · exact hi.1 (largest_subset R ch i h)
    · exact hi.2 (largest_subset R s i h)

theorem Raise.le {f : Forest} (h : Raise V R p R' p' f) : ∀ j ∈ nodes f, R' j ≤ R j := by
  intro j hj
  by_cases hjl : j ∈ (f.largestCategories R).2.2
  · rcases h.chosen j hjl with h | h <;> omega
  · exact (h.same j hj hjl).2.le

theorem rootSizes_mem {f : Forest} : ∀ {R R' : ℕ → ℕ}, (∀ j ∈ nodes f, R' j ≤ R j) → f.rootSizes R' ≤ f.rootSizes R := by
  intro R R' h
  induction f with
  | nil => exact le_refl _
  | cons i ch s _ ih2 =>
    rw [Forest.rootSizes, Forest.rootSizes]
    have h1 := h i (by simp [nodes])
    have h2 := ih2 (fun j hj => h j (by simp [nodes, hj]))
    omega

theorem rootSizes_congr {f : Forest} (h : ∀ j ∈ nodes f, R' j = R j) : f.rootSizes R' = f.rootSizes R :=
  le_antisymm (rootSizes_mem fun j hj => (h j hj).le) (rootSizes_mem fun j hj => (h j hj).ge)

theorem clocked_congr {f : Forest} (h : ∀ j ∈ nodes f, p' j = p j ∧ R' j = R j) {t q : ℚ} (hc : Clocked V R p M B f t q) :
    Clocked V R' p' M B f t q := by
  induction f generalizing t q with
  | nil => trivial
  | cons i ch s ih1 ih2 =>
    obtain ⟨h1, h2, h3⟩ := hc
    have hi := h i (by simp [nodes])
    have hch : ∀ j ∈ nodes ch, p' j = p j ∧ R' j = R j := fun j hj => h j (by simp [nodes, hj])
    rw [Clocked, hi.1, hi.2, rootSizes_congr (fun j hj => (hch j hj).2)]
    exact ⟨h1, ih1 hch h2, ih2 (fun j hj => h j (by simp [nodes, hj])) h3⟩

/-- The clock below an untouched forest does not change. -/
theorem level_same {i : ℕ} {ch s : Forest} (hc : ch ≠ .nil) {q q' : ℚ} (hl : Level p (.cons i ch s) q) (hl' : Level p' (.cons i ch s) q')
    (h : ∀ j ∈ nodes ch, p' j = p j ∧ R' j = R j) : q' - p' i = q - p i := by
  obtain ⟨r, hr⟩ := exists_path hc
  rw [← hl.children r hr, ← hl'.children r hr]
  exact psum_congr fun j hj => (h j (isPath_subset hr j hj)).1

/-- Without ties at most one root loses an agent, and then the new clock is the gain of a deal. -/
theorem drop_one (hB : 0 ≤ B) {f : Forest} {t q q' a κ : ℚ} (hn : (nodes f).Nodup) (hd : Distinct V f)
    (hset : Setting V R p B f) (hl : Level p f q) (hl' : Level p' f q') (hcl : Clocked V R p M B f t q)
    (hcap : Capped B p κ f) (hta : t ≤ a) (hκ : B * (κ - 1) ≤ t + M) (ha : a + height f * B < 0) (hr : Raise V R p R' p' f)
    (hq' : t < q') :
    f.rootSizes R ≤ f.rootSizes R' + 1 ∧ (f.rootSizes R' < f.rootSizes R → q' ∈ f.combinedValues V) := by
  induction f with
  | nil => exact ⟨by simp [Forest.rootSizes], by simp [Forest.rootSizes]⟩
  | cons i ch s _ ih2 =>
    have hn0 := hn
    rw [nodes, List.nodup_cons, List.mem_append, List.nodup_append] at hn
    obtain ⟨hi, hch, hs, hdis⟩ := hn
    have hh1 : (height ch : ℚ) + 1 ≤ height (.cons i ch s) := by rw [height]; exact_mod_cast le_max_left _ _
    have hh2 : (height s : ℚ) ≤ height (.cons i ch s) := by rw [height]; exact_mod_cast le_max_right _ _
    have h1 : (height ch : ℚ) * B + B ≤ height (.cons i ch s) * B := by nlinarith
    have h2 : (height s : ℚ) * B ≤ height (.cons i ch s) * B := mul_le_mul_of_nonneg_right hh2 hB
    obtain ⟨i1, i2⟩ := ih2 hs hd.2.2.1 hset.siblings hl.siblings hl'.siblings hcl.2.2 hcap.2.2 (by linarith) (hr.siblings hn0)
    have hle := hr.le i (by simp [nodes])
    have hles : s.rootSizes R' ≤ s.rootSizes R := rootSizes_mem (fun j hj => hr.le j (by simp [nodes, hj]))
    rw [combinedValues_cons, Forest.rootSizes, Forest.rootSizes]
    by_cases hsame : R' i = R i
    · rw [hsame]
      refine ⟨by omega, fun h => List.mem_append.2 (Or.inr (i2 (by omega)))⟩
    · -- the first root loses an agent
      have hil : i ∈ ((Forest.cons i ch s).largestCategories R).2.2 := by
        by_contra h
        exact hsame (hr.same i (by simp [nodes]) h).2
      obtain ⟨e1, e2⟩ := (hr.chosen i hil).resolve_left hsame
      have hcut := chosen_children hn0 (IsNode.here i ch s) hil
      have hgt : R i > ch.rootSizes R := by omega
      obtain ⟨hlt, hval⟩ := List.getElem?_eq_some_iff.1 e2
      have hmem : q' ∈ nodeValues V i ch := by
        by_cases hc : ch = .nil
        · subst hc
          rw [hl'.leaf]
          simp only [nodeValues]
          rw [← hval]; exact List.getElem_mem hlt
        · have hun := hr.cut hn0 hcut
          have hqq := level_same hc hl hl' hun
          have hpB : p' i ≤ B := by
            rw [← hval]; exact (hset.bound i (by simp [nodes]) _ (List.getElem_mem hlt)).2
          have htc : t - B < q - p i := by linarith
          obtain ⟨j1, j2⟩ := (hcl.1 hc).1 htc hgt
          have hN := count_above hB hset.children hl.children hcl.2.1 hcap.2.1 (a := a + B) (by linarith) (by linarith) (by linarith) htc
          have hY : SplitAt (sortDesc (ch.combinedValues V)) (ch.rootSizes R) (q - p i) := by
            have := splitAt_of_sorted (sortDesc_sorted (ch.combinedValues V)) (q - p i)
            rwa [(sortDesc_perm _).countP_eq, hN] at this
          obtain ⟨hlt2, hval2⟩ := splitAt_mem (sortDesc_sorted _) hY (mem_sortDesc.2 j2)
          rw [nodeValues_of_ne _ _ hc]
          have hR' : R' i = ch.rootSizes R := by omega
          refine List.mem_iff_getElem.2 ⟨ch.rootSizes R, by rw [List.length_zipWith]; omega, ?_⟩
          rw [List.getElem_zipWith, hval2]
          have : (V i)[ch.rootSizes R]'(by omega) = p' i := by rw [← hval]; congr 1; exact hR'.symm
          rw [this]; linarith
      refine ⟨?_, fun _ => List.mem_append.2 (Or.inl hmem)⟩
      by_contra hlt'
      exact hd.2.2.2 q' hmem (i2 (by omega))

/-- An iteration preserves the invariant. -/
theorem clocked_step (hB : 0 ≤ B) {f : Forest} {t q q' a κ : ℚ} (hn : (nodes f).Nodup) (hd : Distinct V f)
    (hset : Setting V R p B f) (hl : Level p f q) (hl' : Level p' f q') (hcl : Clocked V R p M B f t q)
    (hcap : Capped B p κ f) (hta : t ≤ a) (hκ : B * (κ - 1) ≤ t + M) (ha : a + height f * B < 0) (hr : Raise V R p R' p' f) :
    Clocked V R' p' M B f t q' := by
  induction f generalizing t q q' a κ with
  | nil => trivial
  | cons i ch s ih1 ih2 =>
    have hn0 := hn
    rw [nodes, List.nodup_cons, List.mem_append, List.nodup_append] at hn
    obtain ⟨hi, hch, hs, hdis⟩ := hn
    have hh1 : (height ch : ℚ) + 1 ≤ height (.cons i ch s) := by rw [height]; exact_mod_cast le_max_left _ _
    have hh2 : (height s : ℚ) ≤ height (.cons i ch s) := by rw [height]; exact_mod_cast le_max_right _ _
    have h1 : (height ch : ℚ) * B + B ≤ height (.cons i ch s) * B := by nlinarith
    have h2 : (height s : ℚ) * B ≤ height (.cons i ch s) * B := mul_le_mul_of_nonneg_right hh2 hB
    have hsib := ih2 hs hd.2.2.1 hset.siblings hl.siblings hl'.siblings hcl.2.2 hcap.2.2 hta hκ (by linarith) (hr.siblings hn0)
    by_cases hcut : R i > ch.rootSizes R ∨ ch.rootSizes R = 0
    · have hun := hr.cut hn0 hcut
      by_cases hc : ch = .nil
      · subst hc
        exact ⟨fun h => absurd rfl h, trivial, hsib⟩
      · have hqq := level_same hc hl hl' hun
        have hrs := rootSizes_congr (f := ch) (fun j hj => (hun j hj).2)
        obtain ⟨c1, c2, c3⟩ := hcl.1 hc
        have hle := hr.le i (by simp [nodes])
        refine ⟨fun _ => ?_, ?_, hsib⟩
        · rw [hqq, hrs]
          refine ⟨?_, ?_, ?_⟩
          · intro htc hlt
            obtain ⟨e1, e2⟩ := c1 htc (by omega)
            exact ⟨by omega, e2⟩
          · intro hle'
            by_cases h0 : ch.rootSizes R = 0
            · exact Or.inr (Or.inr h0)
            · have hgt : R i > ch.rootSizes R := by omega
              have hne : R' i ≠ R i := by omega
              have hil : i ∈ ((Forest.cons i ch s).largestCategories R).2.2 := by
                by_contra h
                exact hne (hr.same i (by simp [nodes]) h).2
              obtain ⟨e1, e2⟩ := (hr.chosen i hil).resolve_left hne
              exact Or.inr (Or.inl ⟨by omega, e2⟩)
          · intro hlt
            by_cases h0 : ch.rootSizes R = 0
            · omega
            · by_cases hne : R' i = R i
              · omega
              · have hil : i ∈ ((Forest.cons i ch s).largestCategories R).2.2 := by
                  by_contra h
                  exact hne (hr.same i (by simp [nodes]) h).2
                obtain ⟨e1, e2⟩ := (hr.chosen i hil).resolve_left hne
                omega
        · rw [hqq]
          exact clocked_congr hun hcl.2.1
    · obtain ⟨hrc, hpi, hRi⟩ := hr.down hn0 hcut
      push Not at hcut
      have hc : ch ≠ .nil := rootSizes_ne_nil hcut.2
      obtain ⟨c1, c2, c3⟩ := hcl.1 hc
      have hles : ch.rootSizes R' ≤ ch.rootSizes R := rootSizes_mem (fun j hj => hrc.le j hj)
      refine ⟨fun _ => ⟨?_, ?_, ?_⟩, ?_, hsib⟩
      · intro htc hlt
        obtain ⟨d1, d2⟩ := drop_one hB hch hd.2.1 hset.children hl.children hl'.children hcl.2.1 hcap.2.1 (a := a + B) (by linarith)
          (by linarith) (by linarith) hrc htc
        exact ⟨by omega, d2 (by omega)⟩
      · intro hle
        rcases c2 (by omega) with ⟨e1, e2⟩ | ⟨e1, e2⟩ | e1
        · exact Or.inl ⟨by rw [hpi]; exact e1, by rw [hRi]; exact e2⟩
        · exact Or.inr (Or.inl ⟨by omega, by rw [hpi, hRi]; exact e2⟩)
        · omega
      · intro hlt
        have := c3 (by omega)
        omega
      · exact ih1 hch hd.2.1 hset.children hl.children hl'.children hcl.2.1 hcap.2.1 (a := a + B) (by linarith) (by linarith)
          (by linarith) hrc

end

end Auctions
