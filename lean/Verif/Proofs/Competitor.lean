import Verif.Proofs.AscendingOutcome
import Verif.Proofs.Monotone

set_option autoImplicit false

/-! # The ascending auction in two markets that differ in one category -/

namespace Auctions

open Spec

namespace Ascending

/-- Lowering an element that is not the maximum keeps the maximum. -/
theorem foldl_max_lower {f g : ℕ → ℚ} {a : ℕ} (hfg : ∀ y, y ≠ a → g y = f y) (ha : g a ≤ f a) (l : List ℕ) (x x' : ℕ)
    (hx : x = x' ∨ (x = a ∧ g x' ≤ f a)) :
    l.foldl (fun best y => if f best < f y then y else best) x = l.foldl (fun best y => if g best < g y then y else best) x' ∨
      l.foldl (fun best y => if f best < f y then y else best) x = a := by
  induction l generalizing x x' with
  | nil =>
    rcases hx with h | ⟨h, -⟩
    · exact Or.inl h
    · exact Or.inr h
  | cons y l ih =>
    simp only [List.foldl_cons]
    apply ih
    have hle : ∀ z, g z ≤ f z := fun z => by
      by_cases hz : z = a
      · rw [hz]; exact ha
      · exact (hfg z hz).le
    by_cases hxa : x = a
    · have hx' : g x' ≤ f a := by
        rcases hx with h | ⟨-, h⟩
        · rw [← h, hxa]; exact ha
        · exact h
      subst hxa
      by_cases h1 : f x < f y
      · have hy : y ≠ x := by rintro rfl; exact lt_irrefl _ h1
        have h2 : g x' < g y := by rw [hfg y hy]; linarith
        rw [if_pos h1, if_pos h2]
        exact Or.inl rfl
      · rw [if_neg h1]
        right
        refine ⟨rfl, ?_⟩
        split
        · exact (hle y).trans (not_lt.1 h1)
        · exact hx'
    · have hxx : x = x' := by
        rcases hx with h | ⟨h, -⟩
        · exact h
        · exact absurd h hxa
      subst hxx
      have hgx := hfg x hxa
      by_cases hy : y = a
      · subst hy
        by_cases h1 : f x < f y
        · rw [if_pos h1]
          right
          refine ⟨rfl, ?_⟩
          split
          · exact ha
          · rw [hgx]; exact h1.le
        · rw [if_neg h1, if_neg (by rw [hgx]; push Not at h1 ⊢; linarith)]
          exact Or.inl rfl
      · rw [hgx, hfg y hy]
        exact Or.inl rfl

/-- The states of two auctions correspond: the same sizes outside category `a`, in which the first market has lost agents only if the second has as few
left. -/
def Match (cs : List AgentCategory) (a : ℕ) (s s' : ℕ → ℕ) : Prop :=
  (∀ j, j ≠ a → s' j = s j) ∧ (s' a = s a ∨ (s a < s' a ∧ s a = (vAt cs a).length))

theorem Match.le {cs : List AgentCategory} {a : ℕ} {s s' : ℕ → ℕ} (h : Match cs a s s') (j : ℕ) : s j ≤ s' j := by
  by_cases hj : j = a
  · subst hj; rcases h.2 with h | h <;> omega
  · exact (h.1 j hj).ge

theorem mainOf_lower {cs : List AgentCategory} {r : List ℕ} {a c : ℕ} {s s' : ℕ → ℕ} (h : Match cs a s s')
    (hc : mainOf r (rel cs r) s' = .ok c) (hca : c ≠ a) : mainOf r (rel cs r) s = .ok c := by
  unfold mainOf at hc ⊢
  cases hr : rel cs r with
  | nil => rw [hr] at hc; simp [pyMaxBy] at hc
  | cons x l =>
    rw [hr] at hc
    simp only [pyMaxBy, Except.ok.injEq] at hc ⊢
    have := foldl_max_lower (f := fun i => (s' i : ℚ) / (rAt r i : ℚ)) (g := fun i => (s i : ℚ) / (rAt r i : ℚ)) (a := a)
      (fun y hy => by simp only [h.1 y hy])
      (div_le_div_of_nonneg_right (by exact_mod_cast h.le a) (by exact_mod_cast Nat.zero_le _)) l x x (Or.inl rfl)
    rcases this with h1 | h1
    · rw [← h1]; exact hc
    · exact absurd (hc.symm.trans h1) hca

/-- The set-up: the two markets differ in category `a` only, which is at least as good in the second. -/
structure Better (cs ct : List AgentCategory) (r : List ℕ) (a : ℕ) : Prop where
  recipe : r.length = cs.length
  length : ct.length = cs.length
  other : ∀ j, j ≠ a → vAt ct j = vAt cs j
  entries : EntriesLe (vAt cs a) (vAt ct a)
  sorted : ∀ j, SortedDesc (vAt cs j)
  sorted' : ∀ j, SortedDesc (vAt ct j)
  bound : ∀ j, ∀ v ∈ vAt cs j, -MAX_VALUE ≤ v
  bound' : ∀ j, ∀ v ∈ vAt ct j, -MAX_VALUE ≤ v
  lt : a < cs.length
  ne : rel cs r ≠ []

theorem le_clock {V : List ℚ} (hb : ∀ v ∈ V, -MAX_VALUE ≤ v) (k : ℕ) : -MAX_VALUE ≤ clock V k := by
  by_cases h : k < V.length
  · rw [clock_of_lt h]; exact hb _ (List.getElem_mem _)
  · rw [clock_of_ge (by omega)]

theorem clock_antitone {V : List ℚ} (hV : SortedDesc V) (hb : ∀ v ∈ V, -MAX_VALUE ≤ v) {k l : ℕ} (h : k ≤ l) : clock V l ≤ clock V k := by
  by_cases hl : l < V.length
  · rw [clock_of_lt hl, clock_of_lt (by omega)]
    exact hV.getElem_ge h hl
  · rw [clock_of_ge (by omega)]; exact le_clock hb k

theorem EntriesLe.clock_le {v w : List ℚ} (h : EntriesLe v w) (hb : ∀ x ∈ w, -MAX_VALUE ≤ x) (k : ℕ) : clock v k ≤ clock w k := by
  induction v generalizing w k with
  | nil => rw [clock_of_ge (V := []) (by simp)]; exact le_clock hb k
  | cons x v ih =>
    cases w with
    | nil => exact h.elim
    | cons y w =>
      cases k with
      | zero => exact h.1
      | succ k => exact ih h.2 (fun z hz => hb z (by simp [hz])) k

section
variable {cs ct : List AgentCategory} {r : List ℕ} {a : ℕ}

theorem Better.rel_eq (hB : Better cs ct r a) : rel ct r = rel cs r := by
  simp [rel, relevantCategoryIndices, Market.numCategories, hB.length]

theorem Better.clock_le (hB : Better cs ct r a) {s s' : ℕ → ℕ} (h : Match cs a s s') : clock (vAt cs a) (s a) ≤ clock (vAt ct a) (s' a) := by
  rcases h.2 with h2 | ⟨-, h2⟩
  · rw [h2]; exact EntriesLe.clock_le hB.entries (hB.bound' a) _
  · rw [h2, clock_of_ge (le_refl _)]; exact le_clock (hB.bound' a) _

/-- The prices differ in category `a` only. -/
theorem Better.diff (hB : Better cs ct r a) {s s' : ℕ → ℕ} (h : Match cs a s s') :
    clockSum ct r s' - rAt r a * clock (vAt ct a) (s' a) = clockSum cs r s - rAt r a * clock (vAt cs a) (s a) := by
  rw [clockSum_eq (hB.recipe.trans hB.length.symm), clockSum_eq hB.recipe, hB.length]
  have ha := Finset.mem_range.2 hB.lt
  rw [← Finset.add_sum_erase _ _ ha, ← Finset.add_sum_erase _ (fun i => (rAt r i : ℚ) * clock (vAt cs i) (s i)) ha]
  have : ∑ x ∈ (Finset.range cs.length).erase a, (rAt r x : ℚ) * clock (vAt ct x) (s' x)
      = ∑ x ∈ (Finset.range cs.length).erase a, (rAt r x : ℚ) * clock (vAt cs x) (s x) := by
    refine Finset.sum_congr rfl fun x hx => ?_
    have hxa := (Finset.mem_erase.1 hx).1
    rw [hB.other x hxa, h.1 x hxa]
  rw [this]; ring

theorem Better.sum_le (hB : Better cs ct r a) {s s' : ℕ → ℕ} (h : Match cs a s s') : clockSum cs r s ≤ clockSum ct r s' := by
  have h1 := hB.diff h
  have h2 := mul_le_mul_of_nonneg_left (hB.clock_le h) (by exact_mod_cast Nat.zero_le _ : (0 : ℚ) ≤ rAt r a)
  linarith

/-- A removal in both markets keeps the correspondence. -/
theorem Match.update {s s' : ℕ → ℕ} (h : Match cs a s s') {c : ℕ} (hc : s' c = s c) :
    Match cs a (Function.update s c (s c - 1)) (Function.update s' c (s' c - 1)) := by
  refine ⟨fun j hj => ?_, ?_⟩
  · by_cases hjc : j = c
    · subst hjc; simp [hc]
    · rw [Function.update_of_ne hjc, Function.update_of_ne hjc]; exact h.1 j hj
  · by_cases hac : a = c
    · subst hac; left; simp [hc]
    · rw [Function.update_of_ne hac, Function.update_of_ne hac]; exact h.2

theorem Better.main_eq (_hB : Better cs ct r a) {s s' : ℕ → ℕ} (h : Match cs a s s') {c : ℕ} (hc : mainOf r (rel cs r) s' = .ok c)
    (hca : c ≠ a ∨ s' a = s a) : mainOf r (rel cs r) s = .ok c ∧ s' c = s c := by
  rcases hca with hca | hca
  · exact ⟨mainOf_lower h hc hca, h.1 c hca⟩
  · have : s' = s := by
      funext j
      by_cases hj : j = a
      · subst hj; exact hca
      · exact h.1 j hj
    subst this
    exact ⟨hc, rfl⟩

/-- Every state of the auction in the better market corresponds to a state of the auction in the other market. -/
theorem Better.path (hB : Better cs ct r a) {n' : ℕ} {s' : ℕ → ℕ} (hp : Path ct r n' s') : ∃ n s, Path cs r n s ∧ Match cs a s s' := by
  induction hp with
  | start =>
    refine ⟨0, _, Path.start, fun j hj => by simp only [hB.other j hj], ?_⟩
    have := hB.entries.length_le
    by_cases h : (vAt ct a).length = (vAt cs a).length
    · exact Or.inl h
    · right; exact ⟨by simp only; omega, rfl⟩
  | @step n' s' c hp hc h0 hneg ih =>
    obtain ⟨n, s, h1, h2⟩ := ih
    rw [hB.rel_eq] at hc
    by_cases hca : c ≠ a ∨ s' a = s a
    · obtain ⟨h3, h4⟩ := hB.main_eq h2 hc hca
      have h5 := h2.update h4
      exact ⟨_, _, h1.step h3 (by omega) (lt_of_le_of_lt (hB.sum_le h5) hneg), h5⟩
    · push Not at hca
      obtain ⟨rfl, hne⟩ := hca
      refine ⟨n, s, h1, fun j hj => by rw [Function.update_of_ne hj]; exact h2.1 j hj, ?_⟩
      rcases h2.2 with h3 | ⟨h3, h4⟩
      · exact absurd h3 hne
      · simp only [Function.update_self]
        by_cases h5 : s' c - 1 = s c
        · exact Or.inl h5
        · right; exact ⟨by omega, h4⟩

end

theorem Path.le_of_step {s s₁ : ℕ → ℕ} {c : ℕ} (h : ∀ j, s₁ j ≤ s j) (j : ℕ) : Function.update s₁ c (s₁ c - 1) j ≤ s j :=
  (update_le j).trans (h j)

/-- Steps are determined: an earlier state of the same auction is passed on the way. -/
theorem Path.before {cs : List AgentCategory} {r : List ℕ} {N : ℕ} {t : ℕ → ℕ} (hp : Path cs r N t) :
    ∀ {n : ℕ} {s : ℕ → ℕ}, Path cs r n s → n ≤ N → (n = N ∧ s = t) ∨
      (n < N ∧ ∃ c, mainOf r (rel cs r) s = .ok c ∧ s c ≠ 0 ∧ clockSum cs r (Function.update s c (s c - 1)) < 0 ∧
        ∀ j, t j ≤ Function.update s c (s c - 1) j) := by
  induction hp with
  | start =>
    intro n s hs hn
    have hn0 : n = 0 := by omega
    subst hn0
    cases hs
    exact Or.inl ⟨rfl, rfl⟩
  | @step N t c hp hc h0 hneg ih =>
    intro n s hs hn
    by_cases hnN : n ≤ N
    · right
      refine ⟨by omega, ?_⟩
      rcases ih hs hnN with ⟨-, rfl⟩ | ⟨-, c', h1, h2, h3, h4⟩
      · exact ⟨c, hc, h0, hneg, fun j => le_refl _⟩
      · exact ⟨c', h1, h2, h3, fun j => (update_le j).trans (h4 j)⟩
    · have : n = N + 1 := by omega
      subst this
      left
      refine ⟨rfl, ?_⟩
      cases hs with
      | step hs hc' h0' hneg' =>
        rcases ih hs (le_refl _) with ⟨-, rfl⟩ | ⟨h, -⟩
        · rw [hc] at hc'
          cases hc'
          rfl
        · omega

/-- No state comes after the end. -/
theorem Ending.last {cs : List AgentCategory} {r : List ℕ} {N n : ℕ} {t s : ℕ → ℕ} {p : List ℚ} (hp : Path cs r N t) (he : Ending cs r t p)
    (hs : Path cs r n s) : n ≤ N := by
  by_contra hlt
  obtain ⟨c, hc, hend⟩ := he
  rcases hs.before hp (by omega) with ⟨h, -⟩ | ⟨-, c', h1, h2, h3, -⟩
  · omega
  · rw [hc] at h1
    cases h1
    rcases hend with ⟨h0, -⟩ | ⟨-, hge, -⟩
    · exact h2 h0
    · linarith

/-- The price in a category at the end. -/
theorem Ending.clock_le {cs : List AgentCategory} {r : List ℕ} (h : r.length = cs.length) (hne : rel cs r ≠ []) {n : ℕ} {s : ℕ → ℕ} {p : List ℚ}
    (hp : Path cs r n s) (he : Ending cs r s p) {i : ℕ} (hi : i < cs.length) : clock (vAt cs i) (s i) ≤ p.getD i 0 := by
  rcases (he.cases h hne hp).2 with ⟨-, rfl⟩ | ⟨c, -, -, -, -, h1, h2, -⟩
  · rw [mkPrices_getD hi]
  · by_cases hic : i = c
    · subst hic; exact h2.le
    · rw [h1 i hi hic]

theorem Ending.sum_nonpos {cs : List AgentCategory} {r : List ℕ} (h : r.length = cs.length) (hne : rel cs r ≠ []) {n : ℕ} {s : ℕ → ℕ} {p : List ℚ}
    (hp : Path cs r n s) (he : Ending cs r s p) : recipeSum r p ≤ 0 := by
  rcases (he.cases h hne hp).2 with ⟨-, rfl⟩ | ⟨c, -, -, -, h1, -⟩
  · exact ((hp.inv h hne).1.neg).le
  · exact h1.le

theorem set_getD {cs : List AgentCategory} {s : ℕ → ℕ} {c i : ℕ} (hi : i < cs.length) (x : ℚ) :
    ((mkPrices cs s).set c x).getD i 0 = if i = c then x else clock (vAt cs i) (s i) := by
  by_cases h : i = c
  · subst h; simp [mkPrices_length, hi]
  · rw [if_neg h, ← mkPrices_getD hi]; simp [Ne.symm h]

/-- **The comparison.** -/
theorem Better.outcome {cs ct : List AgentCategory} {r : List ℕ} {a : ℕ} (hB : Better cs ct r a) {n n' : ℕ} {s s' : ℕ → ℕ} {p p' : List ℚ}
    (hp : Path cs r n s) (he : Ending cs r s p) (hp' : Path ct r n' s') (he' : Ending ct r s' p') :
    (∀ j, s j ≤ s' j) ∧ (∀ j < cs.length, j ≠ a → p'.getD j 0 ≤ p.getD j 0) ∧ p.getD a 0 ≤ p'.getD a 0 := by
  have hr := hB.recipe
  have hr' : r.length = ct.length := hr.trans hB.length.symm
  have hne' : rel ct r ≠ [] := by rw [hB.rel_eq]; exact hB.ne
  obtain ⟨n₀, s₀, hp₀, hM⟩ := hB.path hp'
  have hn := Ending.last hp he hp₀
  rcases hp.before hp₀ hn with ⟨-, rfl⟩ | ⟨-, c₀, hm, hs0, -, hle⟩
  · -- both auctions end in corresponding states
    refine ⟨hM.le, ?_⟩
    obtain ⟨c, hc, hend⟩ := id he
    obtain ⟨c', hc', hend'⟩ := id he'
    rw [hB.rel_eq] at hc'
    obtain ⟨hcm', -⟩ := mainOf_ok hB.ne hc'
    obtain ⟨hcl', hcp'⟩ := relevant_mem.1 hcm'
    have hrc' : (0 : ℚ) < rAt r c' := by exact_mod_cast hcp'
    have hdiff := hB.diff hM
    have hck := hB.clock_le hM
    have hother : ∀ j, j ≠ a → clock (vAt ct j) (s' j) = clock (vAt cs j) (s₀ j) := fun j hj => by rw [hB.other j hj, hM.1 j hj]
    have hclock : ∀ i < cs.length, clock (vAt cs i) (s₀ i) ≤ p.getD i 0 := fun i hi => he.clock_le hr hB.ne hp hi
    by_cases hca : c' = a
    · subst hca
      rcases hend' with ⟨h0, rfl⟩ | ⟨h0, hge, rfl⟩
      · have hsa : s' c' = s₀ c' := by have := hM.le c'; omega
        obtain ⟨hm, -⟩ := hB.main_eq hM hc' (Or.inr hsa)
        rw [hm] at hc
        cases hc
        rcases hend with ⟨-, rfl⟩ | ⟨h1, -⟩
        · refine ⟨fun j hj hja => ?_, ?_⟩
          · rw [mkPrices_getD hj, mkPrices_getD (by rw [hB.length]; exact hj), hother j hja]
          · rw [mkPrices_getD hcl', mkPrices_getD (by rw [hB.length]; exact hcl')]
            exact hck
        · omega
      · refine ⟨fun j hj hja => ?_, ?_⟩
        · rw [set_getD (by rw [hB.length]; exact hj), if_neg hja, hother j hja]
          exact hclock j hj
        · rw [set_getD (by rw [hB.length]; exact hcl'), if_pos rfl]
          have hlow : clock (vAt ct c') (s' c') ≤ balPrice ct r s' c' := by
            have := (hp'.inv hr' hne').1.neg
            unfold balPrice
            rw [le_div_iff₀ hrc']
            linarith
          rcases hend with ⟨-, rfl⟩ | ⟨-, -, rfl⟩
          · rw [mkPrices_getD hcl']
            exact hck.trans hlow
          · rw [set_getD hcl']
            split
            · rename_i hcc
              subst hcc
              unfold balPrice
              rw [hdiff]
            · exact hck.trans hlow
    · obtain ⟨hm, hsc⟩ := hB.main_eq hM hc' (Or.inl hca)
      rw [hm] at hc
      cases hc
      rcases hend' with ⟨h0, rfl⟩ | ⟨h0, hge, rfl⟩
      · rcases hend with ⟨-, rfl⟩ | ⟨h1, -⟩
        · refine ⟨fun j hj hja => ?_, ?_⟩
          · rw [mkPrices_getD hj, mkPrices_getD (by rw [hB.length]; exact hj), hother j hja]
          · rw [mkPrices_getD hB.lt, mkPrices_getD (by rw [hB.length]; exact hB.lt)]
            exact hck
        · omega
      · rcases hend with ⟨h1, -⟩ | ⟨-, -, rfl⟩
        · omega
        · have hac : a ≠ c := fun h => hca h.symm
          refine ⟨fun j hj hja => ?_, ?_⟩
          · rw [set_getD hj, set_getD (by rw [hB.length]; exact hj)]
            split
            · rename_i hjc
              subst hjc
              unfold balPrice
              rw [div_le_div_iff_of_pos_right hrc', hother _ hja]
              have := hB.sum_le hM
              linarith
            · rw [hother j hja]
          · rw [set_getD hB.lt, set_getD (by rw [hB.length]; exact hB.lt), if_neg hac, if_neg hac]
            exact hck
  · -- the auction in the first market goes on
    have hs : ∀ j, s j ≤ s₀ j := fun j => (hle j).trans (update_le j)
    have hsle : ∀ j, s j ≤ s' j := fun j => (hs j).trans (hM.le j)
    refine ⟨hsle, ?_⟩
    have hclock : ∀ i < cs.length, clock (vAt cs i) (s i) ≤ p.getD i 0 := fun i hi => he.clock_le hr hB.ne hp hi
    obtain ⟨c', hc', hend'⟩ := id he'
    rw [hB.rel_eq] at hc'
    obtain ⟨hcm', harg'⟩ := mainOf_ok hB.ne hc'
    obtain ⟨hcl', hcp'⟩ := relevant_mem.1 hcm'
    obtain ⟨hcm0, -⟩ := mainOf_ok hB.ne hm
    rcases (he'.cases hr' hne' hp') with ⟨hlen', ⟨h0, -⟩ | ⟨c'', hcm'', h0, -, hbal, hoth, -, hup⟩⟩
    · have := h0 c₀ (by rw [hB.rel_eq]; exact hcm0)
      have := hM.le c₀
      omega
    have hcc : c'' = c' := by
      rcases hend' with ⟨h1, -⟩ | ⟨h1, h2, h3⟩
      · exfalso
        have h4 := harg' c'' (by rw [← hB.rel_eq]; exact hcm'')
        rw [h1, Nat.zero_mul] at h4
        rcases Nat.mul_eq_zero.1 (Nat.le_zero.1 h4) with h5 | h5
        · exact h0 h5
        · omega
      · by_contra hne
        have h4 := hoth c' (by rw [hB.length]; exact hcl') (fun h => hne h.symm)
        rw [h3, set_getD (by rw [hB.length]; exact hcl'), if_pos rfl] at h4
        have h5 := (hp'.inv hr' hne').1.neg
        have hrc' : (0 : ℚ) < rAt r c' := by exact_mod_cast hcp'
        unfold balPrice at h4
        rw [div_eq_iff hrc'.ne'] at h4
        linarith
    subst hcc
    have hothers : ∀ j < cs.length, j ≠ a → p'.getD j 0 ≤ p.getD j 0 := by
      intro j hj hja
      by_cases hjc : j = c''
      · subst hjc
        obtain ⟨h1, h2⟩ := hB.main_eq hM hc' (Or.inl hja)
        rw [hm] at h1
        cases h1
        have h3 := hle c₀
        rw [Function.update_self] at h3
        rw [hB.other _ hja, h2] at hup
        exact hup.trans ((clock_antitone (hB.sorted _) (hB.bound _) h3).trans (hclock _ hj))
      · rw [hoth j (by rw [hB.length]; exact hj) hjc, hB.other j hja, hM.1 j hja]
        exact (clock_antitone (hB.sorted j) (hB.bound j) (hs j)).trans (hclock j hj)
    refine ⟨hothers, ?_⟩
    have hlen := (he.cases hr hB.ne hp).1
    have hsum := he.sum_nonpos hr hB.ne hp
    rw [recipeSum_eq_sum hr hlen] at hsum
    rw [recipeSum_eq_sum hr (hlen'.trans hB.length)] at hbal
    have ha := Finset.mem_range.2 hB.lt
    rw [← Finset.add_sum_erase _ _ ha] at hsum hbal
    have hrest : ∑ x ∈ (Finset.range cs.length).erase a, (rAt r x : ℚ) * p'.getD x 0
        ≤ ∑ x ∈ (Finset.range cs.length).erase a, (rAt r x : ℚ) * p.getD x 0 := by
      refine Finset.sum_le_sum fun x hx => ?_
      obtain ⟨h1, h2⟩ := Finset.mem_erase.1 hx
      exact mul_le_mul_of_nonneg_left (hothers x (Finset.mem_range.1 h2) h1) (by exact_mod_cast Nat.zero_le _)
    by_cases hra : rAt r a = 0
    · have hnot : a ∉ rel cs r := fun h => by have := (relevant_mem.1 h).2; omega
      have hne1 : a ≠ c'' := fun h => hnot (by rw [h]; exact hcm')
      rw [hoth a (by rw [hB.length]; exact hB.lt) hne1]
      have hpa : p.getD a 0 = clock (vAt cs a) (s a) := by
        obtain ⟨c, hc, hend⟩ := id he
        have hcm := (mainOf_ok hB.ne hc).1
        rcases hend with ⟨-, rfl⟩ | ⟨-, -, rfl⟩
        · rw [mkPrices_getD hB.lt]
        · rw [set_getD hB.lt, if_neg (fun h => hnot (by rw [h]; exact hcm))]
      rw [hpa, (hp.inv hr hB.ne).1.unused a hnot, clock_of_ge (le_refl _)]
      exact le_clock (hB.bound' a) _
    · have hra' : (0 : ℚ) < rAt r a := by exact_mod_cast Nat.pos_of_ne_zero hra
      by_contra hlt
      push Not at hlt
      have := mul_lt_mul_of_pos_left hlt hra'
      linarith

end Ascending

end Auctions
