import Verif.Proofs.TreeTermination
import Mathlib.Tactic.LinearCombination

set_option autoImplicit false

/-! # Helper lemmas: how many deals are better than the current clock of the tree auction -/

namespace Auctions

open Spec TreeAuction

/-! ## Lists split by a threshold -/

/-- The first `c` elements are above `q`, the others are not. -/
structure SplitAt (l : List ℚ) (c : ℕ) (q : ℚ) : Prop where
  le : c ≤ l.length
  above : ∀ k (h : k < l.length), k < c → q < l[k]
  rest : ∀ k (h : k < l.length), c ≤ k → l[k] ≤ q

theorem splitAt_count {l : List ℚ} {c : ℕ} {q : ℚ} (h : SplitAt l c q) : l.countP (fun x => q < x) = c := by
  induction l generalizing c with
  | nil => have := h.le; simp at this; simp [this]
  | cons a l ih =>
    cases c with
    | zero =>
      rw [List.countP_eq_zero]
      intro x hx
      obtain ⟨k, hk, rfl⟩ := List.getElem_of_mem hx
      simpa using h.rest k hk (Nat.zero_le _)
    | succ c =>
      have h0 := h.above 0 (by simp) (by omega)
      rw [List.countP_cons_of_pos (by simpa using h0)]
      rw [ih (c := c) ⟨by have := h.le; simpa using this, fun k hk hkc => ?_, fun k hk hkc => ?_⟩]
      · have := h.above (k + 1) (by simpa using hk) (by omega); simpa using this
      · have := h.rest (k + 1) (by simpa using hk) (by omega); simpa using this

theorem splitAt_of_sorted {l : List ℚ} (hs : SortedDesc l) (q : ℚ) : SplitAt l (l.countP (fun x => q < x)) q := by
  induction l with
  | nil => exact ⟨by simp, by simp, by simp⟩
  | cons a l ih =>
    have hi := ih (hs.sublist (List.sublist_cons_self _ _))
    by_cases ha : q < a
    · rw [List.countP_cons_of_pos (by simpa using ha)]
      refine ⟨by have := hi.le; simpa using this, ?_, ?_⟩
      · intro k hk hkc
        cases k with
        | zero => simpa using ha
        | succ k => simpa using hi.above k (by simpa using hk) (by omega)
      · intro k hk hkc
        cases k with
        | zero => omega
        | succ k => simpa using hi.rest k (by simpa using hk) (by omega)
    · have h0 : (a :: l).countP (fun x => decide (q < x)) = 0 := by
        rw [List.countP_eq_zero]
        intro x hx
        have := hs.le_head x hx
        simp only [decide_eq_true_eq]; linarith
      rw [h0]
      refine ⟨by simp, by omega, ?_⟩
      intro k hk _
      have := hs.le_head _ (List.getElem_mem hk)
      linarith

theorem splitAt_mem {l : List ℚ} (hs : SortedDesc l) {c : ℕ} {q : ℚ} (h : SplitAt l c q) (hq : q ∈ l) : ∃ hc : c < l.length, l[c] = q := by
  obtain ⟨k, hk, hkq⟩ := List.getElem_of_mem hq
  have hck : c ≤ k := by
    by_contra hlt
    have := h.above k hk (by omega)
    rw [hkq] at this
    exact lt_irrefl _ this
  refine ⟨by omega, le_antisymm (h.rest c (by omega) (le_refl _)) ?_⟩
  have : l[c] ≥ l[k] := by apply hs.getElem_ge; omega
  rw [hkq] at this; exact this

/-- Sums of two split lists. -/
theorem splitAt_zip {l l' : List ℚ} {c : ℕ} {q q' : ℚ} (h : SplitAt l c q) (h' : SplitAt l' c q') :
    SplitAt (List.zipWith (· + ·) l l') c (q + q') := by
  refine ⟨by have := h.le; have := h'.le; simp; omega, ?_, ?_⟩
  · intro k hk hkc
    rw [List.length_zipWith] at hk
    rw [List.getElem_zipWith]
    have := h.above k (by omega) hkc
    have := h'.above k (by omega) hkc
    linarith
  · intro k hk hkc
    rw [List.length_zipWith] at hk
    rw [List.getElem_zipWith]
    have := h.rest k (by omega) hkc
    have := h'.rest k (by omega) hkc
    linarith

/-- Sums of two split lists, the second one with its threshold as an element. -/
theorem splitAt_zip_succ {l l' : List ℚ} {c : ℕ} {q q' : ℚ} (h : SplitAt l (c + 1) q) (h' : SplitAt l' c q')
    (hc : ∃ hc : c < l'.length, l'[c] = q') : SplitAt (List.zipWith (· + ·) l l') (c + 1) (q + q') := by
  obtain ⟨hc, he⟩ := hc
  refine ⟨by have := h.le; simp; omega, ?_, ?_⟩
  · intro k hk hkc
    rw [List.length_zipWith] at hk
    rw [List.getElem_zipWith]
    have h1 := h.above k (by omega) hkc
    by_cases hkc' : k < c
    · have := h'.above k (by omega) hkc'
      linarith
    · have : k = c := by omega
      subst this
      linarith
  · intro k hk hkc
    rw [List.length_zipWith] at hk
    rw [List.getElem_zipWith]
    have := h.rest k (by omega) hkc
    have := h'.rest k (by omega) (by omega)
    linarith

/-! ## The invariants -/

/-- Every path of the forest has the price sum `q`. -/
def Level (p : ℕ → ℚ) (f : Forest) (q : ℚ) : Prop := ∀ r, IsPath f r → psum p r = q

theorem Level.children {p : ℕ → ℚ} {i : ℕ} {ch s : Forest} {q : ℚ} (h : Level p (.cons i ch s) q) : Level p ch (q - p i) := by
  intro r hr
  have := h (i :: r) (isPath_cons.2 (Or.inr (Or.inl ⟨r, rfl, hr⟩)))
  rw [psum_cons] at this; linarith

theorem Level.siblings {p : ℕ → ℚ} {i : ℕ} {ch s : Forest} {q : ℚ} (h : Level p (.cons i ch s) q) : Level p s q :=
  fun r hr => h r (isPath_cons.2 (Or.inr (Or.inr hr)))

theorem Level.leaf {p : ℕ → ℚ} {i : ℕ} {s : Forest} {q : ℚ} (h : Level p (.cons i .nil s) q) : q = p i := by
  have := h [i] (isPath_cons.2 (Or.inl ⟨rfl, rfl⟩))
  simpa [psum] using this.symm

/-- The invariant that ties the sizes `R` and the prices `p` of the auction to the deals of the market `V`: for every node, with `c` agents in
its children and a price sum `qc` below it (thresholds: `t` for the clock, `M` for the initial prices). -/
def Clocked (V : ℕ → List ℚ) (R : ℕ → ℕ) (p : ℕ → ℚ) (M B : ℚ) : Forest → ℚ → ℚ → Prop
  | .nil, _, _ => True
  | .cons i ch s, t, q =>
    (ch ≠ .nil →
      (t - B < q - p i → ch.rootSizes R < R i → R i = ch.rootSizes R + 1 ∧ q - p i ∈ ch.combinedValues V) ∧
      (R i ≤ ch.rootSizes R → (p i ≤ -M ∧ R i = (V i).length) ∨ (R i = ch.rootSizes R ∧ (V i)[R i]? = some (p i)) ∨
        ch.rootSizes R = 0) ∧
      (R i < (V i).length → ch.rootSizes R ≤ R i)) ∧
    Clocked V R p M B ch (t - B) (q - p i) ∧ Clocked V R p M B s t q

/-- The setting: sorted values within `B`, and prices that split every category. -/
structure Setting (V : ℕ → List ℚ) (R : ℕ → ℕ) (p : ℕ → ℚ) (B : ℚ) (f : Forest) : Prop where
  sorted : ∀ i ∈ nodes f, SortedDesc (V i)
  bound : ∀ i ∈ nodes f, ∀ x ∈ V i, -B ≤ x ∧ x ≤ B
  split : ∀ i ∈ nodes f, SplitAt (V i) (R i) (p i)

theorem Setting.children {V : ℕ → List ℚ} {R : ℕ → ℕ} {p : ℕ → ℚ} {B : ℚ} {i : ℕ} {ch s : Forest}
    (h : Setting V R p B (.cons i ch s)) : Setting V R p B ch :=
  ⟨fun j hj => h.sorted j (by simp [nodes, hj]), fun j hj => h.bound j (by simp [nodes, hj]), fun j hj => h.split j (by simp [nodes, hj])⟩

theorem Setting.siblings {V : ℕ → List ℚ} {R : ℕ → ℕ} {p : ℕ → ℚ} {B : ℚ} {i : ℕ} {ch s : Forest}
    (h : Setting V R p B (.cons i ch s)) : Setting V R p B s :=
  ⟨fun j hj => h.sorted j (by simp [nodes, hj]), fun j hj => h.bound j (by simp [nodes, hj]), fun j hj => h.split j (by simp [nodes, hj])⟩

theorem nodeValues_nil_of {V : ℕ → List ℚ} {i : ℕ} {ch : Forest} (hc : ch ≠ .nil) (h : V i = [] ∨ ch.combinedValues V = []) :
    nodeValues V i ch = [] := by
  rw [nodeValues_of_ne _ _ hc]
  rcases h with h | h <;> simp [h, sortDesc]

/-- A forest whose roots have lost all agents at a low clock has no deals. -/
theorem no_deals {V : ℕ → List ℚ} {R : ℕ → ℕ} {p : ℕ → ℚ} {M B : ℚ} (hB : 0 ≤ B) {f : Forest} {t q a : ℚ} (hset : Setting V R p B f)
    (hl : Level p f q) (hcl : Clocked V R p M B f t q) (ha : a + height f * B < 0) (h0 : f.rootSizes R = 0) (hq : q ≤ a) :
    f.combinedValues V = [] := by
  induction f generalizing t q a with
  | nil => rfl
  | cons i ch s ih1 ih2 =>
    rw [Forest.rootSizes] at h0
    rw [combinedValues_cons]
    have hh1 : (height ch : ℚ) + 1 ≤ height (.cons i ch s) := by rw [height]; exact_mod_cast le_max_left _ _
    have hh2 : (height s : ℚ) ≤ height (.cons i ch s) := by rw [height]; exact_mod_cast le_max_right _ _
    have h1 : (height ch : ℚ) * B + B ≤ height (.cons i ch s) * B := by nlinarith
    have h2 : (height s : ℚ) * B ≤ height (.cons i ch s) * B := mul_le_mul_of_nonneg_right hh2 hB
    rw [ih2 hset.siblings hl.siblings hcl.2.2 (by linarith) (by omega) hq, List.append_nil]
    have hR : R i = 0 := by omega
    have hsp := hset.split i (by simp [nodes])
    by_cases hv : V i = []
    · by_cases hc : ch = .nil
      · subst hc; simpa [nodeValues] using hv
      · exact nodeValues_nil_of hc (Or.inl hv)
    · have hlen : 0 < (V i).length := List.length_pos_iff.2 hv
      have hp : -B ≤ p i := by
        have h1 := hsp.rest 0 hlen (by omega)
        have h2 := (hset.bound i (by simp [nodes]) _ (List.getElem_mem hlen)).1
        linarith
      have hch : (0 : ℚ) ≤ height ch * B := by positivity
      by_cases hc : ch = .nil
      · subst hc
        have := hl.leaf
        exfalso; linarith
      · have h6 := (hcl.1 hc).2.2 (by omega)
        apply nodeValues_nil_of hc
        right
        exact ih1 hset.children hl.children hcl.2.1 (a := a + B) (by linarith) (by omega) (by linarith)

/-- The two parts of `count_above`. -/
theorem node_split {V : ℕ → List ℚ} {R : ℕ → ℕ} {p : ℕ → ℚ} {M B : ℚ} (hB : 0 ≤ B) {i : ℕ} {ch s : Forest} {t q a κ : ℚ}
    (hset : Setting V R p B (.cons i ch s)) (hl : Level p (.cons i ch s) q) (hcl : Clocked V R p M B (.cons i ch s) t q)
    (hcap : Capped B p κ (.cons i ch s)) (hta : t ≤ a) (hκ : B * (κ - 1) ≤ t + M) (ha : a + height (.cons i ch s) * B < 0) (hq : t < q)
    (hcount : ch ≠ .nil → t - B < q - p i → (ch.combinedValues V).countP (fun x => q - p i < x) = ch.rootSizes R) :
    SplitAt (nodeValues V i ch) (R i) q := by
  have hsp := hset.split i (by simp [nodes])
  by_cases hc : ch = .nil
  · subst hc
    rw [hl.leaf]; exact hsp
  · obtain ⟨c1, c2, c3⟩ := hcl.1 hc
    obtain ⟨r, hr⟩ := exists_path hc
    have hqc : q - p i ≤ B * (κ - 1) := (hl.children r hr) ▸ hcap.1 r hr
    have hpq : q = p i + (q - p i) := by ring
    by_cases htc : t - B < q - p i
    · have hN := hcount hc htc
      have hY : SplitAt (sortDesc (ch.combinedValues V)) (ch.rootSizes R) (q - p i) := by
        have := splitAt_of_sorted (sortDesc_sorted (ch.combinedValues V)) (q - p i)
        rwa [(sortDesc_perm _).countP_eq, hN] at this
      rw [nodeValues_of_ne _ _ hc]
      by_cases hR : ch.rootSizes R < R i
      · obtain ⟨e1, e2⟩ := c1 htc hR
        have hm := splitAt_mem (sortDesc_sorted _) hY (mem_sortDesc.2 e2)
        rw [e1] at hsp ⊢
        rw [hpq]
        exact splitAt_zip_succ hsp hY hm
      · rcases c2 (by omega) with ⟨h1, -⟩ | ⟨h1, -⟩ | h1
        · exfalso; linarith
        · rw [hpq]
          rw [← h1] at hY
          exact splitAt_zip hsp hY
        · have h0 : R i = ch.rootSizes R := by omega
          rw [hpq]
          rw [← h0] at hY
          exact splitAt_zip hsp hY
    · -- the price is above all values
      have hp : B < p i := by linarith
      have hR : R i = 0 := by
        by_contra h
        have hle := hsp.le
        have hlt : 0 < (V i).length := by omega
        have h1 := hsp.above 0 hlt (by omega)
        have h2 := (hset.bound i (by simp [nodes]) _ (List.getElem_mem hlt)).2
        linarith
      have hnil : nodeValues V i ch = [] := by
        apply nodeValues_nil_of hc
        by_cases hv : V i = []
        · exact Or.inl hv
        · right
          have hlen : 0 < (V i).length := List.length_pos_iff.2 hv
          have h6 := c3 (by omega)
          have hh1 : (height ch : ℚ) + 1 ≤ height (.cons i ch s) := by rw [height]; exact_mod_cast le_max_left _ _
          have h1 : (height ch : ℚ) * B + B ≤ height (.cons i ch s) * B := by nlinarith
          exact no_deals hB hset.children hl.children hcl.2.1 (a := a) (by linarith) (by omega) (by linarith)
      rw [hnil, hR]
      exact ⟨by simp, by simp, by simp⟩

/-- When the clock is above the threshold, the number of deals better than the clock is the number of agents in the roots. -/
theorem count_above {V : ℕ → List ℚ} {R : ℕ → ℕ} {p : ℕ → ℚ} {M B : ℚ} (hB : 0 ≤ B) {f : Forest} {t q a κ : ℚ}
    (hset : Setting V R p B f) (hl : Level p f q) (hcl : Clocked V R p M B f t q)
    (hcap : Capped B p κ f) (hta : t ≤ a) (hκ : B * (κ - 1) ≤ t + M) (ha : a + height f * B < 0) (hq : t < q) :
    (f.combinedValues V).countP (fun x => q < x) = f.rootSizes R := by
  induction f generalizing t q a κ with
  | nil => rfl
  | cons i ch s ih1 ih2 =>
    have hh1 : (height ch : ℚ) + 1 ≤ height (.cons i ch s) := by rw [height]; exact_mod_cast le_max_left _ _
    have hh2 : (height s : ℚ) ≤ height (.cons i ch s) := by rw [height]; exact_mod_cast le_max_right _ _
    have h1 : (height ch : ℚ) * B + B ≤ height (.cons i ch s) * B := by nlinarith
    have h2 : (height s : ℚ) * B ≤ height (.cons i ch s) * B := mul_le_mul_of_nonneg_right hh2 hB
    have hn := node_split hB hset hl hcl hcap hta hκ ha hq (fun hc htc =>
      ih1 hset.children hl.children hcl.2.1 hcap.2.1 (a := a + B) (by linarith) (by linarith) (by linarith) htc)
    rw [combinedValues_cons, List.countP_append, splitAt_count hn,
      ih2 hset.siblings hl.siblings hcl.2.2 hcap.2.2 hta hκ (by linarith) hq, Forest.rootSizes]

end Auctions
