import Verif.Proofs.TreeAuction
import Verif.Proofs.UnneededTree
import Verif.Proofs.TreeTermination
import Mathlib.Tactic.Linarith
import Mathlib.Tactic.Ring
import Mathlib.Tactic.Positivity

set_option autoImplicit false

/-! # Helper definitions and lemmas: a tree of clocks started at different prices -/

namespace Auctions.StartPrices

open Auctions Spec

/-- The number of values above the price. -/
def cnt (vals : ℕ → List ℚ) (p : ℕ → ℚ) (i : ℕ) : ℕ := ((vals i).filter (p i < ·)).length

/-- The number of values that are at least `x`. -/
def cntGe (vals : ℕ → List ℚ) (i : ℕ) (x : ℚ) : ℕ := ((vals i).filter (x ≤ ·)).length

/-- All paths of the forest have the price-sum `s`. -/
def Bal (f : Forest) (p : ℕ → ℚ) (s : ℚ) : Prop := ∀ l, IsPath f l → (l.map p).sum = s

/-- The categories whose prices are raised. -/
def cut (vals : ℕ → List ℚ) (f : Forest) (p : ℕ → ℚ) : List ℕ := (f.largestCategories (cnt vals p)).2.2

/-- The condition for raising a node and not its children. -/
def Up (n l : ℕ) : Prop := l < n ∨ l = 0

instance (n l : ℕ) : Decidable (Up n l) := inferInstanceAs (Decidable (l < n ∨ l = 0))

theorem Up.mono {n n' l l' : ℕ} (h : Up n l) (hn : n ≤ n') (hl : l' ≤ l) : Up n' l' := by
  rcases h with h | h
  · left; omega
  · right; omega

theorem bal_children {i : ℕ} {ch s : Forest} {p : ℕ → ℚ} {x : ℚ} (h : Bal (.cons i ch s) p x) : Bal ch p (x - p i) := by
  intro l hl
  have := h (i :: l) (isPath_cons.2 (Or.inr (Or.inl ⟨l, rfl, hl⟩)))
  rw [List.map_cons, List.sum_cons] at this
  linarith

theorem bal_siblings {i : ℕ} {ch s : Forest} {p : ℕ → ℚ} {x : ℚ} (h : Bal (.cons i ch s) p x) : Bal s p x :=
  fun l hl => h l (isPath_cons.2 (Or.inr (Or.inr hl)))

theorem bal_leaf {i : ℕ} {s : Forest} {p : ℕ → ℚ} {x : ℚ} (h : Bal (.cons i .nil s) p x) : p i = x := by
  have := h [i] (isPath_cons.2 (Or.inl ⟨rfl, rfl⟩))
  simpa using this

theorem bal_unique {f : Forest} {p : ℕ → ℚ} {x y : ℚ} (hf : f ≠ .nil) (hx : Bal f p x) (hy : Bal f p y) : x = y := by
  obtain ⟨l, hl⟩ := exists_path hf
  rw [← hx l hl, hy l hl]

theorem bal_congr {f : Forest} {p q : ℕ → ℚ} {x : ℚ} (h : ∀ j ∈ nodes f, p j = q j) (hx : Bal f p x) : Bal f q x := by
  intro l hl
  rw [← hx l hl]
  congr 1
  exact List.map_congr_left fun j hj => (h j (isPath_subset hl j hj)).symm

theorem cnt_congr {vals : ℕ → List ℚ} {p q : ℕ → ℚ} {i : ℕ} (h : p i = q i) : cnt vals p i = cnt vals q i := by
  unfold cnt; rw [h]

theorem roots_congr {vals : ℕ → List ℚ} {p q : ℕ → ℚ} {f : Forest} (h : ∀ j ∈ nodes f, p j = q j) :
    f.rootSizes (cnt vals p) = f.rootSizes (cnt vals q) := rootSizes_agree fun i hi => cnt_congr (h i hi)

theorem roots_mono {a b : ℕ → ℕ} {f : Forest} (h : ∀ j ∈ nodes f, a j ≤ b j) : f.rootSizes a ≤ f.rootSizes b := by
  induction f with
  | nil => simp [Forest.rootSizes]
  | cons i ch s _ ih2 =>
    rw [Forest.rootSizes, Forest.rootSizes]
    have h1 := h i (by simp [nodes])
    have h2 := ih2 fun j hj => h j (by simp [nodes, hj])
    omega

theorem cnt_anti {vals : ℕ → List ℚ} {p q : ℕ → ℚ} {i : ℕ} (h : p i ≤ q i) : cnt vals q i ≤ cnt vals p i := by
  unfold cnt
  rw [← List.countP_eq_length_filter, ← List.countP_eq_length_filter]
  apply List.countP_mono_left
  intro x _ hx
  simp only [decide_eq_true_eq] at hx ⊢
  linarith

theorem cntGe_anti {vals : ℕ → List ℚ} {i : ℕ} {x y : ℚ} (h : x ≤ y) : cntGe vals i y ≤ cntGe vals i x := by
  unfold cntGe
  rw [← List.countP_eq_length_filter, ← List.countP_eq_length_filter]
  apply List.countP_mono_left
  intro z _ hz
  simp only [decide_eq_true_eq] at hz ⊢
  linarith

theorem cntGe_le_cnt {vals : ℕ → List ℚ} {p : ℕ → ℚ} {i : ℕ} {y : ℚ} (h : p i < y) : cntGe vals i y ≤ cnt vals p i := by
  unfold cntGe cnt
  rw [← List.countP_eq_length_filter, ← List.countP_eq_length_filter]
  apply List.countP_mono_left
  intro z _ hz
  simp only [decide_eq_true_eq] at hz ⊢
  linarith

theorem cnt_le_cntGe {vals : ℕ → List ℚ} {p : ℕ → ℚ} {i : ℕ} {y : ℚ} (h : ∀ x ∈ vals i, p i < x → y ≤ x) : cnt vals p i ≤ cntGe vals i y := by
  unfold cntGe cnt
  rw [← List.countP_eq_length_filter, ← List.countP_eq_length_filter]
  apply List.countP_mono_left
  intro z hz1 hz
  simp only [decide_eq_true_eq] at hz ⊢
  exact h z hz1 hz

theorem cnt_pos {vals : ℕ → List ℚ} {p : ℕ → ℚ} {i : ℕ} : 0 < cnt vals p i ↔ ∃ x ∈ vals i, p i < x := by
  unfold cnt
  rw [List.length_pos_iff_exists_mem]
  simp

theorem cnt_zero {vals : ℕ → List ℚ} {p : ℕ → ℚ} {i : ℕ} : cnt vals p i = 0 ↔ ∀ x ∈ vals i, x ≤ p i := by
  unfold cnt
  rw [List.length_eq_zero_iff, List.filter_eq_nil_iff]
  simp

/-! ## Settled prices -/

variable (vals : ℕ → List ℚ) (M V : ℚ)

/-- Above this sum every clock of the forest has been raised. -/
def limit (f : Forest) : ℚ := -M + V * (height f - 1)

/-- The prices are those that the clocks of the forest reach at their price-sum, wherever they start: at every node with children, raising the node up to its price was right given what has
become of the children, and raising it further would not have been right with the prices that the children had earlier. -/
def Good : Forest → (ℕ → ℚ) → Prop
  | .nil, _ => True
  | .cons i ch s, p => Good ch p ∧ Good s p ∧ Up (cntGe vals i (p i)) (ch.rootSizes (cnt vals p)) ∧
      (ch ≠ .nil → ∀ x, Bal ch p x → limit M V ch < x) ∧
      ∀ q x y, ch ≠ .nil → Good ch q → Bal ch p x → Bal ch q y → limit M V ch < y → y < x → ¬ Up (cntGe vals i (p i + x - y)) (ch.rootSizes (cnt vals q))

/-- The invariant of the raises, also during the first ones. -/
def Inv : Forest → (ℕ → ℚ) → Prop
  | .nil, _ => True
  | .cons i ch s, p => Inv ch p ∧ Inv s p ∧ (cnt vals p i = 0 → ∀ j ∈ nodes ch, cnt vals p j = 0) ∧
      (0 < cnt vals p i → ch ≠ .nil → ∀ x, Bal ch p x → x ≤ V * height ch) ∧
      (Up (cntGe vals i (p i)) (ch.rootSizes (cnt vals p)) ∨ p i ≤ -M) ∧
      ∀ q x y, ch ≠ .nil → Good vals M V ch q → Bal ch p x → Bal ch q y → limit M V ch < y → y < x → ¬ Up (cntGe vals i (p i + x - y)) (ch.rootSizes (cnt vals q))

variable {vals M V}

theorem height_pos {f : Forest} (hf : f ≠ .nil) : (1 : ℚ) ≤ height f := by
  cases f with
  | nil => exact absurd rfl hf
  | cons i ch s =>
    have : 1 ≤ height (.cons i ch s) := by rw [height]; omega
    exact_mod_cast this

/-- Settled prices are determined by their sum. -/
theorem good_unique {f : Forest} {p q : ℕ → ℚ} {x : ℚ} (hp : Good vals M V f p) (hq : Good vals M V f q) (hx : Bal f p x) (hy : Bal f q x) :
    ∀ j ∈ nodes f, p j = q j := by
  induction f generalizing x with
  | nil => intro j hj; simp [nodes] at hj
  | cons i ch s ih1 ih2 =>
    obtain ⟨p1, p2, p3, p4, p5⟩ := hp
    obtain ⟨q1, q2, q3, q4, q5⟩ := hq
    have hi : p i = q i := by
      by_cases hch : ch = .nil
      · subst hch
        rw [bal_leaf hx, bal_leaf hy]
      · have bx := bal_children hx
        have by' := bal_children hy
        rcases lt_trichotomy (p i) (q i) with h | h | h
        · exfalso
          refine p5 q _ _ hch q1 bx by' (q4 hch _ by') (by linarith) ?_
          rw [show p i + (x - p i) - (x - q i) = q i by ring]; exact q3
        · exact h
        · exfalso
          refine q5 p _ _ hch p1 by' bx (p4 hch _ bx) (by linarith) ?_
          rw [show q i + (x - q i) - (x - p i) = p i by ring]; exact p3
    intro j hj
    rw [nodes, List.mem_cons, List.mem_append] at hj
    rcases hj with rfl | hj | hj
    · exact hi
    · exact ih1 p1 q1 (bal_children hx) (by rw [hi]; exact bal_children hy) j hj
    · exact ih2 p2 q2 (bal_siblings hx) (bal_siblings hy) j hj

/-- The setting: every category has agents, of different values, that are small compared with the starting prices. -/
structure Small (vals : ℕ → List ℚ) (V : ℚ) (f : Forest) : Prop where
  nonneg : 0 ≤ V
  ne : ∀ i ∈ nodes f, vals i ≠ []
  nodup : ∀ i ∈ nodes f, (vals i).Nodup
  le : ∀ i ∈ nodes f, ∀ x ∈ vals i, -V ≤ x ∧ x ≤ V

theorem Small.mono {f g : Forest} (h : Small vals V f) (hg : ∀ i ∈ nodes g, i ∈ nodes f) : Small vals V g :=
  ⟨h.nonneg, fun i hi => h.ne i (hg i hi), fun i hi => h.nodup i (hg i hi), fun i hi => h.le i (hg i hi)⟩

theorem Small.children {i : ℕ} {ch s : Forest} (h : Small vals V (.cons i ch s)) : Small vals V ch := h.mono fun j hj => by simp [nodes, hj]

theorem Small.siblings {i : ℕ} {ch s : Forest} (h : Small vals V (.cons i ch s)) : Small vals V s := h.mono fun j hj => by simp [nodes, hj]

theorem height_children {i : ℕ} {ch s : Forest} (hV : 0 ≤ V) (h : V * (2 * height (.cons i ch s) - 1) < M) :
    V * (2 * height ch) < M ∧ V * (2 * height ch - 1) < M ∧ V < M ∧ V + V * height ch ≤ V * height (.cons i ch s) := by
  have h1 : (1 + height ch : ℕ) ≤ height (.cons i ch s) := by rw [Nat.add_comm]; exact le_max_left _ _
  have h2 : (1 + height ch : ℚ) ≤ height (.cons i ch s) := by exact_mod_cast h1
  have h0 : (0 : ℚ) ≤ height ch := by positivity
  have h3 : V * (1 + height ch) ≤ V * height (.cons i ch s) := mul_le_mul_of_nonneg_left h2 hV
  have h4 : 0 ≤ V * height ch := mul_nonneg hV h0
  refine ⟨?_, ?_, ?_, ?_⟩ <;> nlinarith

theorem height_siblings {i : ℕ} {ch s : Forest} (hV : 0 ≤ V) : V * height s ≤ V * height (.cons i ch s) := by
  have h1 : height s ≤ height (.cons i ch s) := le_max_right _ _
  exact mul_le_mul_of_nonneg_left (by exact_mod_cast h1) hV

theorem sum_ge {l : List ℕ} {p : ℕ → ℚ} {b : ℚ} (h : ∀ j ∈ l, b ≤ p j) : b * l.length ≤ (l.map p).sum := by
  induction l with
  | nil => simp
  | cons a l ih =>
    have h1 := h a (by simp)
    have h2 := ih fun j hj => h j (by simp [hj])
    simp only [List.map_cons, List.sum_cons, List.length_cons]
    push_cast
    linarith

/-- Where all agents have left, the sum is not low. -/
theorem empty_sum {f : Forest} (hs : Small vals V f) {p : ℕ → ℚ} {x : ℚ} (hf : f ≠ .nil) (hx : Bal f p x) (h : ∀ j ∈ nodes f, cnt vals p j = 0) :
    -(V * height f) ≤ x := by
  obtain ⟨l, hl⟩ := exists_path hf
  rw [← hx l hl]
  have h1 := sum_ge (l := l) (p := p) (b := -V) fun j hj => by
    have hj' := isPath_subset hl j hj
    obtain ⟨y, hy⟩ := List.exists_mem_of_ne_nil _ (hs.ne j hj')
    have := cnt_zero.1 (h j hj') y hy
    have := (hs.le j hj' y hy).1
    linarith
  have h2 : (l.length : ℚ) ≤ height f := by exact_mod_cast isPath_length_le hl
  have h3 := mul_le_mul_of_nonneg_left h2 hs.nonneg
  linarith

/-- Above the limit the prices are settled. -/
theorem inv_good {f : Forest} {p : ℕ → ℚ} {x : ℚ} (hs : Small vals V f) (hM : V * (2 * height f - 1) < M) (h : Inv vals M V f p) (hx : Bal f p x)
    (hl : limit M V f < x) : Good vals M V f p := by
  induction f generalizing x with
  | nil => trivial
  | cons i ch s ih1 ih2 =>
    obtain ⟨h1, h2, h3, h4, h5, h6⟩ := h
    obtain ⟨m1, m2, m3, m4⟩ := height_children hs.nonneg hM
    have m5 := height_siblings (i := i) (ch := ch) (s := s) hs.nonneg
    have hi : i ∈ nodes (.cons i ch s) := by simp [nodes]
    have hch : ch ≠ .nil → limit M V ch < x - p i := by
      intro hch
      unfold limit at hl ⊢
      by_cases h0 : cnt vals p i = 0
      · have := empty_sum hs.children hch (bal_children hx) (h3 h0)
        linarith
      · obtain ⟨y, hy, hpy⟩ := cnt_pos.1 (Nat.pos_of_ne_zero h0)
        have := (hs.le i hi y hy).2
        linarith
    have hV := hs.nonneg
    refine ⟨?_, ?_, ?_, fun hc y hy => ?_, h6⟩
    · by_cases hc : ch = .nil
      · subst hc; trivial
      · exact ih1 hs.children m2 h1 (bal_children hx) (hch hc)
    · refine ih2 hs.siblings ?_ h2 (bal_siblings hx) ?_
      · nlinarith
      · unfold limit at hl ⊢; linarith
    · rcases h5 with h5 | h5
      · exact h5
      · by_cases hc : ch = .nil
        · subst hc; right; rfl
        · exfalso
          have hpos : 0 < cnt vals p i := by
            obtain ⟨y, hy⟩ := List.exists_mem_of_ne_nil _ (hs.ne i hi)
            exact cnt_pos.2 ⟨y, hy, by have := (hs.le i hi y hy).1; linarith⟩
          have := h4 hpos hc _ (bal_children hx)
          unfold limit at hl
          linarith
    · rw [bal_unique hc hy (bal_children hx)]; exact hch hc

/-! ## A raise -/

/-- The prices `q` come from `p` by raising the chosen categories by `d`, -/
def Raised (vals : ℕ → List ℚ) (f : Forest) (p q : ℕ → ℚ) (d : ℚ) : Prop := ∀ j ∈ nodes f, q j = p j + if j ∈ cut vals f p then d else 0

/-- and no price passes a value. -/
def NoCross (vals : ℕ → List ℚ) (f : Forest) (p : ℕ → ℚ) (d : ℚ) : Prop := ∀ j ∈ cut vals f p, ∀ x ∈ vals j, p j < x → p j + d ≤ x

theorem cut_sub {f : Forest} {p : ℕ → ℚ} : ∀ j ∈ cut vals f p, j ∈ nodes f := largest_subset _ f

theorem cut_up {i : ℕ} {ch s : Forest} {p : ℕ → ℚ} (h : Up (cnt vals p i) (ch.rootSizes (cnt vals p))) : cut vals (.cons i ch s) p = i :: cut vals s p := by
  unfold cut
  rw [Forest.largestCategories]
  dsimp only
  rw [if_pos (by simpa [Up] using h)]
  rfl

theorem cut_down {i : ℕ} {ch s : Forest} {p : ℕ → ℚ} (h : ¬ Up (cnt vals p i) (ch.rootSizes (cnt vals p))) :
    cut vals (.cons i ch s) p = cut vals ch p ++ cut vals s p := by
  unfold cut
  rw [Forest.largestCategories]
  dsimp only
  rw [if_neg (by simpa [Up] using h)]

section
variable {i : ℕ} {ch s : Forest} {p q : ℕ → ℚ} {d : ℚ} (hn : (nodes (.cons i ch s)).Nodup) (hr : Raised vals (.cons i ch s) p q d)
  (hc : NoCross vals (.cons i ch s) p d)
include hn

theorem nodup_parts : i ∉ nodes ch ∧ i ∉ nodes s ∧ (nodes ch).Nodup ∧ (nodes s).Nodup ∧ ∀ j ∈ nodes ch, j ∉ nodes s := by
  rw [nodes, List.nodup_cons, List.mem_append, List.nodup_append] at hn
  obtain ⟨h1, h2, h3, h4⟩ := hn
  refine ⟨fun h => h1 (Or.inl h), fun h => h1 (Or.inr h), h2, h3, fun j hj hj' => h4 j hj j hj' rfl⟩

include hr in
theorem raised_siblings : Raised vals s p q d := by
  obtain ⟨n1, n2, n3, n4, n5⟩ := nodup_parts hn
  intro j hj
  rw [hr j (by simp [nodes, hj])]
  congr 1
  by_cases hu : Up (cnt vals p i) (ch.rootSizes (cnt vals p))
  · rw [cut_up hu]
    have : j ≠ i := fun e => n2 (e ▸ hj)
    simp [this]
  · rw [cut_down hu]
    have : j ∉ cut vals ch p := fun h => n5 j (cut_sub j h) hj
    simp [this]

omit hn in
include hc in
theorem noCross_siblings : NoCross vals s p d := by
  intro j hj
  apply hc j
  by_cases hu : Up (cnt vals p i) (ch.rootSizes (cnt vals p))
  · rw [cut_up hu]; simp [hj]
  · rw [cut_down hu]; simp [hj]

include hr in
theorem raised_up (hu : Up (cnt vals p i) (ch.rootSizes (cnt vals p))) : q i = p i + d ∧ ∀ j ∈ nodes ch, p j = q j := by
  obtain ⟨n1, n2, n3, n4, n5⟩ := nodup_parts hn
  constructor
  · rw [hr i (by simp [nodes]), cut_up hu]; simp
  · intro j hj
    rw [hr j (by simp [nodes, hj]), cut_up hu, if_neg, add_zero]
    rw [List.mem_cons]
    rintro (h | h)
    · exact n1 (h ▸ hj)
    · exact n5 j hj (cut_sub j h)

include hr in
theorem raised_down (hu : ¬ Up (cnt vals p i) (ch.rootSizes (cnt vals p))) : q i = p i ∧ Raised vals ch p q d := by
  obtain ⟨n1, n2, n3, n4, n5⟩ := nodup_parts hn
  constructor
  · rw [hr i (by simp [nodes]), cut_down hu, if_neg, add_zero]
    rw [List.mem_append]
    rintro (h | h)
    · exact n1 (cut_sub i h)
    · exact n2 (cut_sub i h)
  · intro j hj
    rw [hr j (by simp [nodes, hj]), cut_down hu]
    have : j ∉ cut vals s p := fun h => n5 j hj (cut_sub j h)
    simp [this]

omit hn in
include hc in
theorem noCross_up (hu : Up (cnt vals p i) (ch.rootSizes (cnt vals p))) : ∀ x ∈ vals i, p i < x → p i + d ≤ x :=
  hc i (by rw [cut_up hu]; simp)

omit hn in
include hc in
theorem noCross_down (hu : ¬ Up (cnt vals p i) (ch.rootSizes (cnt vals p))) : NoCross vals ch p d :=
  fun j hj => hc j (by rw [cut_down hu]; simp [hj])

end

theorem bal_raise {f : Forest} {p q : ℕ → ℚ} {d x : ℚ} (hn : (nodes f).Nodup) (hr : Raised vals f p q d) (hx : Bal f p x) : Bal f q (x + d) := by
  induction f generalizing x with
  | nil => intro l hl; exact absurd hl isPath_nil
  | cons i ch s ih1 ih2 =>
    obtain ⟨n1, n2, n3, n4, n5⟩ := nodup_parts hn
    intro l hl
    rw [isPath_cons] at hl
    by_cases hu : Up (cnt vals p i) (ch.rootSizes (cnt vals p))
    · obtain ⟨r1, r2⟩ := raised_up hn hr hu
      rcases hl with ⟨rfl, rfl⟩ | ⟨l, rfl, hl⟩ | hl
      · have := bal_leaf hx
        simp [r1, this]
      · have := bal_congr r2 (bal_children hx) l hl
        rw [List.map_cons, List.sum_cons, this, r1]; ring
      · exact ih2 n4 (raised_siblings hn hr) (bal_siblings hx) l hl
    · obtain ⟨r1, r2⟩ := raised_down hn hr hu
      rcases hl with ⟨rfl, rfl⟩ | ⟨l, rfl, hl⟩ | hl
      · exact absurd (Or.inr rfl) hu
      · have := ih1 n3 r2 (bal_children hx) l hl
        rw [List.map_cons, List.sum_cons, this, r1]; ring
      · exact ih2 n4 (raised_siblings hn hr) (bal_siblings hx) l hl

theorem raised_le {f : Forest} {p q : ℕ → ℚ} {d : ℚ} (hd : 0 ≤ d) (hr : Raised vals f p q d) : ∀ j ∈ nodes f, p j ≤ q j := by
  intro j hj
  rw [hr j hj]; split <;> linarith

/-- Before the end of a raise no agent leaves. -/
theorem cnt_before {f : Forest} {p q : ℕ → ℚ} {d e : ℚ} (he : 0 ≤ e) (hed : e < d) (hr : Raised vals f p q e) (hc : NoCross vals f p d) :
    ∀ j ∈ nodes f, cnt vals q j = cnt vals p j := by
  intro j hj
  refine le_antisymm (cnt_anti (raised_le he hr j hj)) ?_
  rw [cnt, cnt, ← List.countP_eq_length_filter, ← List.countP_eq_length_filter]
  apply List.countP_mono_left
  intro x hx hpx
  simp only [decide_eq_true_eq] at hpx ⊢
  rw [hr j hj]
  split
  · rename_i hj'; have := hc j hj' x hx hpx; linarith
  · linarith

theorem good_congr {f : Forest} {p q : ℕ → ℚ} (h : ∀ j ∈ nodes f, p j = q j) (hp : Good vals M V f p) : Good vals M V f q := by
  induction f with
  | nil => trivial
  | cons i ch s ih1 ih2 =>
    obtain ⟨h1, h2, h3, h4, h5⟩ := hp
    have e1 : ∀ j ∈ nodes ch, p j = q j := fun j hj => h j (by simp [nodes, hj])
    have e2 : ∀ j ∈ nodes s, p j = q j := fun j hj => h j (by simp [nodes, hj])
    have e3 : p i = q i := h i (by simp [nodes])
    refine ⟨ih1 e1 h1, ih2 e2 h2, ?_, ?_, ?_⟩
    · rw [← e3, ← roots_congr e1]; exact h3
    · intro hc x hx; exact h4 hc x (bal_congr (fun j hj => (e1 j hj).symm) hx)
    · intro r x y hc hr hx hy
      rw [← e3]
      exact h5 r x y hc hr (bal_congr (fun j hj => (e1 j hj).symm) hx) hy

theorem inv_congr {f : Forest} {p q : ℕ → ℚ} (h : ∀ j ∈ nodes f, p j = q j) (hp : Inv vals M V f p) : Inv vals M V f q := by
  induction f with
  | nil => trivial
  | cons i ch s ih1 ih2 =>
    obtain ⟨h1, h2, h3, h4, h5, h6⟩ := hp
    have e1 : ∀ j ∈ nodes ch, p j = q j := fun j hj => h j (by simp [nodes, hj])
    have e2 : ∀ j ∈ nodes s, p j = q j := fun j hj => h j (by simp [nodes, hj])
    have e3 : p i = q i := h i (by simp [nodes])
    refine ⟨ih1 e1 h1, ih2 e2 h2, ?_, ?_, ?_, ?_⟩
    · rw [← cnt_congr e3]
      intro h0 j hj
      rw [← cnt_congr (e1 j hj)]; exact h3 h0 j hj
    · rw [← cnt_congr e3]
      intro h0 hc x hx; exact h4 h0 hc x (bal_congr (fun j hj => (e1 j hj).symm) hx)
    · rw [← e3, ← roots_congr e1]; exact h5
    · intro r x y hc hr hx hy
      rw [← e3]
      exact h6 r x y hc hr (bal_congr (fun j hj => (e1 j hj).symm) hx) hy

/-- While some root has agents, the sum stays low. -/
theorem raise_low {f : Forest} {p : ℕ → ℚ} {d x : ℚ} (hs : Small vals V f) (h : Inv vals M V f p) (hx : Bal f p x) (hc : NoCross vals f p d)
    (hr : 0 < f.rootSizes (cnt vals p)) : x + d ≤ V * height f := by
  induction f generalizing x with
  | nil => simp [Forest.rootSizes] at hr
  | cons i ch s ih1 ih2 =>
    obtain ⟨h1, h2, h3, h4, h5, h6⟩ := h
    have hV := hs.nonneg
    have hk1 : (1 + height ch : ℕ) ≤ height (.cons i ch s) := by rw [Nat.add_comm]; exact le_max_left _ _
    have hk2 : (1 + height ch : ℚ) ≤ height (.cons i ch s) := by exact_mod_cast hk1
    have hk : V * (1 + height ch) ≤ V * height (.cons i ch s) := mul_le_mul_of_nonneg_left hk2 hV
    have h0 : (0 : ℚ) ≤ V * height ch := mul_nonneg hV (by positivity)
    by_cases hi : 0 < cnt vals p i
    · obtain ⟨y, hy, hpy⟩ := cnt_pos.1 hi
      have hyV := (hs.le i (by simp [nodes]) y hy).2
      by_cases hu : Up (cnt vals p i) (ch.rootSizes (cnt vals p))
      · have hb := noCross_up hc hu y hy hpy
        by_cases hn : ch = .nil
        · subst hn
          have := bal_leaf hx
          linarith
        · have := h4 hi hn _ (bal_children hx)
          linarith
      · have hpos : 0 < ch.rootSizes (cnt vals p) := by
          by_contra hcon; apply hu; right; omega
        have := ih1 hs.children h1 (bal_children hx) (noCross_down hc hu) hpos
        linarith
    · have hpos : 0 < s.rootSizes (cnt vals p) := by
        rw [Forest.rootSizes] at hr; omega
      have := ih2 hs.siblings h2 (bal_siblings hx) (noCross_siblings hc) hpos
      have := height_siblings (i := i) (ch := ch) (s := s) hV
      linarith

theorem roots_empty {f : Forest} {p : ℕ → ℚ} (h : Inv vals M V f p) (h0 : f.rootSizes (cnt vals p) = 0) : ∀ j ∈ nodes f, cnt vals p j = 0 := by
  induction f with
  | nil => intro j hj; simp [nodes] at hj
  | cons i ch s ih1 ih2 =>
    obtain ⟨h1, h2, h3, -⟩ := h
    rw [Forest.rootSizes] at h0
    intro j hj
    rw [nodes, List.mem_cons, List.mem_append] at hj
    rcases hj with rfl | hj | hj
    · omega
    · exact h3 (by omega) j hj
    · exact ih2 h2 (by omega) j hj

/-- An agent that leaves is alone at its value. -/
theorem cnt_drop {p q : ℕ → ℚ} {i : ℕ} {d : ℚ} (hn : (vals i).Nodup) (hq : q i = p i + d) (hc : ∀ x ∈ vals i, p i < x → p i + d ≤ x) (h0 : cnt vals q i = 0) :
    cnt vals p i ≤ 1 := by
  unfold cnt
  have hall : ∀ x ∈ (vals i).filter (p i < ·), x = q i := by
    intro x hx
    simp only [List.mem_filter, decide_eq_true_eq] at hx
    have h1 := hc x hx.1 hx.2
    have h2 := cnt_zero.1 h0 x hx.1
    linarith
  have hnd := hn.filter (p i < ·)
  generalize (vals i).filter (p i < ·) = l at hall hnd
  match l, hall, hnd with
  | [], _, _ => simp
  | [a], _, _ => simp
  | a :: b :: l, hall, hnd =>
    exfalso
    have ha := hall a (by simp)
    have hb := hall b (by simp)
    rw [List.nodup_cons] at hnd
    exact hnd.1 (by rw [ha, ← hb]; simp)

/-- A raise keeps the invariant. -/
theorem inv_raise {f : Forest} {p q : ℕ → ℚ} {d x : ℚ} (hn : (nodes f).Nodup) (hs : Small vals V f) (hM : V * (2 * height f - 1) < M)
    (h : Inv vals M V f p) (hx : Bal f p x) (hd : 0 ≤ d) (hr : Raised vals f p q d) (hc : NoCross vals f p d) : Inv vals M V f q := by
  induction f generalizing x q d with
  | nil => trivial
  | cons i ch s ih1 ih2 =>
    obtain ⟨n1, n2, n3, n4, n5⟩ := nodup_parts hn
    have hV := hs.nonneg
    obtain ⟨h1, h2, h3, h4, h5, h6⟩ := h
    obtain ⟨m1, m2, m3, m4⟩ := height_children hs.nonneg hM
    have m5 := height_siblings (i := i) (ch := ch) (s := s) hs.nonneg
    have hi : i ∈ nodes (.cons i ch s) := by simp [nodes]
    have hsib : Inv vals M V s q := ih2 n4 hs.siblings (by nlinarith) h2 (bal_siblings hx) hd (raised_siblings hn hr) (noCross_siblings hc)
    have hle := raised_le hd hr
    by_cases hu : Up (cnt vals p i) (ch.rootSizes (cnt vals p))
    · obtain ⟨r1, r2⟩ := raised_up hn hr hu
      have hcr := noCross_up hc hu
      refine ⟨inv_congr r2 h1, hsib, ?_, ?_, ?_, ?_⟩
      · intro h0 j hj
        rw [← cnt_congr (r2 j hj)]
        by_cases hp0 : cnt vals p i = 0
        · exact h3 hp0 j hj
        · have := cnt_drop (hs.nodup i hi) r1 hcr h0
          refine roots_empty h1 ?_ j hj
          rcases hu with hu | hu
          · omega
          · exact hu
      · intro hpos hch y hy
        have hp : 0 < cnt vals p i := lt_of_lt_of_le hpos (cnt_anti (hle i hi))
        exact h4 hp hch y (bal_congr (fun j hj => (r2 j hj).symm) hy)
      · left
        rw [r1, ← roots_congr r2]
        exact hu.mono (cnt_le_cntGe hcr) le_rfl
      · intro r y z hch hr' hy hz hl hzy hup
        refine h6 r y z hch hr' (bal_congr (fun j hj => (r2 j hj).symm) hy) hz hl hzy (hup.mono (cntGe_anti ?_) le_rfl)
        rw [r1]; linarith
    · obtain ⟨r1, r2⟩ := raised_down hn hr hu
      have hcr := noCross_down hc hu
      have hpos : 0 < ch.rootSizes (cnt vals p) := by
        by_contra hcon; apply hu; right; omega
      have bx := bal_children hx
      refine ⟨ih1 n3 hs.children m2 h1 bx hd r2 hcr, hsib, ?_, ?_, ?_, ?_⟩
      · rw [cnt_congr r1]
        intro h0 j hj
        have := h3 h0 j hj
        have := cnt_anti (vals := vals) (hle j (by simp [nodes, hj]))
        omega
      · rw [cnt_congr r1]
        intro hp hch y hy
        rw [bal_unique hch hy (bal_raise n3 r2 bx)]
        exact raise_low hs.children h1 bx hcr hpos
      · rw [r1]
        rcases h5 with h5 | h5
        · left
          exact h5.mono le_rfl (roots_mono fun j hj => cnt_anti (hle j (by simp [nodes, hj])))
        · right; exact h5
      · intro r y z hch hg hy hz hl hzy hup
        rw [bal_unique hch hy (bal_raise n3 r2 bx)] at hzy hup
        rw [r1] at hup
        by_cases hzx : z < x - p i
        · exact h6 r _ z hch hg bx hz hl hzx (hup.mono (cntGe_anti (by linarith)) le_rfl)
        · -- the prices at `z` are reached during this raise
          rw [not_lt] at hzx
          have he0 : 0 ≤ z - (x - p i) := by linarith
          have hed : z - (x - p i) < d := by linarith
          have hr'' : Raised vals ch p (fun j => p j + if j ∈ cut vals ch p then z - (x - p i) else 0) (z - (x - p i)) := fun j _ => rfl
          have hc'' : NoCross vals ch p (z - (x - p i)) := fun j hj y hy hp => by have := hcr j hj y hy hp; linarith
          have hbal := bal_raise n3 hr'' bx
          rw [show x - p i + (z - (x - p i)) = z by ring] at hbal
          have hgood := inv_good hs.children m2 (ih1 n3 hs.children m2 h1 bx he0 hr'' hc'') hbal hl
          have heq := good_unique hg hgood hz hbal
          rw [roots_congr heq, rootSizes_agree (cnt_before he0 hed hr'' hcr)] at hup
          exact hu (hup.mono (cntGe_le_cnt (by linarith)) le_rfl)

/-- The invariant holds at the start. -/
theorem inv_start {f : Forest} {p : ℕ → ℚ} (hs : Small vals V f) (hM : V < M) (hp : ∀ j ∈ nodes f, p j ≤ -M) : Inv vals M V f p := by
  have hle : ∀ f : Forest, f ≠ .nil → (∀ j ∈ nodes f, p j ≤ -M) → ∀ x, Bal f p x → x ≤ -M := by
    intro f hf hp x hx
    obtain ⟨l, hl⟩ := exists_path hf
    have hM0 := hs.nonneg
    rw [← hx l hl]
    have hsub := isPath_subset hl
    have hne : l ≠ [] := isPath_ne_nil hl
    have h0 : ∀ l : List ℕ, (∀ j ∈ l, p j ≤ -M) → (l.map p).sum ≤ 0 := by
      intro l
      induction l with
      | nil => intro _; simp
      | cons a l ih =>
        intro h
        have h1 := h a (by simp)
        have h2 := ih fun j hj => h j (by simp [hj])
        simp only [List.map_cons, List.sum_cons]; linarith
    cases l with
    | nil => exact absurd rfl hne
    | cons a l =>
      have h1 := hp a (hsub a (by simp))
      have h2 := h0 l fun j hj => hp j (hsub j (by simp [hj]))
      simp only [List.map_cons, List.sum_cons]; linarith
  induction f with
  | nil => trivial
  | cons i ch s ih1 ih2 =>
    have hV := hs.nonneg
    have hi : i ∈ nodes (.cons i ch s) := by simp [nodes]
    have hc : ∀ j ∈ nodes ch, p j ≤ -M := fun j hj => hp j (by simp [nodes, hj])
    have h0 : (0 : ℚ) ≤ V * height ch := mul_nonneg hV (by positivity)
    refine ⟨ih1 hs.children hc, ih2 hs.siblings fun j hj => hp j (by simp [nodes, hj]), ?_, ?_, Or.inr (hp i hi), ?_⟩
    · intro h0
      exfalso
      obtain ⟨y, hy⟩ := List.exists_mem_of_ne_nil _ (hs.ne i hi)
      have := cnt_zero.1 h0 y hy
      have := (hs.le i hi y hy).1
      have := hp i hi
      linarith
    · intro _ hch x hx
      have := hle ch hch hc x hx
      linarith
    · intro q x y hch _ hx _ hl hyx
      exfalso
      have := hle ch hch hc x hx
      have : 0 ≤ V * (height ch - 1) := mul_nonneg hV (by have := height_pos hch; linarith)
      unfold limit at hl
      linarith

end Auctions.StartPrices
