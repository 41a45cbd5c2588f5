import Verif.Model.Ascending
import Verif.Proofs.Trade
import Verif.Proofs.Greedy

set_option autoImplicit false

/-! # The clock loop of the ascending auction as a walk on vectors of category sizes -/

namespace Auctions

open Spec

namespace Ascending

/-- The price of a category with agents `V` of which the `s` best remain: the value of the last one that left. -/
def clock (V : List ℚ) (s : ℕ) : ℚ := V.getD s (-MAX_VALUE)

/-- The market in which only the `s i` best agents of category `i` remain. -/
def mkMarket (cs : List AgentCategory) (s : ℕ → ℕ) : Market :=
  ⟨cs.mapIdx (fun i c => { c with values := c.values.take (s i) })⟩

/-- The prices when only the `s i` best agents of category `i` remain. -/
def mkPrices (cs : List AgentCategory) (s : ℕ → ℕ) : List ℚ :=
  (List.range cs.length).map (fun i => clock (vAt cs i) (s i))

theorem recipeAt_eq (r : List ℕ) (i : ℕ) : recipeAt r i = rAt r i := by
  unfold recipeAt rAt
  cases h : r[i]? <;> simp [h]

theorem mkMarket_length (cs : List AgentCategory) (s : ℕ → ℕ) : (mkMarket cs s).categories.length = cs.length := by
  simp [mkMarket]

theorem mkMarket_get {cs : List AgentCategory} {s : ℕ → ℕ} {i : ℕ} (h : i < cs.length) :
    (mkMarket cs s).categories[i]? = some { cs[i] with values := (vAt cs i).take (s i) } := by
  simp [mkMarket, h, vAt_eq_getElem h]

theorem vAt_mkMarket (cs : List AgentCategory) (s : ℕ → ℕ) (i : ℕ) :
    vAt (mkMarket cs s).categories i = (vAt cs i).take (s i) := by
  by_cases h : i < cs.length
  · have h' : i < (mkMarket cs s).categories.length := by rw [mkMarket_length]; exact h
    have := mkMarket_get (s := s) h
    rw [List.getElem?_eq_getElem h', Option.some.injEq] at this
    rw [vAt_eq_getElem h', this]
  · rw [vAt_of_ge (by rw [mkMarket_length]; omega), vAt_of_ge (by omega)]; simp

theorem sizeAt_mkMarket {cs : List AgentCategory} {s : ℕ → ℕ} {i : ℕ} (h : i < cs.length)
    (hs : s i ≤ (vAt cs i).length) : sizeAt (mkMarket cs s) i = s i := by
  unfold sizeAt
  rw [mkMarket_get h]
  simp [AgentCategory.size, hs]

theorem mkPrices_length (cs : List AgentCategory) (s : ℕ → ℕ) : (mkPrices cs s).length = cs.length := by
  simp [mkPrices]

theorem mkPrices_get {cs : List AgentCategory} {s : ℕ → ℕ} {i : ℕ} (h : i < cs.length) :
    (mkPrices cs s)[i]? = some (clock (vAt cs i) (s i)) := by
  simp [mkPrices, h]

theorem mkPrices_getD {cs : List AgentCategory} {s : ℕ → ℕ} {i : ℕ} (h : i < cs.length) :
    (mkPrices cs s).getD i 0 = clock (vAt cs i) (s i) := by
  simp [mkPrices, h]

theorem mkPrices_update {cs : List AgentCategory} {s : ℕ → ℕ} {c k : ℕ} :
    mkPrices cs (Function.update s c k) = (mkPrices cs s).set c (clock (vAt cs c) k) := by
  apply List.ext_getElem?
  intro i
  by_cases hi : i < cs.length
  · rw [mkPrices_get hi, List.getElem?_set]
    by_cases hc : c = i
    · subst hc; simp [mkPrices_length, hi]
    · rw [if_neg hc, mkPrices_get hi, Function.update_of_ne (Ne.symm hc)]
  · rw [List.getElem?_eq_none (by rw [mkPrices_length]; omega),
      List.getElem?_eq_none (by rw [List.length_set, mkPrices_length]; omega)]

theorem mkMarket_update {cs : List AgentCategory} {s : ℕ → ℕ} {c k : ℕ} (hc : c < cs.length) :
    (mkMarket cs (Function.update s c k)).categories
      = (mkMarket cs s).categories.set c { cs[c] with values := (vAt cs c).take k } := by
  apply List.ext_getElem?
  intro i
  by_cases hi : i < cs.length
  · rw [mkMarket_get hi, List.getElem?_set]
    by_cases hci : c = i
    · subst hci; simp [mkMarket_length, hi]
    · rw [if_neg hci, mkMarket_get hi, Function.update_of_ne (Ne.symm hci)]
  · rw [List.getElem?_eq_none (by rw [mkMarket_length]; omega),
      List.getElem?_eq_none (by rw [List.length_set, mkMarket_length]; omega)]

/-- The category chosen by the clock loop: depends only on sizes and recipe. -/
def mainOf (r : List ℕ) (rel : List ℕ) (s : ℕ → ℕ) : Py ℕ := pyMaxBy (fun i => (s i : ℚ) / (rAt r i : ℚ)) rel

theorem foldl_max_congr {α : Type} {f g : α → ℚ} (l : List α) (x : α) (hx : f x = g x) (h : ∀ y ∈ l, f y = g y) :
    l.foldl (fun best y => if f best < f y then y else best) x
      = l.foldl (fun best y => if g best < g y then y else best) x := by
  induction l generalizing x with
  | nil => rfl
  | cons y l ih =>
    simp only [List.foldl_cons]
    rw [hx, h y (by simp)]
    by_cases hlt : g x < g y
    · simp only [if_pos hlt]; exact ih y (h y (by simp)) (fun z hz => h z (by simp [hz]))
    · simp only [if_neg hlt]; exact ih x hx (fun z hz => h z (by simp [hz]))

theorem pyMaxBy_congr {α : Type} {f g : α → ℚ} {l : List α} (h : ∀ y ∈ l, f y = g y) : pyMaxBy f l = pyMaxBy g l := by
  cases l with
  | nil => rfl
  | cons x l =>
    simp only [pyMaxBy]
    rw [foldl_max_congr l x (h x (by simp)) (fun y hy => h y (by simp [hy]))]

theorem foldl_max_spec {α : Type} (f : α → ℚ) (l : List α) (x : α) :
    (l.foldl (fun best y => if f best < f y then y else best) x ∈ x :: l) ∧
      ∀ y ∈ x :: l, f y ≤ f (l.foldl (fun best y => if f best < f y then y else best) x) := by
  induction l generalizing x with
  | nil => simp
  | cons y l ih =>
    simp only [List.foldl_cons]
    by_cases hlt : f x < f y
    · simp only [if_pos hlt]
      obtain ⟨h1, h2⟩ := ih y
      refine ⟨List.mem_cons_of_mem _ h1, fun z hz => ?_⟩
      rcases List.mem_cons.1 hz with rfl | hz
      · exact le_trans hlt.le (h2 y (by simp))
      · exact h2 z hz
    · simp only [if_neg hlt]
      obtain ⟨h1, h2⟩ := ih x
      refine ⟨?_, fun z hz => ?_⟩
      · rcases List.mem_cons.1 h1 with h | h
        · rw [h]; simp
        · exact List.mem_cons_of_mem _ (List.mem_cons_of_mem _ h)
      · rcases List.mem_cons.1 hz with rfl | hz
        · exact h2 z (by simp)
        · rcases List.mem_cons.1 hz with rfl | hz
          · exact le_trans (not_lt.1 hlt) (h2 x (by simp))
          · exact h2 z (by simp [hz])

theorem pyMaxBy_spec {α : Type} (f : α → ℚ) {l : List α} (h : l ≠ []) :
    ∃ x, pyMaxBy f l = .ok x ∧ x ∈ l ∧ ∀ y ∈ l, f y ≤ f x := by
  cases l with
  | nil => simp at h
  | cons x l => exact ⟨_, rfl, foldl_max_spec f l x⟩

/-- Recipe-weighted sum of the clocks. -/
def clockSum (cs : List AgentCategory) (r : List ℕ) (s : ℕ → ℕ) : ℚ := recipeSum r (mkPrices cs s)

theorem clockSum_eq {cs : List AgentCategory} {r : List ℕ} (h : r.length = cs.length) (s : ℕ → ℕ) :
    clockSum cs r s = ∑ i ∈ Finset.range cs.length, (rAt r i : ℚ) * clock (vAt cs i) (s i) := by
  unfold clockSum
  rw [recipeSum_eq_sum h (mkPrices_length cs s)]
  refine Finset.sum_congr rfl fun i hi => ?_
  rw [mkPrices_getD (Finset.mem_range.1 hi)]

theorem clockSum_update {cs : List AgentCategory} {r : List ℕ} (h : r.length = cs.length) {s : ℕ → ℕ} {c : ℕ}
    (hc : c < cs.length) (k : ℕ) :
    clockSum cs r (Function.update s c k)
      = clockSum cs r s - rAt r c * clock (vAt cs c) (s c) + rAt r c * clock (vAt cs c) k := by
  unfold clockSum
  rw [mkPrices_update, recipeSum_set (a := rAt r c) (p := clock (vAt cs c) (s c)) _ (mkPrices_get hc)]
  rw [rAt_eq_getElem (by omega), List.getElem?_eq_getElem (by omega)]

/-- The price at which category `c` balances the others. -/
def balPrice (cs : List AgentCategory) (r : List ℕ) (s : ℕ → ℕ) (c : ℕ) : ℚ :=
  (0 - (clockSum cs r s - rAt r c * clock (vAt cs c) (s c))) / rAt r c

theorem relevant_mem {cs : List AgentCategory} {r : List ℕ} {i : ℕ} :
    i ∈ relevantCategoryIndices ⟨cs⟩ r ↔ i < cs.length ∧ 0 < rAt r i := by
  simp [relevantCategoryIndices, recipeAt_eq, Market.numCategories]

/-- The indices of the categories that the recipe uses. -/
abbrev rel (cs : List AgentCategory) (r : List ℕ) : List ℕ := relevantCategoryIndices ⟨cs⟩ r

/-- One iteration of the clock loop. -/
theorem loop_step {cs : List AgentCategory} {r : List ℕ} (h : r.length = cs.length) {s : ℕ → ℕ}
    (hs : ∀ i < cs.length, s i ≤ (vAt cs i).length) {c : ℕ} (hc : mainOf r (rel cs r) s = .ok c)
    (hcm : c ∈ rel cs r) (st : Option PriceStatus) (fuel : ℕ) :
    loop r (rel cs r) (fuel + 1) (mkMarket cs s) ⟨r, mkPrices cs s, st⟩ =
      if s c = 0 then .ok (some (mkMarket cs s, ⟨r, mkPrices cs s, st⟩))
      else if 0 ≤ clockSum cs r (Function.update s c (s c - 1)) then
        .ok (some (mkMarket cs s, ⟨r, (mkPrices cs s).set c (balPrice cs r s c), some .stoppedAtZeroSum⟩))
      else loop r (rel cs r) fuel (mkMarket cs (Function.update s c (s c - 1)))
        ⟨r, mkPrices cs (Function.update s c (s c - 1)), some .stoppedAtAgentValue⟩ := by
  obtain ⟨hcl, hcp⟩ := relevant_mem.1 hcm
  have hmain : pyMaxBy (fractionalPotentialPs (mkMarket cs s) r) (rel cs r) = .ok c := by
    rw [← hc]
    refine pyMaxBy_congr fun i hi => ?_
    obtain ⟨hil, -⟩ := relevant_mem.1 hi
    simp only [fractionalPotentialPs, recipeAt_eq, sizeAt_mkMarket hil (hs i hil)]
  have hsc := hs c hcl
  simp only [loop, hmain, bind, Except.bind, pyGet_ok (mkMarket_get hcl), AgentCategory.size, List.length_take,
    min_eq_left hsc]
  by_cases h0 : s c = 0
  · simp [h0]
  · simp only [h0, if_false]
    have hlt : s c - 1 < (vAt cs c).length := by omega
    have hlow : AgentCategory.lowestAgentValue { cs[c] with values := (vAt cs c).take (s c) }
        = .ok ((vAt cs c)[s c - 1]) := by
      unfold AgentCategory.lowestAgentValue
      have : ((vAt cs c).take (s c)).getLast? = some ((vAt cs c)[s c - 1]) := by
        rw [List.getLast?_eq_getElem?, List.length_take, min_eq_left hsc, List.getElem?_take_of_lt (by omega),
          List.getElem?_eq_getElem hlt]
      simp [this]
    have hclock : clock (vAt cs c) (s c - 1) = (vAt cs c)[s c - 1] := by simp [clock, hlt]
    have hrem : AgentCategory.removeLowestAgent { cs[c] with values := (vAt cs c).take (s c) }
        = .ok { cs[c] with values := (vAt cs c).take (s c - 1) } := by
      unfold AgentCategory.removeLowestAgent
      have hd : ((vAt cs c).take (s c)).dropLast = (vAt cs c).take (s c - 1) := by
        rw [List.dropLast_eq_take, List.length_take, List.take_take]
        congr 1; omega
      cases hv : (vAt cs c).take (s c) with
      | nil =>
        have : ((vAt cs c).take (s c)).length = 0 := by rw [hv]; rfl
        rw [List.length_take] at this; omega
      | cons x xs => simp only [← hv, hd]
    have hrg : r[c]? = some (rAt r c) := by
      rw [rAt_eq_getElem (by omega), List.getElem?_eq_getElem (by omega)]
    rw [hlow]
    simp only [AscendingPriceVector.increasePriceUpToBalance, AscendingPriceVector.priceSumWithoutCategory,
      pyGet_ok hrg, pyGet_ok (mkPrices_get hcl), bind, Except.bind, AscendingPriceVector.priceSum, dot_eq]
    have hsum : recipeSum r (mkPrices cs s) - rAt r c * clock (vAt cs c) (s c) + rAt r c * (vAt cs c)[s c - 1]
        = clockSum cs r (Function.update s c (s c - 1)) := by
      rw [clockSum_update h hcl, hclock]; rfl
    rw [hsum]
    have hrc : (rAt r c : ℚ) ≠ 0 := by exact_mod_cast hcp.ne'
    by_cases hge : 0 ≤ clockSum cs r (Function.update s c (s c - 1))
    · simp only [ge_iff_le, hge, if_true, pyDiv, hrc, if_false]
      rfl
    · simp only [ge_iff_le, hge, if_false, hrem]
      rw [if_neg (by simp)]
      rw [mkPrices_update, hclock, ← mkMarket_update hcl]

/-- The size vectors that the clock loop visits, with the number of iterations. -/
inductive Path (cs : List AgentCategory) (r : List ℕ) : ℕ → (ℕ → ℕ) → Prop
  | start : Path cs r 0 (fun i => (vAt cs i).length)
  | step {n s c} : Path cs r n s → mainOf r (rel cs r) s = .ok c → s c ≠ 0 →
      clockSum cs r (Function.update s c (s c - 1)) < 0 → Path cs r (n + 1) (Function.update s c (s c - 1))

/-- Invariant of the clock loop. -/
structure Inv (cs : List AgentCategory) (r : List ℕ) (s : ℕ → ℕ) : Prop where
  le : ∀ i, s i ≤ (vAt cs i).length
  neg : clockSum cs r s < 0
  unused : ∀ i, i ∉ rel cs r → s i = (vAt cs i).length
  touched : ∀ i ∈ rel cs r, ∀ j ∈ rel cs r, s i < (vAt cs i).length → s j * rAt r i ≤ (s i + 1) * rAt r j

theorem mainOf_spec {cs : List AgentCategory} {r : List ℕ} (hne : rel cs r ≠ []) (s : ℕ → ℕ) :
    ∃ c, mainOf r (rel cs r) s = .ok c ∧ c ∈ rel cs r ∧ ∀ j ∈ rel cs r, s j * rAt r c ≤ s c * rAt r j := by
  obtain ⟨c, h1, h2, h3⟩ := pyMaxBy_spec (fun i => (s i : ℚ) / (rAt r i : ℚ)) hne
  refine ⟨c, h1, h2, fun j hj => ?_⟩
  have hc : (0 : ℚ) < rAt r c := by exact_mod_cast (relevant_mem.1 h2).2
  have hj' : (0 : ℚ) < rAt r j := by exact_mod_cast (relevant_mem.1 hj).2
  have := h3 j hj
  rw [div_le_div_iff₀ hj' hc] at this
  exact_mod_cast this

theorem mainOf_ok {cs : List AgentCategory} {r : List ℕ} (hne : rel cs r ≠ []) {s : ℕ → ℕ} {c : ℕ}
    (h : mainOf r (rel cs r) s = .ok c) : c ∈ rel cs r ∧ ∀ j ∈ rel cs r, s j * rAt r c ≤ s c * rAt r j := by
  obtain ⟨c', h1, h2⟩ := mainOf_spec hne s
  rw [h] at h1
  obtain rfl := Except.ok.inj h1
  exact h2

theorem update_le {s : ℕ → ℕ} {c : ℕ} (j : ℕ) : Function.update s c (s c - 1) j ≤ s j := by
  by_cases h : j = c
  · subst h; simp
  · simp [h]

theorem Path.inv {cs : List AgentCategory} {r : List ℕ} (h : r.length = cs.length) (hne : rel cs r ≠ []) {n : ℕ}
    {s : ℕ → ℕ} (hp : Path cs r n s) :
    Inv cs r s ∧ (∑ i ∈ Finset.range cs.length, s i) + n = ∑ i ∈ Finset.range cs.length, (vAt cs i).length := by
  induction hp with
  | start =>
    refine ⟨⟨fun i => le_refl _, ?_, fun _ _ => rfl, fun i _ j _ hlt => absurd hlt (lt_irrefl _)⟩, by simp⟩
    rw [clockSum_eq h]
    obtain ⟨c, hc⟩ := List.exists_mem_of_ne_nil _ hne
    obtain ⟨hc1, hc2⟩ := relevant_mem.1 hc
    have hterm : ∀ i, clock (vAt cs i) (vAt cs i).length = -MAX_VALUE := by intro i; simp [clock]
    simp only [hterm]
    refine Finset.sum_neg' (fun i _ => ?_) ⟨c, Finset.mem_range.2 hc1, ?_⟩
    · have : (0 : ℚ) ≤ rAt r i := by exact_mod_cast Nat.zero_le _
      unfold MAX_VALUE; linarith
    · have : (0 : ℚ) < rAt r c := by exact_mod_cast hc2
      unfold MAX_VALUE; linarith
  | @step n s c hp hc h0 hneg ih =>
    obtain ⟨hinv, hcount⟩ := ih
    obtain ⟨hcm, harg⟩ := mainOf_ok hne hc
    obtain ⟨hcl, -⟩ := relevant_mem.1 hcm
    refine ⟨⟨fun i => le_trans (update_le i) (hinv.le i), hneg, fun i hi => ?_, ?_⟩, ?_⟩
    · have : i ≠ c := by rintro rfl; exact hi hcm
      rw [Function.update_of_ne this]; exact hinv.unused i hi
    · intro i hi j hj hlt
      by_cases hic : i = c
      · subst hic
        simp only [Function.update_self]
        have h1 : s i - 1 + 1 = s i := by omega
        rw [h1]
        exact le_trans (Nat.mul_le_mul_right _ (update_le j)) (harg j hj)
      · rw [Function.update_of_ne hic] at hlt ⊢
        exact le_trans (Nat.mul_le_mul_right _ (update_le j)) (hinv.touched i hi j hj hlt)
    · rw [← hcount, Finset.sum_update_of_mem (Finset.mem_range.2 hcl)]
      rw [← Finset.add_sum_erase _ s (Finset.mem_range.2 hcl), Finset.sdiff_singleton_eq_erase]
      omega

/-- How the clock loop ends at the size vector `s`, with prices `p`. -/
def Ending (cs : List AgentCategory) (r : List ℕ) (s : ℕ → ℕ) (p : List ℚ) : Prop :=
  ∃ c, mainOf r (rel cs r) s = .ok c ∧
    ((s c = 0 ∧ p = mkPrices cs s) ∨
     (s c ≠ 0 ∧ 0 ≤ clockSum cs r (Function.update s c (s c - 1)) ∧ p = (mkPrices cs s).set c (balPrice cs r s c)))

theorem loop_result {cs : List AgentCategory} {r : List ℕ} (h : r.length = cs.length) (hne : rel cs r ≠ [])
    (fuel : ℕ) {n : ℕ} {s : ℕ → ℕ} (hp : Path cs r n s) (st : Option PriceStatus) :
    (loop r (rel cs r) fuel (mkMarket cs s) ⟨r, mkPrices cs s, st⟩ = .ok none ∧
      fuel + n ≤ ∑ i ∈ Finset.range cs.length, (vAt cs i).length) ∨
    ∃ n' s' p st', Path cs r n' s' ∧ Ending cs r s' p ∧
      loop r (rel cs r) fuel (mkMarket cs s) ⟨r, mkPrices cs s, st⟩ = .ok (some (mkMarket cs s', ⟨r, p, st'⟩)) := by
  induction fuel generalizing n s st with
  | zero =>
    left
    refine ⟨rfl, ?_⟩
    have := (hp.inv h hne).2
    omega
  | succ fuel ih =>
    obtain ⟨c, hc, hcm, -⟩ := mainOf_spec hne s
    have hstep := loop_step h (fun i _ => (hp.inv h hne).1.le i) hc hcm st fuel
    by_cases h0 : s c = 0
    · rw [if_pos h0] at hstep
      exact Or.inr ⟨n, s, _, st, hp, ⟨c, hc, Or.inl ⟨h0, rfl⟩⟩, hstep⟩
    · rw [if_neg h0] at hstep
      by_cases hge : 0 ≤ clockSum cs r (Function.update s c (s c - 1))
      · rw [if_pos hge] at hstep
        exact Or.inr ⟨n, s, _, _, hp, ⟨c, hc, Or.inr ⟨h0, hge, rfl⟩⟩, hstep⟩
      · rw [if_neg hge] at hstep
        rcases ih (hp.step hc h0 (not_le.1 hge)) (some .stoppedAtAgentValue) with ⟨h1, h2⟩ | ⟨n', s', p, st', h1, h2, h3⟩
        · exact Or.inl ⟨hstep.trans h1, by omega⟩
        · exact Or.inr ⟨n', s', p, st', h1, h2, hstep.trans h3⟩

/-- The loop follows its path. -/
theorem loop_of_path {cs : List AgentCategory} {r : List ℕ} (h : r.length = cs.length) (hne : rel cs r ≠ [])
    {n : ℕ} {s : ℕ → ℕ} (hp : Path cs r n s) :
    ∃ st, ∀ fuel, loop r (rel cs r) (fuel + n) (mkMarket cs (fun i => (vAt cs i).length))
        ⟨r, mkPrices cs (fun i => (vAt cs i).length), none⟩
      = loop r (rel cs r) fuel (mkMarket cs s) ⟨r, mkPrices cs s, st⟩ := by
  induction hp with
  | start => exact ⟨none, fun fuel => rfl⟩
  | @step n s c hp hc h0 hneg ih =>
    obtain ⟨st, hst⟩ := ih
    refine ⟨some .stoppedAtAgentValue, fun fuel => ?_⟩
    have hcm := (mainOf_ok hne hc).1
    have := hst (fuel + 1)
    rw [loop_step h (fun i _ => (hp.inv h hne).1.le i) hc hcm st fuel, if_neg h0, if_neg (not_le.2 hneg)] at this
    rw [← this]
    congr 1
    omega

theorem loop_of_ending {cs : List AgentCategory} {r : List ℕ} (h : r.length = cs.length) (hne : rel cs r ≠ [])
    {n : ℕ} {s : ℕ → ℕ} {p : List ℚ} (hp : Path cs r n s) (he : Ending cs r s p) :
    ∃ st, ∀ fuel, n < fuel → loop r (rel cs r) fuel (mkMarket cs (fun i => (vAt cs i).length))
        ⟨r, mkPrices cs (fun i => (vAt cs i).length), none⟩ = .ok (some (mkMarket cs s, ⟨r, p, st⟩)) := by
  obtain ⟨st, hst⟩ := loop_of_path h hne hp
  obtain ⟨c, hc, hend⟩ := he
  have hcm := (mainOf_ok hne hc).1
  have key := fun fuel => loop_step h (fun i _ => (hp.inv h hne).1.le i) hc hcm st fuel
  rcases hend with ⟨h0, rfl⟩ | ⟨h0, hge, rfl⟩
  · refine ⟨st, fun fuel hf => ?_⟩
    obtain ⟨f, rfl⟩ : ∃ f, fuel = (f + 1) + n := ⟨fuel - n - 1, by omega⟩
    rw [hst, key, if_pos h0]
  · refine ⟨some .stoppedAtZeroSum, fun fuel hf => ?_⟩
    obtain ⟨f, rfl⟩ : ∃ f, fuel = (f + 1) + n := ⟨fuel - n - 1, by omega⟩
    rw [hst, key, if_neg h0, if_pos hge]

theorem mkMarket_full (cs : List AgentCategory) : mkMarket cs (fun i => (vAt cs i).length) = ⟨cs⟩ := by
  unfold mkMarket
  congr 1
  apply List.ext_getElem
  · simp
  · intro i h1 h2
    simp [vAt_eq_getElem h2]

theorem mkPrices_full {cs : List AgentCategory} {r : List ℕ} (h : r.length = cs.length) :
    mkPrices cs (fun i => (vAt cs i).length) = List.replicate r.length (-MAX_VALUE) := by
  apply List.ext_getElem
  · simp [mkPrices, h]
  · intro i h1 h2
    simp [mkPrices, clock]

/-- What the auction returns: a trade obtained from an ending of the clock loop. -/
def Outcome (cs : List AgentCategory) (r : List ℕ) (t : TradeWithSinglePrice) : Prop :=
  ∃ n s p m, Path cs r n s ∧ Ending cs r s p ∧ t = ⟨(mkMarket cs s).categories, r, some p, m⟩ ∧
    (∀ i < cs.length, m * rAt r i ≤ s i) ∧ ∀ d, (∀ i < cs.length, d * rAt r i ≤ s i) → d ≤ m

theorem rel_sorted (m : Market) (r : List ℕ) : relevantCategoryIndices m r = rel m.sorted r := by
  unfold rel relevantCategoryIndices
  simp [Market.numCategories, Market.sorted]

theorem rel_ne_nil {m : Market} {r : List ℕ} (h : r.length = m.numCategories) (hpos : ∃ x ∈ r, 0 < x) :
    rel m.sorted r ≠ [] := by
  obtain ⟨x, hx, hx0⟩ := hpos
  obtain ⟨i, hi, rfl⟩ := List.getElem_of_mem hx
  refine List.ne_nil_of_mem (a := i) (relevant_mem.2 ⟨by rw [m.sorted_length]; omega, ?_⟩)
  rw [rAt_eq_getElem hi]; exact hx0

theorem init_of_ending {cs : List AgentCategory} {r : List ℕ} (h : r.length = cs.length) (hne : rel cs r ≠ [])
    {n : ℕ} {s : ℕ → ℕ} {p : List ℚ} (hp : Path cs r n s) :
    ∃ m, TradeWithSinglePrice.init (mkMarket cs s).categories r (some p)
        = .ok ⟨(mkMarket cs s).categories, r, some p, m⟩ ∧
      (∀ i < cs.length, m * rAt r i ≤ s i) ∧ ∀ d, (∀ i < cs.length, d * rAt r i ≤ s i) → d ≤ m := by
  have hinv := (hp.inv h hne).1
  rcases trade_init_spec (mkMarket cs s).categories r (some p) with ⟨h0, -⟩ | ⟨-, m, h1, h2, h3⟩
  · obtain ⟨c, hc⟩ := List.exists_mem_of_ne_nil _ hne
    obtain ⟨hc1, hc2⟩ := relevant_mem.1 hc
    have := h0 c (by rw [mkMarket_length]; exact hc1)
    omega
  · rw [mkMarket_length] at h2 h3
    simp only [vAt_mkMarket, List.length_take, min_eq_left (hinv.le _)] at h2 h3
    exact ⟨m, h1, h2, h3⟩

theorem total_eq (m : Market) : ∑ i ∈ Finset.range m.sorted.length, (vAt m.sorted i).length = m.numAgents := by
  simp only [vAt_sorted, sortDesc_length, m.sorted_length]
  have : ∀ l : List (List ℚ), ∑ i ∈ Finset.range l.length, (l.getD i []).length = (l.map List.length).sum := by
    intro l
    induction l with
    | nil => simp
    | cons a l ih => rw [List.length_cons, Finset.sum_range_succ']; simp [← ih, add_comm]
  unfold Market.numAgents
  rw [← this]
  simp [Market.numCategories, Market.valueLists, vAt]

/-- The whole auction. -/
theorem auction_spec {m : Market} {r : List ℕ} (h : r.length = m.numCategories) (hcat : m.categories ≠ [])
    (hpos : ∃ x ∈ r, 0 < x) (fuel N : ℕ) :
    (auction m r fuel N = .ok none ∧ fuel ≤ m.numAgents) ∨
      ∃ t, auction m r fuel N = .ok (some t) ∧ Outcome m.sorted r t := by
  have h' : r.length = m.sorted.length := by rw [m.sorted_length]; exact h
  have hne := rel_ne_nil h hpos
  obtain ⟨k, -, hk⟩ := optimalTrade_eq h hcat N true
  have hres := loop_result h' hne fuel (Path.start) none
  rw [mkMarket_full, mkPrices_full h'] at hres
  unfold auction
  rw [rel_sorted]
  simp only [h, ne_eq, not_true_eq_false, if_false, hk, bind, Except.bind, Market.clone_eq hcat,
    AscendingPriceVector.init]
  rw [h] at hres
  rcases hres with ⟨h1, h2⟩ | ⟨n, s, p, st, h1, h2, h3⟩
  · left
    rw [h1, ← total_eq]
    exact ⟨rfl, by simpa using h2⟩
  · right
    obtain ⟨d, hd1, hd2⟩ := init_of_ending (p := p) h' hne h1
    rw [h3]
    simp only [hd1]
    exact ⟨_, rfl, n, s, p, d, h1, h2, rfl, hd2⟩

theorem auction_of_ending {m : Market} {r : List ℕ} (h : r.length = m.numCategories) (hcat : m.categories ≠ [])
    (hpos : ∃ x ∈ r, 0 < x) {n : ℕ} {s : ℕ → ℕ} {p : List ℚ} (hp : Path m.sorted r n s) (he : Ending m.sorted r s p) :
    ∃ d, (∀ i < m.sorted.length, d * rAt r i ≤ s i) ∧ (∀ e, (∀ i < m.sorted.length, e * rAt r i ≤ s i) → e ≤ d) ∧
      ∀ fuel N, n < fuel → auction m r fuel N = .ok (some ⟨(mkMarket m.sorted s).categories, r, some p, d⟩) := by
  have h' : r.length = m.sorted.length := by rw [m.sorted_length]; exact h
  have hne := rel_ne_nil h hpos
  obtain ⟨d, hd1, hd2, hd3⟩ := init_of_ending (p := p) h' hne hp
  obtain ⟨st, hst⟩ := loop_of_ending h' hne hp he
  rw [mkMarket_full, mkPrices_full h'] at hst
  refine ⟨d, hd2, hd3, fun fuel N hf => ?_⟩
  obtain ⟨k, -, hk⟩ := optimalTrade_eq h hcat N true
  unfold auction
  rw [rel_sorted]
  have := hst fuel hf
  rw [h] at this
  simp only [h, ne_eq, not_true_eq_false, if_false, hk, bind, Except.bind, Market.clone_eq hcat,
    AscendingPriceVector.init, this, hd1]

end Ascending

end Auctions
