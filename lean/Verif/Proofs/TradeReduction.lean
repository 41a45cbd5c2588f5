import Verif.Model.TradeReduction
import Verif.Proofs.McAfee
import Verif.Proofs.Prices

set_option autoImplicit false

/-! # The trade-reduction protocol as a walk on vectors of category sizes -/

namespace Auctions

open Spec Ascending

namespace TradeReduction

/-! ## Index maps -/

/-- First position of category `i` in a procurement-set. -/
def start (r : List ℕ) (i : ℕ) : ℕ := (r.take i).sum

theorem start_cons_succ (a : ℕ) (r : List ℕ) (i : ℕ) : start (a :: r) (i + 1) = a + start r i := by simp [start]

theorem toCategory_get (r : List ℕ) (i₀ i t : ℕ) (ht : t < rAt r i) :
    (pivotIndexToCategoryIndex i₀ r)[start r i + t]? = some (i₀ + i) := by
  induction r generalizing i₀ i with
  | nil => simp [rAt] at ht
  | cons a r ih =>
    cases i with
    | zero =>
      have : t < a := by simpa using ht
      simp [pivotIndexToCategoryIndex, start, List.getElem?_append, this]
    | succ i =>
      have := ih (i₀ + 1) i (by simpa using ht)
      simp only [pivotIndexToCategoryIndex, start_cons_succ]
      rw [List.getElem?_append_right (by simp; omega)]
      simp only [List.length_replicate]
      rw [show a + start r i + t - a = start r i + t by omega, this]
      congr 1; omega

theorem convert_get (r : List ℕ) (i₀ i t : ℕ) (ht : t < rAt r i) :
    convertCategoryIndexLoop i₀ (start r i + t) r = i₀ + i := by
  induction r generalizing i₀ i with
  | nil => simp [rAt] at ht
  | cons a r ih =>
    cases i with
    | zero =>
      have : t < a := by simpa using ht
      simp [convertCategoryIndexLoop, start, this]
    | succ i =>
      simp only [convertCategoryIndexLoop, start_cons_succ]
      rw [if_neg (by omega), show a + start r i + t - a = start r i + t by omega, ih (i₀ + 1) i (by simpa using ht)]
      omega

theorem blk_get {cs : List AgentCategory} {r : List ℕ} (h : r.length = cs.length) {j : ℕ} (hav : Avail cs r j) (i t : ℕ)
    (ht : t < rAt r i) : (blk cs r j)[start r i + t]? = (vAt cs i)[j * rAt r i + t]? := by
  induction cs generalizing r i with
  | nil => cases r <;> simp_all [rAt]
  | cons c cs ih =>
    cases r with
    | nil => simp at h
    | cons a r =>
      have h0 := hav 0 (by simp)
      have hl : (seg c.values a j).length = a := seg_length (by simpa using h0)
      cases i with
      | zero =>
        have hta : t < a := by simpa using ht
        simp only [blk, start, List.take_zero, List.sum_nil, zero_add, vAt_cons_zero, rAt_cons_zero]
        rw [List.getElem?_append_left (by omega)]
        simp [seg, hta]
      | succ i =>
        simp only [blk, start_cons_succ, vAt_cons_succ, rAt_cons_succ]
        rw [List.getElem?_append_right (by omega), hl, show a + start r i + t - a = start r i + t by omega]
        exact ih (by simpa using h) hav.tail i (by simpa using ht)

/-! ## The abstract machine -/

/-- Is a gain large enough for external competition? -/
def Pass (z : Bool) (x : ℚ) : Prop := x > 0 ∨ (z = true ∧ x = 0)

instance (z : Bool) (x : ℚ) : Decidable (Pass z x) := by unfold Pass; infer_instance

/-- Highest value in the remaining market, for a category of which the `s` best agents are not in the remaining market. -/
def clk (cs : List AgentCategory) (pad : ℕ → Bool) (l s : ℕ) : ℚ :=
  if pad l = true then max (clock (vAt cs l) s) (-MAX_VALUE) else clock (vAt cs l) s

/-- The remaining market. -/
def remCats (cs : List AgentCategory) (pad : ℕ → Bool) (s : ℕ → ℕ) : List AgentCategory :=
  cs.mapIdx (fun l c => { c with values := (if pad l = true then sortDesc (-MAX_VALUE :: c.values.drop (s l)) else c.values.drop (s l)) })

/-- The traders: agents with ranks `b l, …, a l - 1` of each category. -/
def trCats (cs : List AgentCategory) (a b : ℕ → ℕ) : List AgentCategory :=
  cs.mapIdx (fun l c => { c with values := (c.values.take (a l)).drop (b l) })

/-- The best procurement-set containing the agent of category `i` with rank `s i - 1`. -/
def bestV (cs : List AgentCategory) (pad : ℕ → Bool) (s : ℕ → ℕ) (i : ℕ) : List ℚ :=
  (List.range cs.length).map (fun l => if l = i then (vAt cs i).getD (s i - 1) 0 else clk cs pad l (s l))

/-- The prices set by that procurement-set. -/
def pricesV (cs : List AgentCategory) (r : List ℕ) (pad : ℕ → Bool) (s : ℕ → ℕ) (i : ℕ) : List ℚ :=
  (bestV cs pad s i).set i (((vAt cs i).getD (s i - 1) 0 * rAt r i - recipeSum r (bestV cs pad s i)) / rAt r i)

inductive Abs
  | compete (s : ℕ → ℕ)
  | found (a b : ℕ → ℕ) (p : List ℚ)

/-- One visit of category `i`. -/
def visit (cs : List AgentCategory) (r : List ℕ) (pad : ℕ → Bool) (z : Bool) : Abs → ℕ → Abs
  | .compete s, i =>
    if Pass z (recipeSum r (bestV cs pad s i)) then
      .found s (Function.update s i (s i - 1)) (pricesV cs r pad s i)
    else .compete (Function.update s i (s i - 1))
  | .found a b p, i => .found a (Function.update b i (b i - 1)) p

/-- The numbers of agents not yet visited. -/
def Abs.cur : Abs → ℕ → ℕ
  | .compete s => s
  | .found _ b _ => b

def conc (cs : List AgentCategory) (pad : ℕ → Bool) : Abs → State
  | .compete s => ⟨⟨remCats cs pad s⟩, trCats cs s s, none, false⟩
  | .found a b p => ⟨⟨remCats cs pad a⟩, trCats cs a b, some p, true⟩

theorem visit_cur (cs : List AgentCategory) (r : List ℕ) (pad : ℕ → Bool) (z : Bool) (A : Abs) (i : ℕ) :
    (visit cs r pad z A i).cur = Function.update A.cur i (A.cur i - 1) := by
  cases A with
  | compete s => simp only [visit]; split <;> rfl
  | found a b p => rfl

theorem trCats_empty (cs : List AgentCategory) (s s' : ℕ → ℕ) : trCats cs s s = trCats cs s' s' := by
  unfold trCats
  apply List.ext_getElem <;> simp

theorem trCats_length (cs : List AgentCategory) (a b : ℕ → ℕ) : (trCats cs a b).length = cs.length := by simp [trCats]

theorem remCats_length (cs : List AgentCategory) (pad : ℕ → Bool) (s : ℕ → ℕ) : (remCats cs pad s).length = cs.length := by
  simp [remCats]

/-- Well-formed abstract states. -/
def Abs.WF (cs : List AgentCategory) (pad : ℕ → Bool) : Abs → Prop
  | .compete s => ∀ l < cs.length, s l ≤ (vAt cs l).length ∧ (pad l = false → s l < (vAt cs l).length)
  | .found a b _ => ∀ l < cs.length, b l ≤ a l ∧ a l ≤ (vAt cs l).length

theorem visit_wf {cs : List AgentCategory} {r : List ℕ} {pad : ℕ → Bool} {z : Bool} {A : Abs} (hA : A.WF cs pad) (i : ℕ) :
    (visit cs r pad z A i).WF cs pad := by
  have hup : ∀ (s : ℕ → ℕ) l, Function.update s i (s i - 1) l ≤ s l := fun s l => update_le l
  cases A with
  | compete s =>
    simp only [visit]
    split
    · intro l hl; exact ⟨hup s l, (hA l hl).1⟩
    · intro l hl
      have h1 := hA l hl
      have h2 := hup s l
      exact ⟨by omega, fun hp => by have := h1.2 hp; omega⟩
  | found a b p => intro l hl; have h1 := hA l hl; have h2 := hup b l; exact ⟨by omega, h1.2⟩

theorem append_trader_tr {cs : List AgentCategory} (hs : ∀ c ∈ cs, SortedDesc c.values) {a b : ℕ → ℕ} {i : ℕ} (hi : i < cs.length)
    (hb0 : 0 < b i) (hba : b i ≤ a i) (ha : a i ≤ (vAt cs i).length) {toC : List ℕ} {pivot : ℕ} (hto : toC[pivot]? = some i)
    {v : ℚ} (hv : (vAt cs i)[b i - 1]? = some v) :
    appendTrader (trCats cs a b) toC pivot v = .ok (trCats cs a (Function.update b i (b i - 1))) := by
  have hget : (trCats cs a b)[i]? = some { cs[i] with values := ((cs[i]).values.take (a i)).drop (b i) } := by
    simp [trCats, hi]
  unfold appendTrader
  rw [pyGet_ok hto]
  simp only [bind, Except.bind]
  rw [pyGet_ok hget]
  simp only [Except.ok.injEq]
  rw [vAt_eq_getElem hi] at ha hv
  have hseg : seg (cs[i]).values 1 (b i - 1) = [v] := by
    have hlt : b i - 1 < (cs[i]).values.length := by omega
    rw [List.getElem?_eq_getElem hlt, Option.some.injEq] at hv
    simp [seg, List.take_one_drop_eq_of_lt_length hlt, hv]
  have happ := McAfee.append_seg (hs cs[i] (List.getElem_mem hi)) (show b i - 1 < a i by omega) ha
  rw [hseg, show b i - 1 + 1 = b i by omega] at happ
  have hs1 : sortDesc (((cs[i]).values.take (a i)).drop (b i) ++ [v]) = ((cs[i]).values.take (a i)).drop (b i - 1) := happ
  simp only [AgentCategory.append, hs1]
  apply List.ext_getElem
  · simp [trCats]
  · intro l h1 h2
    by_cases hl : l = i
    · subst hl; simp [trCats]
    · rw [List.getElem_set_ne (Ne.symm hl)]
      simp [trCats, Function.update_of_ne hl]

theorem append_rem {cs : List AgentCategory} (hs : ∀ c ∈ cs, SortedDesc c.values) {pad : ℕ → Bool} {s : ℕ → ℕ} {i : ℕ}
    (hi : i < cs.length) (hs0 : 0 < s i) {v : ℚ} (hv : (vAt cs i)[s i - 1]? = some v) :
    Market.appendTrader ⟨remCats cs pad s⟩ i v = .ok ⟨remCats cs pad (Function.update s i (s i - 1))⟩ := by
  have hlt : s i - 1 < (vAt cs i).length := (List.getElem?_eq_some_iff.1 hv).1
  rw [vAt_eq_getElem hi] at hlt hv
  rw [List.getElem?_eq_getElem hlt, Option.some.injEq] at hv
  have hd : (cs[i]).values.drop (s i - 1) = v :: (cs[i]).values.drop (s i) := by
    rw [List.drop_eq_getElem_cons hlt, hv, show s i - 1 + 1 = s i by omega]
  have hsorted := hs cs[i] (List.getElem_mem hi)
  unfold Market.appendTrader
  have hget : (remCats cs pad s)[i]? = some
      { cs[i] with values := (if pad i = true then sortDesc (-MAX_VALUE :: (cs[i]).values.drop (s i)) else (cs[i]).values.drop (s i)) } := by
    simp [remCats, hi]
  simp only [hget]
  simp only [Except.ok.injEq, Market.mk.injEq]
  apply List.ext_getElem
  · simp [remCats]
  · intro l h1 h2
    by_cases hl : l = i
    · subst hl
      simp only [List.getElem_set_self, AgentCategory.append, remCats, List.getElem_mapIdx, Function.update_self, hd]
      congr 1
      split
      · refine eq_of_perm_of_sorted ?_ (sortDesc_sorted _) (sortDesc_sorted _)
        refine (sortDesc_perm _).trans (((sortDesc_perm _).append_right _).trans ?_)
        refine List.Perm.trans ?_ (sortDesc_perm _).symm
        simp only [List.cons_append]
        refine List.Perm.cons _ ?_
        exact List.perm_append_comm
      · refine eq_of_perm_of_sorted ?_ (sortDesc_sorted _) (by rw [← hd]; exact hsorted.drop _)
        exact (sortDesc_perm _).trans List.perm_append_comm
    · rw [List.getElem_set_ne (Ne.symm hl)]
      simp [remCats, Function.update_of_ne hl]

theorem head_sortDesc_cons (x : ℚ) (V : List ℚ) (hV : SortedDesc V) :
    (sortDesc (x :: V)).head? = some (max (V.getD 0 x) x) := by
  have hne : sortDesc (x :: V) ≠ [] := by intro h; have := congrArg List.length h; simp at this
  obtain ⟨w, W, hW⟩ := List.exists_cons_of_ne_nil hne
  have hmem : ∀ u, u ∈ sortDesc (x :: V) ↔ u ∈ x :: V := fun u => mem_sortDesc
  have hle := (hW ▸ sortDesc_sorted (x :: V) : SortedDesc (w :: W)).le_head
  have hw : w ∈ x :: V := (hmem w).1 (by rw [hW]; simp)
  rw [hW, List.head?_cons, Option.some.injEq]
  cases V with
  | nil => simpa using hw
  | cons y V =>
    simp only [List.getD_cons_zero]
    have hx : x ≤ w := hle x (by rw [← hW]; exact (hmem x).2 (by simp))
    have hy : y ≤ w := hle y (by rw [← hW]; exact (hmem y).2 (by simp))
    apply le_antisymm
    · rcases List.mem_cons.1 hw with rfl | hw
      · exact le_max_right _ _
      · exact le_trans (hV.le_head w hw) (le_max_left _ _)
    · exact max_le hy hx

theorem rem_head {cs : List AgentCategory} (hs : ∀ c ∈ cs, SortedDesc c.values) {pad : ℕ → Bool} {s : ℕ → ℕ} {l : ℕ}
    (hl : l < cs.length) (hp : pad l = false → s l < (vAt cs l).length) {cat : AgentCategory}
    (hc : (remCats cs pad s)[l]? = some cat) : cat.values.head? = some (clk cs pad l (s l)) := by
  have hsorted := hs cs[l] (List.getElem_mem hl)
  simp only [remCats, List.getElem?_mapIdx, List.getElem?_eq_getElem hl, Option.map_some, Option.some.injEq] at hc
  subst hc
  unfold clk clock
  rw [vAt_eq_getElem hl] at hp ⊢
  by_cases hpad : pad l = true
  · simp only [hpad, if_true]
    rw [head_sortDesc_cons _ _ (hsorted.drop _)]
    by_cases hlt : s l < (cs[l]).values.length
    · rw [List.drop_eq_getElem_cons hlt]
      simp [hlt]
    · rw [List.drop_of_length_le (by omega)]
      simp [List.getD, List.getElem?_eq_none (by omega : (cs[l]).values.length ≤ s l)]
  · have hlt := hp (by simpa using hpad)
    simp [hpad, hlt]

theorem best_eq {cs : List AgentCategory} (hs : ∀ c ∈ cs, SortedDesc c.values) {pad : ℕ → Bool} {s : ℕ → ℕ}
    (hw : (Abs.compete s).WF cs pad) {i : ℕ} {v : ℚ} (hv : (vAt cs i)[s i - 1]? = some v) :
    Market.bestContainingPS ⟨remCats cs pad s⟩ i v = .ok (bestV cs pad s i) := by
  rcases bestLoop i v (remCats cs pad s) 0 with ⟨ps, h1, h2, h3⟩ | ⟨-, j, cat, h2, h3, h4⟩
  · rw [Market.bestContainingPS, h1, Except.ok.injEq]
    rw [remCats_length] at h2
    apply List.ext_getElem
    · simp [bestV, h2]
    · intro l hl1 hl2
      have hl : l < cs.length := by omega
      simp only [bestV, List.getElem_map, List.getElem_range]
      rcases h3 l ps[l] (List.getElem?_eq_getElem hl1) with ⟨ha, hb⟩ | ⟨ha, cat, hc, hh⟩
      · rw [hb, if_pos (by omega)]
        simp [List.getD, hv]
      · rw [if_neg (by omega)]
        have := rem_head hs hl (hw l hl).2 hc
        rw [hh] at this
        simpa using this
  · exfalso
    have hj : j < cs.length := by
      have := (List.getElem?_eq_some_iff.1 h2).1
      rwa [remCats_length] at this
    have := rem_head hs hj (hw j hj).2 h2
    rw [h4] at this
    simp at this

theorem bestV_length (cs : List AgentCategory) (pad : ℕ → Bool) (s : ℕ → ℕ) (i : ℕ) : (bestV cs pad s i).length = cs.length := by
  simp [bestV]

theorem prices_eq {m : Market} {r : List ℕ} (h : r.length = m.sorted.length) {pad : ℕ → Bool} {s : ℕ → ℕ} {i : ℕ}
    (hi : i < m.sorted.length) (hr : 0 < rAt r i) {v : ℚ} (hv : (vAt m.sorted i)[s i - 1]? = some v) :
    m.calculatePricesByExternalCompetition i v (bestV m.sorted pad s i) r = .ok (pricesV m.sorted r pad s i) := by
  have hvD : (vAt m.sorted i).getD (s i - 1) 0 = v := by simp [List.getD, hv]
  have hr0 : (rAt r i : ℚ) ≠ 0 := by exact_mod_cast hr.ne'
  have hri : r[i]? = some (rAt r i) := by rw [rAt_eq_getElem (by omega)]; exact List.getElem?_eq_getElem _
  have := pricesLoop_eq (c := i) (v := v) (best := bestV m.sorted pad s i) (r := r) (by rw [bestV_length, h]) m.numCategories 0
    (by rw [bestV_length, m.sorted_length]; omega)
    (x := (v * rAt r i - recipeSum r (bestV m.sorted pad s i)) / rAt r i)
    (fun _ _ => ⟨rAt r i, hri, by simp [pyDiv, hr0]⟩)
  rw [Market.calculatePricesByExternalCompetition, this, pricesV, hvD]
  rfl

theorem competeStep_eq {m : Market} {r : List ℕ} (h : r.length = m.sorted.length) {pad : ℕ → Bool} {z : Bool} {A : Abs}
    (hA : A.WF m.sorted pad) {i : ℕ} (hi : i < m.sorted.length) (hr : 0 < rAt r i) (hcur : 0 < A.cur i) {toC ps : List _} {pivot : ℕ}
    (hto : toC[pivot]? = some i) (hconv : convertCategoryIndex r pivot = i)
    {v : ℚ} (hps : ps[pivot]? = some v) (hv : (vAt m.sorted i)[A.cur i - 1]? = some v) :
    competeStep m r toC z ps (conc m.sorted pad A) pivot = .ok (conc m.sorted pad (visit m.sorted r pad z A i)) := by
  have hs := m.sorted_sorted
  cases A with
  | found a b p =>
    have hw := hA i hi
    simp only [Abs.cur] at hcur hv
    have := append_trader_tr hs hi hcur hw.1 hw.2 hto hv
    simp only [competeStep, conc, visit]
    rw [pyGet_ok hps]
    simp only [bind, Except.bind, if_true]
    simp [this]
  | compete s =>
    have hw := hA i hi
    simp only [Abs.cur] at hcur hv
    have hwf : r.length = (bestV m.sorted pad s i).length := by rw [bestV_length, h]
    simp only [competeStep, conc, visit]
    rw [pyGet_ok hps]
    have hcat : ∃ c, m.categories[i]? = some c := ⟨m.categories[i]'(by rw [m.sorted_length] at hi; exact hi), by
      exact List.getElem?_eq_getElem _⟩
    obtain ⟨c, hc⟩ := hcat
    simp only [bind, Except.bind, hconv]
    rw [pyGet_ok hc, best_eq hs hA hv]
    simp only [Bool.false_eq_true, if_false]
    rw [weightedSum_eq (by omega)]
    simp only
    by_cases hp : Pass z (recipeSum r (bestV m.sorted pad s i))
    · have hp' : (recipeSum r (bestV m.sorted pad s i) > 0 ∨ z = true ∧ recipeSum r (bestV m.sorted pad s i) = 0) := hp
      rw [if_pos hp', if_pos hp, prices_eq h hi hr hv, append_trader_tr hs hi hcur (le_refl _) hw.1 hto hv]
    · have hp' : ¬ (recipeSum r (bestV m.sorted pad s i) > 0 ∨ z = true ∧ recipeSum r (bestV m.sorted pad s i) = 0) := hp
      rw [if_neg hp', if_neg hp, append_rem hs hi hcur hv]
      simp only [Except.ok.injEq]
      rw [trCats_empty]

theorem tradeStep_eq {m : Market} {r : List ℕ} {pad : ℕ → Bool} {z : Bool} {a b : ℕ → ℕ} {p : List ℚ}
    (hA : (Abs.found a b p).WF m.sorted pad) {i : ℕ} (hi : i < m.sorted.length) (hcur : 0 < b i) {toC ps : List _} {pivot : ℕ}
    (hto : toC[pivot]? = some i) {v : ℚ} (hps : ps[pivot]? = some v) (hv : (vAt m.sorted i)[b i - 1]? = some v) :
    tradeStep toC ps (conc m.sorted pad (.found a b p)) pivot
      = .ok (conc m.sorted pad (visit m.sorted r pad z (.found a b p) i)) := by
  have hw := hA i hi
  have := append_trader_tr m.sorted_sorted hi hcur hw.1 hw.2 hto hv
  simp only [tradeStep, conc, visit]
  rw [pyGet_ok hps]
  simp only [bind, Except.bind]
  simp [this]

/-! ## One procurement-set -/

theorem foldl_visit_cur (cs : List AgentCategory) (r : List ℕ) (pad : ℕ → Bool) (z : Bool) (A : Abs) (i q : ℕ) :
    ((List.replicate q i).foldl (visit cs r pad z) A).cur = Function.update A.cur i (A.cur i - q) := by
  induction q generalizing A with
  | zero => simp
  | succ q ih =>
    rw [List.replicate_succ, List.foldl_cons, ih, visit_cur]
    simp [Nat.sub_sub, Nat.add_comm]

theorem foldl_wf {cs : List AgentCategory} {r : List ℕ} {pad : ℕ → Bool} {z : Bool} (l : List ℕ) {A : Abs} (hA : A.WF cs pad) :
    (l.foldl (visit cs r pad z) A).WF cs pad := by
  induction l generalizing A with
  | nil => exact hA
  | cons i l ih => exact ih (visit_wf hA i)

/-- The inner loop for one category. `step` is either body of the inner loop; `P` says which abstract states it applies to. -/
theorem category_fold {m : Market} {r : List ℕ} {pad : ℕ → Bool} {z : Bool}
    {step : State → ℕ → Py State} {P : Abs → Prop} (hPv : ∀ A i, P A → P (visit m.sorted r pad z A i))
    {i j : ℕ} (hstep : ∀ A t, P A → A.WF m.sorted pad → t < rAt r i → A.cur i = j * rAt r i + t + 1 →
      step (conc m.sorted pad A) (start r i + t) = .ok (conc m.sorted pad (visit m.sorted r pad z A i))) :
    ∀ (q : ℕ) (A : Abs), P A → A.WF m.sorted pad → q ≤ rAt r i → A.cur i = j * rAt r i + q →
    ((List.range q).reverse.map (fun t => start r i + t)).foldlM step (conc m.sorted pad A)
      = .ok (conc m.sorted pad ((List.replicate q i).foldl (visit m.sorted r pad z) A)) := by
  intro q
  induction q with
  | zero => intro A _ _ _ _; rfl
  | succ q ih =>
    intro A hP hA hq hcur
    rw [List.range_succ, List.reverse_append, List.reverse_singleton, List.singleton_append, List.map_cons, List.foldlM_cons,
      hstep A q hP hA (by omega) (by omega), List.replicate_succ, List.foldl_cons]
    simp only [bind, Except.bind]
    refine ih _ (hPv A i hP) (visit_wf hA i) (by omega) ?_
    rw [visit_cur]
    simp only [Function.update_self]
    omega

/-- The inner loop over all positions of a procurement-set. -/
theorem positions_fold {m : Market} {r : List ℕ} {pad : ℕ → Bool} {z : Bool}
    {step : State → ℕ → Py State} {P : Abs → Prop} (hPv : ∀ A i, P A → P (visit m.sorted r pad z A i))
    {j : ℕ} (hstep : ∀ i A t, P A → A.WF m.sorted pad → t < rAt r i → A.cur i = j * rAt r i + t + 1 →
      step (conc m.sorted pad A) (start r i + t) = .ok (conc m.sorted pad (visit m.sorted r pad z A i)))
    (i₀ : ℕ) (rs : List ℕ) (hrs : r.drop i₀ = rs) :
    ∀ (A : Abs), P A → A.WF m.sorted pad → (∀ i, i₀ ≤ i → A.cur i = (j + 1) * rAt r i) →
    (pivotIndexes (start r i₀) rs).foldlM step (conc m.sorted pad A)
      = .ok (conc m.sorted pad ((pivotIndexToCategoryIndex i₀ rs).foldl (visit m.sorted r pad z) A)) := by
  induction rs generalizing i₀ with
  | nil => intro A _ _ _; rfl
  | cons a rs ih =>
    intro A hP hA hcur
    have hlt : i₀ < r.length := by
      by_contra hge
      rw [List.drop_of_length_le (by omega)] at hrs
      simp at hrs
    have hra : rAt r i₀ = a := by
      rw [List.drop_eq_getElem_cons hlt] at hrs
      rw [rAt_eq_getElem hlt]
      exact (List.cons.inj hrs).1
    have hnext : r.drop (i₀ + 1) = rs := by
      rw [List.drop_eq_getElem_cons hlt] at hrs
      exact (List.cons.inj hrs).2
    have hstart : start r i₀ + a = start r (i₀ + 1) := by
      unfold start
      rw [List.take_succ_eq_append_getElem hlt, List.sum_append]
      rw [rAt_eq_getElem hlt] at hra
      simp [hra]
    simp only [pivotIndexes, pivotIndexToCategoryIndex, List.foldlM_append, List.foldl_append]
    have hc0 := hcur i₀ (le_refl _)
    rw [category_fold hPv (hstep i₀) a A hP hA (by omega) (by rw [hc0, hra]; ring), hstart]
    simp only [bind, Except.bind]
    have hPf : ∀ (l : List ℕ) B, P B → P (l.foldl (visit m.sorted r pad z) B) := by
      intro l
      induction l with
      | nil => intro B h; exact h
      | cons x l ih => intro B h; exact ih _ (hPv B x h)
    refine ih (i₀ + 1) hnext _ (hPf _ _ hP) (foldl_wf _ hA) ?_
    intro i hi
    rw [foldl_visit_cur, Function.update_of_ne (by omega)]
    exact hcur i (by omega)

/-- `latest_prices is None` exactly in competing states. -/
theorem psStep_eq {m : Market} {r : List ℕ} (h : r.length = m.sorted.length) {pad : ℕ → Bool} {z : Bool} {j : ℕ}
    (hav : Avail m.sorted r j) {A : Abs} (hA : A.WF m.sorted pad) (hcur : ∀ i, A.cur i = (j + 1) * rAt r i) :
    psStep m r (pivotIndexes 0 r) (pivotIndexToCategoryIndex 0 r) z (conc m.sorted pad A) (blk m.sorted r j)
      = .ok (conc m.sorted pad ((pivotIndexToCategoryIndex 0 r).foldl (visit m.sorted r pad z) A)) := by
  have key : ∀ i t, t < rAt r i → i < m.sorted.length ∧ ∃ v, (blk m.sorted r j)[start r i + t]? = some v ∧
      (vAt m.sorted i)[j * rAt r i + t]? = some v := by
    intro i t ht
    have hi : i < m.sorted.length := by
      by_contra hge
      have : rAt r i = 0 := by simp [rAt, List.getD, List.getElem?_eq_none (by omega : r.length ≤ i)]
      omega
    refine ⟨hi, ?_⟩
    have hl := hav i hi
    rw [Nat.add_mul, Nat.one_mul] at hl
    refine ⟨(vAt m.sorted i)[j * rAt r i + t]'(by omega), ?_, List.getElem?_eq_getElem _⟩
    rw [blk_get h hav i t ht, List.getElem?_eq_getElem (by omega)]
  cases A with
  | compete s =>
    show (pivotIndexes 0 r).foldlM (competeStep m r (pivotIndexToCategoryIndex 0 r) z (blk m.sorted r j)) (conc m.sorted pad (.compete s)) = _
    refine positions_fold (P := fun _ => True) (fun _ _ _ => trivial) ?_ 0 r rfl _ trivial hA (fun i _ => hcur i)
    intro i A t _ hA ht hc
    obtain ⟨hi, v, h1, h2⟩ := key i t ht
    refine competeStep_eq h hA hi (by omega) (by omega) (v := v) ?_ ?_ h1 ?_
    · simpa using toCategory_get r 0 i t ht
    · have hcv := convert_get r 0 i t ht
      rw [Nat.zero_add] at hcv
      exact hcv
    · rw [hc]; exact h2
  | found a b p =>
    show (pivotIndexes 0 r).foldlM (tradeStep (pivotIndexToCategoryIndex 0 r) (blk m.sorted r j)) (conc m.sorted pad (.found a b p)) = _
    refine positions_fold (P := fun A => ∃ a b p, A = .found a b p) ?_ ?_ 0 r rfl _ ⟨a, b, p, rfl⟩ hA (fun i _ => hcur i)
    · rintro _ i ⟨a, b, p, rfl⟩
      exact ⟨_, _, _, rfl⟩
    · rintro i _ t ⟨a, b, p, rfl⟩ hA ht hc
      obtain ⟨hi, v, h1, h2⟩ := key i t ht
      simp only [Abs.cur] at hc
      refine tradeStep_eq hA hi (by omega) (v := v) ?_ h1 ?_
      · simpa using toCategory_get r 0 i t ht
      · rw [hc]; exact h2

theorem foldl_cur (cs : List AgentCategory) (r : List ℕ) (pad : ℕ → Bool) (z : Bool) (L : List ℕ) (A : Abs) (i : ℕ) :
    (L.foldl (visit cs r pad z) A).cur i = A.cur i - L.count i := by
  induction L generalizing A with
  | nil => simp
  | cons x L ih =>
    rw [List.foldl_cons, ih, visit_cur, List.count_cons]
    by_cases h : x = i
    · subst h; simp; omega
    · simp [Function.update_of_ne (Ne.symm h), h]

theorem count_toCategory (r : List ℕ) (i₀ i : ℕ) : (pivotIndexToCategoryIndex i₀ r).count (i₀ + i) = rAt r i := by
  induction r generalizing i₀ i with
  | nil => simp [pivotIndexToCategoryIndex, rAt]
  | cons a r ih =>
    rw [pivotIndexToCategoryIndex, List.count_append, List.count_replicate]
    cases i with
    | zero =>
      have : (pivotIndexToCategoryIndex (i₀ + 1) r).count i₀ = 0 := by
        have : ∀ (r : List ℕ) i₁, i₀ < i₁ → (pivotIndexToCategoryIndex i₁ r).count i₀ = 0 := by
          intro r
          induction r with
          | nil => intro i₁ _; simp [pivotIndexToCategoryIndex]
          | cons b r ih =>
            intro i₁ h1
            rw [pivotIndexToCategoryIndex, List.count_append, List.count_replicate, ih (i₁ + 1) (by omega)]
            simp; omega
        exact this r (i₀ + 1) (by omega)
      simp [this]
    | succ i =>
      have := ih (i₀ + 1) i
      rw [show i₀ + (i + 1) = i₀ + 1 + i by omega, this]
      simp; omega

/-- Visiting `K` procurement-sets. -/
def runs (cs : List AgentCategory) (r : List ℕ) (pad : ℕ → Bool) (z : Bool) : ℕ → Abs → Abs
  | 0, A => A
  | K + 1, A => runs cs r pad z K ((pivotIndexToCategoryIndex 0 r).foldl (visit cs r pad z) A)

theorem runs_eq {m : Market} {r : List ℕ} (h : r.length = m.sorted.length) {pad : ℕ → Bool} {z : Bool} (K : ℕ)
    (hav : ∀ t < K, Avail m.sorted r t) {A : Abs} (hA : A.WF m.sorted pad) (hcur : ∀ i, A.cur i = K * rAt r i) :
    (((List.range K).map (blk m.sorted r)).reverse).foldlM
      (psStep m r (pivotIndexes 0 r) (pivotIndexToCategoryIndex 0 r) z) (conc m.sorted pad A)
      = .ok (conc m.sorted pad (runs m.sorted r pad z K A)) := by
  induction K generalizing A with
  | zero => rfl
  | succ K ih =>
    rw [List.range_succ, List.map_append, List.reverse_append]
    simp only [List.map_cons, List.map_nil, List.reverse_cons, List.reverse_nil, List.nil_append, List.cons_append, List.foldlM_cons]
    rw [psStep_eq h (hav K (by omega)) hA hcur]
    simp only [bind, Except.bind, runs]
    refine ih (fun t ht => hav t (by omega)) (foldl_wf _ hA) ?_
    intro i
    rw [foldl_cur, hcur i, Nat.add_mul]
    have := count_toCategory r 0 i
    rw [Nat.zero_add] at this
    rw [this]; omega

/-- What is known about a competing state: `Q` is any invariant of rejected visits. A state with prices was reached from a competing one. -/
def Trace (cs : List AgentCategory) (r : List ℕ) (pad : ℕ → Bool) (z : Bool) (Q : (ℕ → ℕ) → Prop) : Abs → Prop
  | .compete s => Q s
  | .found a _ p => Q a ∧ ∃ i < cs.length, 0 < rAt r i ∧ 0 < a i ∧ Pass z (recipeSum r (bestV cs pad a i)) ∧ p = pricesV cs r pad a i ∧
      ∃ j L, (i :: L) <:+ pivotIndexToCategoryIndex 0 r ∧ ∀ l, j * rAt r l + (i :: L).count l = a l

theorem visits_trace {cs : List AgentCategory} {r : List ℕ} {pad : ℕ → Bool} {z : Bool} {Q : (ℕ → ℕ) → Prop}
    (hQ : ∀ s i, i < cs.length → 0 < rAt r i → 0 < s i → Q s → ¬ Pass z (recipeSum r (bestV cs pad s i)) →
      Q (Function.update s i (s i - 1))) {j : ℕ} (L : List ℕ) (hL : ∀ i ∈ L, i < cs.length ∧ 0 < rAt r i)
    (hsuf : L <:+ pivotIndexToCategoryIndex 0 r) {A : Abs} (hA : Trace cs r pad z Q A) (hcur : ∀ s, A = .compete s → (∀ l, j * rAt r l + L.count l = s l) ∧ ∀ l, s l ≤ (j + 1) * rAt r l) :
    Trace cs r pad z Q (L.foldl (visit cs r pad z) A) := by
  induction L generalizing A with
  | nil => exact hA
  | cons i L ih =>
    rw [List.foldl_cons]
    have hi := hL i (by simp)
    refine ih (fun x hx => hL x (by simp [hx])) ((List.suffix_cons i L).trans hsuf) ?_ ?_
    · cases A with
      | found a b p => exact hA
      | compete s =>
        obtain ⟨hc, hu⟩ := hcur s rfl
        have hsi : 0 < s i := by have := hc i; rw [List.count_cons_self] at this; omega
        simp only [visit]
        split
        · rename_i hp
          exact ⟨hA, i, hi.1, hi.2, hsi, hp, rfl, j, L, hsuf, hc⟩
        · rename_i hp
          exact hQ s i hi.1 hi.2 hsi hA hp
    · intro s' hs'
      cases A with
      | found a b p => simp [visit] at hs'
      | compete s =>
        obtain ⟨hc, hu⟩ := hcur s rfl
        simp only [visit] at hs'
        split at hs'
        · simp at hs'
        · simp only [Abs.compete.injEq] at hs'
          subst hs'
          refine ⟨fun l => ?_, fun l => le_trans (update_le l) (hu l)⟩
          have := hc l
          rw [List.count_cons] at this
          by_cases hl : l = i
          · subst hl; simp at this ⊢; omega
          · simp only [Function.update_of_ne hl]
            have hne : (i == l) = false := by simpa using Ne.symm hl
            simp [hne] at this; omega

theorem mem_toCategory (r : List ℕ) (i₀ x : ℕ) (hx : x ∈ pivotIndexToCategoryIndex i₀ r) :
    ∃ i, x = i₀ + i ∧ 0 < rAt r i := by
  induction r generalizing i₀ with
  | nil => simp [pivotIndexToCategoryIndex] at hx
  | cons a r ih =>
    rw [pivotIndexToCategoryIndex, List.mem_append] at hx
    rcases hx with hx | hx
    · rw [List.mem_replicate] at hx
      exact ⟨0, by omega, by simpa using Nat.pos_of_ne_zero hx.1⟩
    · obtain ⟨i, h1, h2⟩ := ih (i₀ + 1) hx
      exact ⟨i + 1, by omega, by simpa using h2⟩

theorem rAt_pos_lt {r : List ℕ} {i : ℕ} (h : 0 < rAt r i) : i < r.length := by
  by_contra hge
  have : rAt r i = 0 := by simp [rAt, List.getD, List.getElem?_eq_none (by omega : r.length ≤ i)]
  omega

theorem runs_trace {cs : List AgentCategory} {r : List ℕ} (h : r.length = cs.length) {pad : ℕ → Bool} {z : Bool} {Q : (ℕ → ℕ) → Prop}
    (hQ : ∀ s i, i < cs.length → 0 < rAt r i → 0 < s i → Q s → ¬ Pass z (recipeSum r (bestV cs pad s i)) →
      Q (Function.update s i (s i - 1))) (K : ℕ) {A : Abs}
    (hA : Trace cs r pad z Q A) (hcur : ∀ l, A.cur l = K * rAt r l) :
    Trace cs r pad z Q (runs cs r pad z K A) ∧ ∀ l, (runs cs r pad z K A).cur l = 0 := by
  induction K generalizing A with
  | zero => exact ⟨hA, fun l => by simpa [runs] using hcur l⟩
  | succ K ih =>
    simp only [runs]
    refine ih ?_ ?_
    · refine visits_trace hQ (j := K) _ ?_ (List.suffix_refl _) hA ?_
      · intro x hx
        obtain ⟨i, h1, h2⟩ := mem_toCategory r 0 x hx
        have := rAt_pos_lt h2
        rw [Nat.zero_add] at h1
        subst h1
        exact ⟨by omega, h2⟩
      · rintro s rfl
        refine ⟨fun l => ?_, fun l => le_of_eq (hcur l)⟩
        have h1 := hcur l
        have h2 := count_toCategory r 0 l
        rw [Nat.zero_add] at h2
        simp only [Abs.cur] at h1
        rw [h1, h2]; ring
    · intro l
      rw [foldl_cur, hcur l, Nat.add_mul]
      have := count_toCategory r 0 l
      rw [Nat.zero_add] at this
      rw [this]; omega

/-- A rank vector inside a procurement-set lies between the ends of that procurement-set. -/
theorem suffix_bounds {r : List ℕ} {L : List ℕ} (hL : L <:+ pivotIndexToCategoryIndex 0 r) {j : ℕ} {a : ℕ → ℕ}
    (ha : ∀ l, j * rAt r l + L.count l = a l) (l : ℕ) : j * rAt r l ≤ a l ∧ a l ≤ (j + 1) * rAt r l := by
  have h1 := ha l
  have h2 := hL.sublist.count_le l
  have h3 := count_toCategory r 0 l
  rw [Nat.zero_add] at h3
  rw [Nat.add_mul, Nat.one_mul]
  omega

/-! ## The whole protocol -/

/-- Which categories get a dummy agent. -/
def padOf (cs : List AgentCategory) (r : List ℕ) (K : ℕ) (l : ℕ) : Bool := decide ((vAt cs l).length ≤ K * rAt r l)

theorem dropBlocks_getElem {cs : List AgentCategory} {r : List ℕ} (h : r.length = cs.length) (K l : ℕ) (h2 : l < cs.length)
    (hdl : l < (dropBlocks cs r K).length) :
    (dropBlocks cs r K)[l] = { cs[l] with values := (cs[l]).values.drop (K * rAt r l) } := by
  induction cs generalizing r l with
  | nil => simp at h2
  | cons c cs ih =>
    cases r with
    | nil => simp at h
    | cons a r =>
      cases l with
      | zero => simp [dropBlocks]
      | succ l => simpa [dropBlocks] using ih (by simpa using h) l (by simpa using h2) (by simpa [dropBlocks] using hdl)

theorem pad_dropBlocks {cs : List AgentCategory} {r : List ℕ} (h : r.length = cs.length) (K : ℕ) :
    (McAfee.padEmpty ⟨dropBlocks cs r K⟩).categories = remCats cs (padOf cs r K) (fun l => K * rAt r l) := by
  apply List.ext_getElem
  · rw [McAfee.padEmpty_length, dropBlocks_length h, remCats_length]
  · intro l h1 h2
    rw [remCats_length] at h2
    have hdl : l < (dropBlocks cs r K).length := by rw [dropBlocks_length h]; exact h2
    have hd := dropBlocks_getElem h K l h2 hdl
    simp only [McAfee.padEmpty, List.getElem_map, hd, remCats, List.getElem_mapIdx, padOf, AgentCategory.size, vAt_eq_getElem h2,
      List.length_drop, decide_eq_true_eq]
    by_cases hle : (cs[l]).values.length ≤ K * rAt r l
    · have : (cs[l]).values.length - K * rAt r l = 0 := by omega
      rw [if_pos this, if_pos hle]
      simp [AgentCategory.append, List.drop_of_length_le hle]
    · have : ¬ ((cs[l]).values.length - K * rAt r l = 0) := by omega
      rw [if_neg this, if_neg hle]

theorem trCats_mk (cs : List AgentCategory) (a b : ℕ → ℕ) (hb : ∀ l, b l = 0) :
    trCats cs a b = (mkMarket cs a).categories := by
  unfold trCats mkMarket
  apply List.ext_getElem <;> simp [hb]

theorem empty_mk (m : Market) (s : ℕ → ℕ) : m.emptyAgentCategories = trCats m.sorted s s := by
  unfold trCats Market.emptyAgentCategories Market.sorted
  apply List.ext_getElem <;> simp [AgentCategory.clone, AgentCategory.init, sortDesc]

theorem blk_length {cs : List AgentCategory} {r : List ℕ} (h : r.length = cs.length) {j : ℕ} (hav : Avail cs r j) :
    (blk cs r j).length = r.sum := by
  induction cs generalizing r with
  | nil => cases r <;> simp_all [blk]
  | cons c cs ih =>
    cases r with
    | nil => simp at h
    | cons a r =>
      have h0 := hav 0 (by simp)
      simp [blk, ih (by simpa using h) hav.tail, seg_length (show (j + 1) * a ≤ c.values.length by simpa using h0)]

/-- The run of the protocol, in terms of visits. -/
theorem tr_front {m : Market} {r : List ℕ} (h : r.length = m.numCategories) (hcat : m.categories ≠ []) (hpos : ∃ x ∈ r, 0 < x)
    (z : Bool) :
    ∃ k, GreedyStop m r 2000000 true k ∧
      m.optimalTrade r = .ok (⟨((List.range k).map (blk m.sorted r)).reverse⟩, ⟨dropBlocks m.sorted r k⟩) ∧
      ((k = 0 ∧ tradeReduction m r z = .ok ⟨(mkMarket m.sorted (fun _ => 0)).categories, r, some (List.replicate r.length 0), 0⟩) ∨
       (0 < k ∧ ∃ K, k ≤ K ∧ (Avail m.sorted r k → K = k + 1) ∧ (¬ Avail m.sorted r k → K = k) ∧ (∀ t < K, Avail m.sorted r t) ∧
         (Abs.compete (fun l => K * rAt r l)).WF m.sorted (padOf m.sorted r K) ∧
         tradeReduction m r z
           = TradeWithSinglePrice.init (conc m.sorted (padOf m.sorted r K) (runs m.sorted r (padOf m.sorted r K) z K (.compete (fun l => K * rAt r l)))).actualTraders r
               (conc m.sorted (padOf m.sorted r K) (runs m.sorted r (padOf m.sorted r K) z K (.compete (fun l => K * rAt r l)))).latestPrices)) := by
  have h' : r.length = m.sorted.length := by rw [m.sorted_length]; exact h
  obtain ⟨k, hk, he⟩ := optimalTrade_eq h hcat 2000000 true
  refine ⟨k, hk, he, ?_⟩
  obtain ⟨x, hx, hx0⟩ := hpos
  obtain ⟨i₀, hi₀, rfl⟩ := List.getElem_of_mem hx
  rw [← rAt_eq_getElem hi₀] at hx0
  have hi₀' : i₀ < m.sorted.length := by omega
  -- trades without traders
  have hinit0 : ∀ p, TradeWithSinglePrice.init (mkMarket m.sorted (fun _ => 0)).categories r p
      = .ok ⟨(mkMarket m.sorted (fun _ => 0)).categories, r, p, 0⟩ := by
    intro p
    rcases trade_init_spec (mkMarket m.sorted (fun _ => 0)).categories r p with ⟨h1, -⟩ | ⟨-, e, h1, h2, -⟩
    · have := h1 i₀ (by rw [mkMarket_length]; exact hi₀')
      omega
    · have := h2 i₀ (by rw [mkMarket_length]; exact hi₀')
      rw [vAt_mkMarket] at this
      simp only [List.take_zero, List.length_nil, nonpos_iff_eq_zero, mul_eq_zero] at this
      have : e = 0 := by omega
      rw [h1, this]
  have hemp : m.emptyAgentCategories = (mkMarket m.sorted (fun _ => 0)).categories := by
    rw [empty_mk m (fun _ => 0), trCats_mk _ _ _ (fun _ => rfl)]
  rcases Nat.eq_zero_or_pos k with hk0 | hk0
  · left
    subst hk0
    refine ⟨rfl, ?_⟩
    unfold tradeReduction
    simp only [h, ne_eq, not_true_eq_false, if_false, he, bind, Except.bind]
    simp only [List.range_zero, List.map_nil, List.reverse_nil, List.length_nil, if_true]
    rw [hemp]
    exact hinit0 _
  · right
    refine ⟨hk0, ?_⟩
    have hne : ¬ (((List.range k).map (blk m.sorted r)).reverse.length = 0) := by simp; omega
    -- the list of procurement-sets to compete
    obtain ⟨K, hkK, hKav, hKnav, hKall, hfront⟩ : ∃ K, k ≤ K ∧ (Avail m.sorted r k → K = k + 1) ∧ (¬ Avail m.sorted r k → K = k) ∧ (∀ t < K, Avail m.sorted r t) ∧
        tradeReduction m r z = (do
          let s ← (((List.range K).map (blk m.sorted r)).reverse).foldlM
            (psStep m r (pivotIndexes 0 r) (pivotIndexToCategoryIndex 0 r) z)
              ⟨⟨(McAfee.padEmpty ⟨dropBlocks m.sorted r K⟩).categories⟩, m.emptyAgentCategories, none, false⟩
          TradeWithSinglePrice.init s.actualTraders r s.latestPrices) := by
      have hkr : ∀ i < m.sorted.length, k * rAt r i ≤ (vAt m.sorted i).length := by
        intro i hi
        have := (hk.taken (k - 1) (by omega)).1 i hi
        rwa [show k - 1 + 1 = k by omega] at this
      have hlen : r.length = (dropBlocks m.sorted r k).length := by rw [dropBlocks_length h']; exact h'
      rcases getHighestAgentsLoop_eq hlen with ⟨hav, hg⟩ | ⟨hav, hg⟩
      · have hav' := (avail_dropBlocks h' k hkr).1 hav
        rw [blk_dropBlocks h', Nat.add_zero] at hg
        have hrem := removeHighestAgentsLoop_eq hlen hav
        rw [dropBlocks_dropBlocks h'] at hrem
        refine ⟨k + 1, by omega, fun _ => rfl, fun hh => absurd hav' hh, ?_, ?_⟩
        · intro t ht
          rcases Nat.lt_or_ge t k with h1 | h1
          · exact (hk.taken t h1).1
          · rw [show t = k by omega]; exact hav'
        · have hbne : blk m.sorted r k ≠ [] := by
            intro hnil
            have h1 := blk_length h' hav'
            rw [hnil, List.length_nil] at h1
            have h2 : r[i₀] ≤ r.sum := List.single_le_sum (by simp) _ (List.getElem_mem hi₀)
            rw [rAt_eq_getElem hi₀] at hx0
            omega
          obtain ⟨y, ys, hys⟩ := List.exists_cons_of_ne_nil hbne
          unfold tradeReduction
          simp only [h, ne_eq, not_true_eq_false, if_false, he, bind, Except.bind, hne, Market.getHighestAgents, hg, hys,
            Market.removeHighestAgents, hrem]
          rw [List.range_succ, List.map_append, List.reverse_append]
          simp only [List.map_cons, List.map_nil, List.reverse_cons, List.reverse_nil, List.nil_append, List.cons_append, hys]
      · have hav' : ¬ Avail m.sorted r k := fun hh => hav ((avail_dropBlocks h' k hkr).2 hh)
        refine ⟨k, le_refl _, fun hh => absurd hh hav', fun _ => rfl, fun t ht => (hk.taken t ht).1, ?_⟩
        unfold tradeReduction
        simp only [h, ne_eq, not_true_eq_false, if_false, he, bind, Except.bind, hne, Market.getHighestAgents, hg]
    refine ⟨K, hkK, hKav, hKnav, hKall, ?_⟩
    set s₀ : ℕ → ℕ := fun l => K * rAt r l with hs₀
    have hlen : ∀ l < m.sorted.length, s₀ l ≤ (vAt m.sorted l).length := by
      intro l hl
      have := hKall (K - 1) (by omega) l hl
      rwa [show K - 1 + 1 = K by omega] at this
    have hwf : (Abs.compete s₀).WF m.sorted (padOf m.sorted r K) := by
      intro l hl
      refine ⟨hlen l hl, fun hp => ?_⟩
      unfold padOf at hp
      simpa using hp
    refine ⟨hwf, ?_⟩
    have hstart : (⟨⟨(McAfee.padEmpty ⟨dropBlocks m.sorted r K⟩).categories⟩, m.emptyAgentCategories, none, false⟩ : State)
        = conc m.sorted (padOf m.sorted r K) (.compete s₀) := by
      simp only [conc]
      rw [pad_dropBlocks h', empty_mk m s₀]
    rw [hfront, hstart, runs_eq h' K hKall hwf (fun l => rfl)]
    rfl

/-- Closed form of the protocol, for recipes that use at least one agent. -/
theorem tr_eq {m : Market} {r : List ℕ} (h : r.length = m.numCategories) (hcat : m.categories ≠ []) (hpos : ∃ x ∈ r, 0 < x)
    (z : Bool) {Q : ℕ → (ℕ → ℕ) → Prop} (hQ0 : ∀ K, Q K (fun l => K * rAt r l))
    (hQ : ∀ K s i, i < m.sorted.length → 0 < rAt r i → 0 < s i → Q K s →
      ¬ Pass z (recipeSum r (bestV m.sorted (padOf m.sorted r K) s i)) → Q K (Function.update s i (s i - 1))) :
    ∃ k, GreedyStop m r 2000000 true k ∧
      m.optimalTrade r = .ok (⟨((List.range k).map (blk m.sorted r)).reverse⟩, ⟨dropBlocks m.sorted r k⟩) ∧
      ((k = 0 ∧ tradeReduction m r z = .ok ⟨(mkMarket m.sorted (fun _ => 0)).categories, r, some (List.replicate r.length 0), 0⟩) ∨
       (0 < k ∧ ∃ K, k ≤ K ∧ (Avail m.sorted r k → K = k + 1) ∧ (∀ t < K, Avail m.sorted r t) ∧
         ((Q K (fun _ => 0) ∧ tradeReduction m r z = .ok ⟨(mkMarket m.sorted (fun _ => 0)).categories, r, none, 0⟩) ∨
          ∃ a b d, Abs.WF m.sorted (padOf m.sorted r K) (.found a b []) ∧
            (∃ p, Trace m.sorted r (padOf m.sorted r K) z (Q K) (.found a b p) ∧
              tradeReduction m r z = .ok ⟨(mkMarket m.sorted a).categories, r, some p, d⟩) ∧
            (∀ i < m.sorted.length, d * rAt r i ≤ a i) ∧
            ∀ d', (∀ i < m.sorted.length, d' * rAt r i ≤ a i) → d' ≤ d))) := by
  have h' : r.length = m.sorted.length := by rw [m.sorted_length]; exact h
  obtain ⟨k, hk, he, hres⟩ := tr_front h hcat hpos z
  refine ⟨k, hk, he, ?_⟩
  obtain ⟨x, hx, hx0⟩ := hpos
  obtain ⟨i₀, hi₀, rfl⟩ := List.getElem_of_mem hx
  rw [← rAt_eq_getElem hi₀] at hx0
  have hi₀' : i₀ < m.sorted.length := by omega
  -- trades without traders
  have hinit0 : ∀ p, TradeWithSinglePrice.init (mkMarket m.sorted (fun _ => 0)).categories r p
      = .ok ⟨(mkMarket m.sorted (fun _ => 0)).categories, r, p, 0⟩ := by
    intro p
    rcases trade_init_spec (mkMarket m.sorted (fun _ => 0)).categories r p with ⟨h1, -⟩ | ⟨-, e, h1, h2, -⟩
    · have := h1 i₀ (by rw [mkMarket_length]; exact hi₀')
      omega
    · have := h2 i₀ (by rw [mkMarket_length]; exact hi₀')
      rw [vAt_mkMarket] at this
      simp only [List.take_zero, List.length_nil, nonpos_iff_eq_zero, mul_eq_zero] at this
      have : e = 0 := by omega
      rw [h1, this]
  rcases hres with hres | ⟨hk0, K, hkK, hKav, -, hKall, hwf, hrun⟩
  · exact Or.inl hres
  · right
    refine ⟨hk0, K, hkK, hKav, hKall, ?_⟩
    set s₀ : ℕ → ℕ := fun l => K * rAt r l with hs₀
    have htr : Trace m.sorted r (padOf m.sorted r K) z (Q K) (.compete s₀) := hQ0 K
    rw [hrun]
    obtain ⟨hfin, hcur⟩ := runs_trace h' (hQ K) K htr (fun l => rfl)
    have hwfin : (runs m.sorted r (padOf m.sorted r K) z K (.compete s₀)).WF m.sorted (padOf m.sorted r K) := by
      have : ∀ (n : ℕ) (A : Abs), A.WF m.sorted (padOf m.sorted r K) → (runs m.sorted r (padOf m.sorted r K) z n A).WF m.sorted (padOf m.sorted r K) := by
        intro n
        induction n with
        | zero => intro A hA; exact hA
        | succ n ih => intro A hA; exact ih _ (foldl_wf _ hA)
      exact this K _ hwf
    generalize runs m.sorted r (padOf m.sorted r K) z K (.compete s₀) = F at *
    cases F with
    | compete s =>
      left
      have hs0 : s = fun _ => 0 := funext hcur
      subst hs0
      refine ⟨hfin, ?_⟩
      simp only [conc]
      rw [trCats_mk _ _ _ (fun _ => rfl)]
      exact hinit0 _
    | found a b p =>
      right
      have hb0 : b = fun _ => 0 := funext hcur
      subst hb0
      simp only [conc]
      rw [trCats_mk _ _ _ (fun _ => rfl)]
      rcases trade_init_spec (mkMarket m.sorted a).categories r (some p) with ⟨h1, -⟩ | ⟨-, d, h1, h2, h3⟩
      · have := h1 i₀ (by rw [mkMarket_length]; exact hi₀')
        omega
      · have hsz : ∀ i < m.sorted.length, (vAt (mkMarket m.sorted a).categories i).length = a i := by
          intro i hi
          rw [vAt_mkMarket, List.length_take]
          exact min_eq_left (hwfin i hi).2
        refine ⟨a, fun _ => 0, d, hwfin, ⟨p, hfin, h1⟩, ?_, ?_⟩
        · intro i hi
          have := h2 i (by rw [mkMarket_length]; exact hi)
          rwa [hsz i hi] at this
        · intro d' hd'
          refine h3 d' (fun i hi => ?_)
          rw [mkMarket_length] at hi
          rw [hsz i hi]
          exact hd' i hi

end TradeReduction

end Auctions
