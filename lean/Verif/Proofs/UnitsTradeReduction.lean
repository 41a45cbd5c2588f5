import Verif.Proofs.Units
import Verif.Proofs.TradeReduction

set_option autoImplicit false

/-! # Helper lemmas: another currency, and fees that cancel out, in the trade-reduction protocol -/

namespace Auctions

open Spec Auctions.Ascending

namespace TradeReduction

variable {c : ℚ} {b : ℕ → ℚ}

theorem bestV_getD (cs : List AgentCategory) (pad : ℕ → Bool) (s : ℕ → ℕ) (i : ℕ) {l : ℕ} (hl : l < cs.length) :
    (bestV cs pad s i).getD l 0 = if l = i then (vAt cs i).getD (s i - 1) 0 else clk cs pad l (s l) := by
  unfold bestV
  simp [List.getD_eq_getElem?_getD, hl]

theorem bestV_sum {cs : List AgentCategory} {r : List ℕ} (h : r.length = cs.length) (pad : ℕ → Bool) (s : ℕ → ℕ) (i : ℕ) :
    recipeSum r (bestV cs pad s i) = ∑ l ∈ Finset.range cs.length, (rAt r l : ℚ) * (if l = i then (vAt cs i).getD (s i - 1) 0 else clk cs pad l (s l)) := by
  rw [recipeSum_eq_sum h (bestV_length cs pad s i)]
  exact Finset.sum_congr rfl fun l hl => by rw [bestV_getD _ _ _ _ (Finset.mem_range.1 hl)]

theorem clk_eq {cs : List AgentCategory} {r : List ℕ} {bound : ℚ} (hm : Mod cs r bound) (pad : ℕ → Bool) (l s : ℕ) : clk cs pad l s = clock (vAt cs l) s := by
  unfold clk
  split_ifs
  · refine max_eq_left ?_
    by_cases hs : s < (vAt cs l).length
    · refine (hm.2.2 l _ ?_).1
      unfold clock
      simp only [List.getD_eq_getElem?_getD, List.getElem?_eq_getElem hs, Option.getD_some]
      exact List.getElem_mem hs
    · exact (clock_out (by omega)).ge
  · rfl

theorem getD_clock {V : List ℚ} {s : ℕ} (h : s < V.length) : V.getD s 0 = clock V s := by
  unfold clock
  simp [List.getD_eq_getElem?_getD, h]

/-- The procurement-set of a visit has all its agents, or it has a used dummy. -/
def Real (cs : List AgentCategory) (r : List ℕ) (s : ℕ → ℕ) (i : ℕ) : Prop := ∀ l < cs.length, 0 < rAt r l → l ≠ i → s l < (vAt cs l).length

theorem bestV_dummy {cs : List AgentCategory} {r : List ℕ} (h : r.length = cs.length) {bound : ℚ} (hm : Mod cs r bound) {pad : ℕ → Bool} {s : ℕ → ℕ} {i : ℕ}
    (hi : s i - 1 < (vAt cs i).length) (hn : ¬ Real cs r s i) : recipeSum r (bestV cs pad s i) < 0 := by
  unfold Real at hn
  push Not at hn
  obtain ⟨j, hj, hrj, hji, hsj⟩ := hn
  rw [bestV_sum h]
  refine dummy_sum_neg h hm.1 hm.2.1 (fun l _ => ?_) hj hrj ?_
  · by_cases hl : l = i
    · rw [if_pos hl, getD_clock hi]; exact hm.clock_le _ _
    · rw [if_neg hl, clk_eq hm]; exact hm.clock_le _ _
  · rw [if_neg hji, clk_eq hm, clock_out hsj]

theorem real_changed {cs : List AgentCategory} {r : List ℕ} {s : ℕ → ℕ} {i : ℕ} : Real (changed c b cs) r s i ↔ Real cs r s i := by
  unfold Real
  simp only [changed_length, vAt_changed, List.length_map]

theorem entry_changed {cs : List AgentCategory} {r : List ℕ} {bound bound' : ℚ} (hm : Mod cs r bound) (hm' : Mod (changed c b cs) r bound') {pad : ℕ → Bool} {s : ℕ → ℕ} {i : ℕ}
    (hi : s i - 1 < (vAt cs i).length) (hreal : Real cs r s i) {l : ℕ} (hl : l < cs.length) (hrl : 0 < rAt r l) :
    (if l = i then (vAt (changed c b cs) i).getD (s i - 1) 0 else clk (changed c b cs) pad l (s l))
      = c * (if l = i then (vAt cs i).getD (s i - 1) 0 else clk cs pad l (s l)) + b l := by
  by_cases hli : l = i
  · rw [if_pos hli, if_pos hli, vAt_changed, getD_clock (by rw [List.length_map]; exact hi), getD_clock hi, clock_changed _ hi, hli]
  · rw [if_neg hli, if_neg hli, clk_eq hm, clk_eq hm', vAt_changed, clock_changed _ (hreal l hl hrl hli)]

theorem bestV_changed {cs : List AgentCategory} {r : List ℕ} (h : r.length = cs.length) (hb : CancelOut r b) {bound bound' : ℚ} (hm : Mod cs r bound)
    (hm' : Mod (changed c b cs) r bound') {pad : ℕ → Bool} {s : ℕ → ℕ} {i : ℕ} (hi : s i - 1 < (vAt cs i).length) (hreal : Real cs r s i) :
    recipeSum r (bestV (changed c b cs) pad s i) = c * recipeSum r (bestV cs pad s i) := by
  rw [bestV_sum (by rw [changed_length]; exact h), bestV_sum h, changed_length, Finset.mul_sum]
  have : ∀ l ∈ Finset.range cs.length, (rAt r l : ℚ) * (if l = i then (vAt (changed c b cs) i).getD (s i - 1) 0 else clk (changed c b cs) pad l (s l))
      = c * ((rAt r l : ℚ) * (if l = i then (vAt cs i).getD (s i - 1) 0 else clk cs pad l (s l))) + (r.getD l 0 : ℚ) * b l := by
    intro l hl
    have e : (r.getD l 0 : ℚ) = rAt r l := rfl
    rcases Nat.eq_zero_or_pos (rAt r l) with h0 | h0
    · rw [e, h0]; simp
    · rw [entry_changed hm hm' hi hreal (Finset.mem_range.1 hl) h0, e]; ring
  rw [Finset.sum_congr rfl this, Finset.sum_add_distrib]
  unfold CancelOut at hb
  rw [h] at hb
  rw [hb, add_zero]

theorem pass_changed (hc : 0 < c) {cs : List AgentCategory} {r : List ℕ} (h : r.length = cs.length) (hb : CancelOut r b) {bound bound' : ℚ} (hm : Mod cs r bound)
    (hm' : Mod (changed c b cs) r bound') {pad : ℕ → Bool} {z : Bool} {s : ℕ → ℕ} {i : ℕ} (hi : s i - 1 < (vAt cs i).length) :
    Pass z (recipeSum r (bestV (changed c b cs) pad s i)) ↔ Pass z (recipeSum r (bestV cs pad s i)) := by
  have hneg : ∀ x : ℚ, x < 0 → ¬ Pass z x := by
    intro x hx hp
    rcases hp with hp | ⟨-, hp⟩ <;> linarith
  by_cases hreal : Real cs r s i
  · rw [bestV_changed h hb hm hm' hi hreal]
    unfold Pass
    have h1 : c * recipeSum r (bestV cs pad s i) > 0 ↔ recipeSum r (bestV cs pad s i) > 0 := by constructor <;> intro h <;> nlinarith
    rw [h1, mul_eq_zero, or_iff_right hc.ne']
  · refine iff_of_false (hneg _ ?_) (hneg _ ?_)
    · refine bestV_dummy (by rw [changed_length]; exact h) hm' (by rw [vAt_changed, List.length_map]; exact hi) ?_
      rw [real_changed]; exact hreal
    · exact bestV_dummy h hm hi hreal

/-- Runs in the two markets that correspond to each other. -/
def Same (cs : List AgentCategory) (r : List ℕ) (c : ℚ) (b : ℕ → ℚ) : Abs → Abs → Prop
  | .compete s, .compete s' => s' = s
  | .found a e p, .found a' e' p' => a' = a ∧ e' = e ∧ ∀ l < cs.length, 0 < rAt r l → p'.getD l 0 = c * p.getD l 0 + b l
  | _, _ => False

theorem visit_changed (hc : 0 < c) {cs : List AgentCategory} {r : List ℕ} (h : r.length = cs.length) (hb : CancelOut r b) {bound bound' : ℚ} (hm : Mod cs r bound)
    (hm' : Mod (changed c b cs) r bound') {pad : ℕ → Bool} {z : Bool} {A A' : Abs} (hs : Same cs r c b A A') {i : ℕ} (hil : i < cs.length) (hri : 0 < rAt r i)
    (hi : A.cur i - 1 < (vAt cs i).length) : Same cs r c b (visit cs r pad z A i) (visit (changed c b cs) r pad z A' i) := by
  cases A with
  | compete s =>
    cases A' with
    | found => exact hs.elim
    | compete s' =>
      have hss : s' = s := hs
      subst hss
      have hi : s' i - 1 < (vAt cs i).length := hi
      have hp := pass_changed hc h hb hm hm' (pad := pad) (z := z) hi
      simp only [visit]
      by_cases hP : Pass z (recipeSum r (bestV cs pad s' i))
      · rw [if_pos hP, if_pos (hp.2 hP)]
        refine ⟨rfl, rfl, fun l hl hrl => ?_⟩
        have hreal : Real cs r s' i := by
          by_contra hn
          have := bestV_dummy h hm (pad := pad) hi hn
          rcases hP with hP | ⟨-, hP⟩ <;> linarith
        have hr0 : (rAt r i : ℚ) ≠ 0 := by exact_mod_cast hri.ne'
        unfold pricesV
        by_cases hli : l = i
        · subst hli
          have h1 : l < (bestV cs pad s' l).length := by rw [bestV_length]; exact hl
          have h2 : l < (bestV (changed c b cs) pad s' l).length := by rw [bestV_length, changed_length]; exact hl
          simp only [List.getD_eq_getElem?_getD, List.getElem?_set_self h1, List.getElem?_set_self h2, Option.getD_some]
          simp only [← List.getD_eq_getElem?_getD]
          rw [bestV_changed h hb hm hm' hi hreal, vAt_changed, getD_clock (by rw [List.length_map]; exact hi), getD_clock hi, clock_changed _ hi]
          field_simp
          ring
        · have e1 := bestV_getD cs pad s' i hl
          have e2 := bestV_getD (changed c b cs) pad s' i (l := l) (by rw [changed_length]; exact hl)
          simp only [List.getD_eq_getElem?_getD, List.getElem?_set_ne (Ne.symm hli)]
          rw [List.getD_eq_getElem?_getD] at e1 e2
          rw [e1, e2]
          exact entry_changed hm hm' hi hreal hl hrl
      · rw [if_neg hP, if_neg (fun hh => hP (hp.1 hh))]
        rfl
  | found a e p =>
    cases A' with
    | compete => exact hs.elim
    | found a' e' p' =>
      obtain ⟨rfl, rfl, h3⟩ := hs
      exact ⟨rfl, rfl, h3⟩

theorem visits_changed (hc : 0 < c) {cs : List AgentCategory} {r : List ℕ} (h : r.length = cs.length) (hb : CancelOut r b) {bound bound' : ℚ} (hm : Mod cs r bound)
    (hm' : Mod (changed c b cs) r bound') {pad : ℕ → Bool} {z : Bool} (L : List ℕ) (hL : ∀ i ∈ L, i < cs.length ∧ 0 < rAt r i) {A A' : Abs} (hs : Same cs r c b A A')
    (hi : ∀ i < cs.length, 0 < rAt r i → A.cur i - 1 < (vAt cs i).length) :
    Same cs r c b (L.foldl (visit cs r pad z) A) (L.foldl (visit (changed c b cs) r pad z) A') := by
  induction L generalizing A A' with
  | nil => exact hs
  | cons i L ih =>
    simp only [List.foldl_cons]
    obtain ⟨h1, h2⟩ := hL i (by simp)
    refine ih (fun j hj => hL j (by simp [hj])) (visit_changed hc h hb hm hm' hs h1 h2 (hi i h1 h2)) ?_
    intro j hj hrj
    have := hi j hj hrj
    rw [visit_cur]
    by_cases hji : j = i
    · subst hji; rw [Function.update_self]; omega
    · rw [Function.update_of_ne hji]; exact this

theorem runs_changed (hc : 0 < c) {cs : List AgentCategory} {r : List ℕ} (h : r.length = cs.length) (hb : CancelOut r b) {bound bound' : ℚ} (hm : Mod cs r bound)
    (hm' : Mod (changed c b cs) r bound') {pad : ℕ → Bool} {z : Bool} (K : ℕ) {A A' : Abs} (hs : Same cs r c b A A')
    (hi : ∀ i < cs.length, 0 < rAt r i → A.cur i - 1 < (vAt cs i).length) :
    Same cs r c b (runs cs r pad z K A) (runs (changed c b cs) r pad z K A') := by
  induction K generalizing A A' with
  | zero => exact hs
  | succ K ih =>
    simp only [runs]
    refine ih (visits_changed hc h hb hm hm' _ ?_ hs hi) ?_
    · intro i hi
      obtain ⟨j, rfl, hj⟩ := mem_toCategory r 0 i hi
      rw [Nat.zero_add]
      exact ⟨by rw [← h]; exact rAt_pos_lt hj, hj⟩
    · intro i hil hri
      rw [foldl_cur]
      have := hi i hil hri
      omega

theorem trCats_changed (cs : List AgentCategory) (a e : ℕ → ℕ) : trCats (changed c b cs) a e = changed c b (trCats cs a e) := by
  apply List.ext_getElem
  · simp [trCats, changed]
  · intro i h1 h2; simp [trCats, changed]

end TradeReduction

/-- The number of deals depends only on the numbers of agents. -/
theorem init_changed {c : ℚ} {b : ℕ → ℚ} {cs : List AgentCategory} {r : List ℕ} {p : Option (List ℚ)} {t : TradeWithSinglePrice} (h : TradeWithSinglePrice.init cs r p = .ok t) (p' : Option (List ℚ)) :
    t.categories = cs ∧ t.prices = p ∧ TradeWithSinglePrice.init (changed c b cs) r p' = .ok ⟨changed c b cs, r, p', t.numOfDeals⟩ := by
  rcases trade_init_spec cs r p with ⟨-, h1⟩ | ⟨⟨i, hi, hri⟩, d, h1, h2, h3⟩
  · rw [h] at h1; cases h1
  · rw [h] at h1
    simp only [Except.ok.injEq] at h1
    subst h1
    refine ⟨rfl, rfl, ?_⟩
    rcases trade_init_spec (changed c b cs) r p' with ⟨g0, -⟩ | ⟨-, d', g1, g2, g3⟩
    · have := g0 i (by rw [changed_length]; exact hi)
      omega
    · simp only [changed_length, vAt_changed, List.length_map] at g2 g3
      rw [g1, show d' = d from le_antisymm (h3 _ g2) (g3 _ h2)]
      rfl

end Auctions
