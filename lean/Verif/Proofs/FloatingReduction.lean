import Verif.Proofs.FloatingOptimal
import Verif.Proofs.FloatingDecimals
import Verif.Proofs.FloatingProtocols
import Verif.Proofs.TradeReduction

set_option autoImplicit false

/-! # Helper lemmas: the trade-reduction protocol with rounding, as a walk over the agents of the deals -/

namespace Auctions.Floating

open Auctions Auctions.Spec Auctions.TradeReduction

/-- The values of category `l` in a list of (category, value). -/
def added (L : List (ℕ × ℚ)) (l : ℕ) : List ℚ := (L.filter (fun x => x.1 = l)).map Prod.snd

/-- The categories with these agents added. -/
def withAdded (cs : List AgentCategory) (L : List (ℕ × ℚ)) : List AgentCategory :=
  cs.mapIdx (fun l c => { c with values := sortDesc (c.values ++ added L l) })

theorem added_append (L L' : List (ℕ × ℚ)) (l : ℕ) : added (L ++ L') l = added L l ++ added L' l := by simp [added]

theorem mem_added {L : List (ℕ × ℚ)} {l : ℕ} {v : ℚ} : v ∈ added L l ↔ (l, v) ∈ L := by
  simp only [added, List.mem_map, List.mem_filter, decide_eq_true_eq]
  constructor
  · rintro ⟨⟨a, b⟩, ⟨h1, h2⟩, h3⟩
    dsimp only at h2 h3
    subst h2; subst h3; exact h1
  · intro h; exact ⟨(l, v), ⟨h, rfl⟩, rfl⟩

theorem withAdded_length (cs : List AgentCategory) (L : List (ℕ × ℚ)) : (withAdded cs L).length = cs.length := by simp [withAdded]

theorem withAdded_nil {cs : List AgentCategory} (h : ∀ c ∈ cs, SortedDesc c.values) : withAdded cs [] = cs := by
  apply List.ext_getElem
  · simp [withAdded]
  · intro l h1 h2
    simp [withAdded, added, sortDesc_of_sorted (h cs[l] (List.getElem_mem h2))]

theorem withAdded_get {cs : List AgentCategory} {L : List (ℕ × ℚ)} {i : ℕ} (hi : i < cs.length) :
    (withAdded cs L)[i]? = some { cs[i] with values := sortDesc (cs[i].values ++ added L i) } := by
  simp [withAdded, hi]

theorem withAdded_set {cs : List AgentCategory} {L : List (ℕ × ℚ)} {i : ℕ} (hi : i < cs.length) (v : ℚ) :
    (withAdded cs L).set i (AgentCategory.append { cs[i] with values := sortDesc (cs[i].values ++ added L i) } v) = withAdded cs (L ++ [(i, v)]) := by
  apply List.ext_getElem
  · simp [withAdded]
  · intro l h1 h2
    by_cases hl : l = i
    · subst hl
      simp only [List.getElem_set_self, AgentCategory.append, withAdded, List.getElem_mapIdx, added_append]
      congr 1
      refine eq_of_perm_of_sorted ?_ (sortDesc_sorted _) (sortDesc_sorted _)
      refine (sortDesc_perm _).trans (((sortDesc_perm _).append_right _).trans ?_)
      refine List.Perm.trans ?_ (sortDesc_perm _).symm
      simp [added]
    · rw [List.getElem_set_ne (Ne.symm hl)]
      simp only [withAdded, List.getElem_mapIdx, added_append]
      congr 3
      simp [added, Ne.symm hl]

theorem rem_append {cs : List AgentCategory} {L : List (ℕ × ℚ)} {i : ℕ} (hi : i < cs.length) (v : ℚ) :
    Market.appendTrader ⟨withAdded cs L⟩ i v = .ok ⟨withAdded cs (L ++ [(i, v)])⟩ := by
  unfold Market.appendTrader
  simp only [withAdded_get hi, withAdded_set hi]

theorem traders_append {es : List AgentCategory} {L : List (ℕ × ℚ)} {i : ℕ} (hi : i < es.length) {toC : List ℕ} {pivot : ℕ} (hto : toC[pivot]? = some i) (v : ℚ) :
    appendTrader (withAdded es L) toC pivot v = .ok (withAdded es (L ++ [(i, v)])) := by
  unfold appendTrader
  rw [pyGet_ok hto]
  simp only [bind, Except.bind]
  rw [pyGet_ok (withAdded_get hi)]
  simp only [withAdded_set hi]

/-- The best deal that contains the agent with value `v` of category `i`. -/
def bestAt (cs : List AgentCategory) (i : ℕ) (v : ℚ) : List ℚ := cs.mapIdx (fun l c => if l = i then v else c.values.headD 0)

theorem bestAt_length (cs : List AgentCategory) (i : ℕ) (v : ℚ) : (bestAt cs i v).length = cs.length := by simp [bestAt]

theorem best_ok {cs : List AgentCategory} (hne : ∀ c ∈ cs, c.values ≠ []) (i : ℕ) (v : ℚ) : Market.bestContainingPS ⟨cs⟩ i v = .ok (bestAt cs i v) := by
  rcases bestLoop i v cs 0 with ⟨ps, h1, h2, h3⟩ | ⟨-, j, cat, h2, h3, h4⟩
  · rw [Market.bestContainingPS, h1, Except.ok.injEq]
    apply List.ext_getElem
    · simp [bestAt, h2]
    · intro l hl1 hl2
      have hl : l < cs.length := by omega
      simp only [bestAt, List.getElem_mapIdx]
      rcases h3 l ps[l] (List.getElem?_eq_getElem hl1) with ⟨ha, hb⟩ | ⟨ha, cat, hc, hh⟩
      · rw [hb, if_pos (by omega)]
      · rw [if_neg (by omega)]
        rw [List.getElem?_eq_getElem hl, Option.some.injEq] at hc
        subst hc
        rw [List.headD_eq_head?_getD, hh]; rfl
  · exact absurd h4 (hne cat (List.mem_of_getElem? h2))

/-- The prices that this deal leads to. -/
def priceVec (fl : ℚ → ℚ) (r : List ℕ) (best : List ℚ) (i : ℕ) (v : ℚ) : List ℚ :=
  best.set i (fl (fl (fl (v * rAt r i) - flDot fl best r) / rAt r i))

theorem weightedSum_ok (fl : ℚ → ℚ) {x : List ℚ} {r : List ℕ} (h : x.length ≤ r.length) : weightedSum fl x r = .ok (flDot fl x r) := by
  unfold weightedSum
  rw [products_eq, if_pos h]
  rfl

theorem prices_ok (fl : ℚ → ℚ) {best : List ℚ} {r : List ℕ} (h : best.length = r.length) {i : ℕ} (hi : 0 < rAt r i) (v : ℚ) :
    ∀ (n s : ℕ), s + n = best.length → pricesLoop fl i v best r s n = .ok ((priceVec fl r best i v).drop s) := by
  have hir : i < r.length := rAt_pos_lt hi
  intro n
  induction n with
  | zero =>
    intro s hs
    rw [List.drop_of_length_le (by simp [priceVec]; omega)]
    rfl
  | succ n ih =>
    intro s hs
    have hsl : s < (priceVec fl r best i v).length := by simp only [priceVec, List.length_set]; omega
    have h1 := ih (s + 1) (by omega)
    rw [List.drop_eq_getElem_cons hsl]
    unfold pricesLoop
    by_cases hsi : s = i
    · subst hsi
      rw [if_pos rfl, pyGet_ok (show r[s]? = some (rAt r s) by rw [rAt_eq_getElem hir]; exact List.getElem?_eq_getElem _), weightedSum_ok fl (le_of_eq h), h1]
      have h0 : (rAt r s : ℚ) ≠ 0 := by exact_mod_cast hi.ne'
      simp only [bind, Except.bind, flDiv, if_neg h0]
      simp [priceVec]
    · rw [if_neg hsi, pyGet_ok (List.getElem?_eq_getElem (show s < best.length by omega)), h1]
      simp only [bind, Except.bind]
      congr 2
      simp [priceVec, Ne.symm hsi]

/-- The states of the walk. -/
inductive Walk
  | searching (L : List (ℕ × ℚ))
  | priced (L T : List (ℕ × ℚ)) (p : List ℚ)

/-- One agent. -/
def step (fl : ℚ → ℚ) (base : List AgentCategory) (r : List ℕ) (z : Bool) : Walk → ℕ × ℚ → Walk
  | .searching L, x =>
    if Pass z (flDot fl (bestAt (withAdded base L) x.1 x.2) r) then .priced L [x] (priceVec fl r (bestAt (withAdded base L) x.1 x.2) x.1 x.2)
    else .searching (L ++ [x])
  | .priced L T p, x => .priced L (T ++ [x]) p

/-- The program's variables. -/
def state (base es : List AgentCategory) : Walk → State
  | .searching L => ⟨⟨withAdded base L⟩, withAdded es [], none, false⟩
  | .priced L T p => ⟨⟨withAdded base L⟩, withAdded es T, some p, true⟩

theorem withAdded_ne {cs : List AgentCategory} (h : ∀ c ∈ cs, c.values ≠ []) (L : List (ℕ × ℚ)) : ∀ c ∈ withAdded cs L, c.values ≠ [] := by
  intro c hc h0
  simp only [withAdded, List.mem_mapIdx] at hc
  obtain ⟨i, hi, rfl⟩ := hc
  have := congrArg List.length h0
  simp only [sortDesc_length, List.length_append, List.length_nil] at this
  exact h cs[i] (List.getElem_mem _) (List.length_eq_zero_iff.1 (by omega))

section
variable {fl : ℚ → ℚ} {m : Market} {base es : List AgentCategory} {r : List ℕ} {z : Bool} (hb : base.length = m.numCategories) (he : es.length = m.numCategories)
  (hr : r.length = m.numCategories) (hne : ∀ c ∈ base, c.values ≠ [])
include hb he hr hne

theorem compete_ok {A : Walk} {i t : ℕ} (ht : t < rAt r i) {ps : List ℚ} {v : ℚ} (hv : ps[start r i + t]? = some v) :
    competeStep fl m r (pivotIndexToCategoryIndex 0 r) z ps (state base es A) (start r i + t) = .ok (state base es (step fl base r z A (i, v))) := by
  have hi : i < m.numCategories := by have := rAt_pos_lt (show 0 < rAt r i by omega); omega
  have hto : (pivotIndexToCategoryIndex 0 r)[start r i + t]? = some i := by simpa using toCategory_get r 0 i t ht
  have hconv : convertCategoryIndex r (start r i + t) = i := by
    have := convert_get r 0 i t ht
    rw [Nat.zero_add] at this
    exact this
  unfold competeStep
  rw [pyGet_ok hv]
  cases A with
  | priced L T p =>
    simp only [bind, Except.bind, state, if_true, step]
    rw [traders_append (by omega) hto]
  | searching L =>
    simp only [bind, Except.bind, state, Bool.false_eq_true, if_false, step, hconv]
    rw [pyGet_ok (List.getElem?_eq_getElem (show i < m.categories.length from hi)), best_ok (withAdded_ne hne L)]
    have hl : (bestAt (withAdded base L) i v).length = r.length := by rw [bestAt_length, withAdded_length]; omega
    simp only
    rw [weightedSum_ok fl (le_of_eq hl)]
    simp only
    by_cases hp : Pass z (flDot fl (bestAt (withAdded base L) i v) r)
    · have hp' : (flDot fl (bestAt (withAdded base L) i v) r > 0 ∨ z = true ∧ flDot fl (bestAt (withAdded base L) i v) r = 0) := hp
      rw [if_pos hp', if_pos hp, prices_ok fl hl (by omega) v m.numCategories 0 (by omega), traders_append (by omega) hto]
      simp
    · have hp' : ¬ (flDot fl (bestAt (withAdded base L) i v) r > 0 ∨ z = true ∧ flDot fl (bestAt (withAdded base L) i v) r = 0) := hp
      rw [if_neg hp', if_neg hp, rem_append (by omega)]

omit hb hr hne in
theorem trade_ok {L T : List (ℕ × ℚ)} {p : List ℚ} (hr : r.length = m.numCategories) {i t : ℕ} (ht : t < rAt r i) {ps : List ℚ} {v : ℚ} (hv : ps[start r i + t]? = some v) :
    tradeStep (pivotIndexToCategoryIndex 0 r) ps (state base es (.priced L T p)) (start r i + t) = .ok (state base es (.priced L (T ++ [(i, v)]) p)) := by
  have hi : i < m.numCategories := by have := rAt_pos_lt (show 0 < rAt r i by omega); omega
  have hto : (pivotIndexToCategoryIndex 0 r)[start r i + t]? = some i := by simpa using toCategory_get r 0 i t ht
  unfold tradeStep
  rw [pyGet_ok hv]
  simp only [bind, Except.bind, state]
  rw [traders_append (by omega) hto]

/-- Positions in a deal, in the order in which they are visited. -/
def spots (r : List ℕ) : List (ℕ × ℕ) := (List.range r.length).flatMap (fun i => (List.range (rAt r i)).reverse.map (fun t => (i, t)))

omit hb he hr hne in
theorem pivots_eq (r : List ℕ) (total : ℕ) : pivotIndexes total r = (spots r).map (fun x => total + (start r x.1 + x.2)) := by
  induction r generalizing total with
  | nil => rfl
  | cons a r ih =>
    rw [pivotIndexes, ih]
    unfold spots
    rw [List.length_cons, List.range_succ_eq_map, List.flatMap_cons, List.map_append, List.flatMap_map]
    congr 1
    · simp [start]
    · simp only [List.map_flatMap, List.map_map]
      congr 1
      funext i
      rw [show rAt (a :: r) (i + 1) = rAt r i by simp]
      refine List.map_congr_left fun t _ => ?_
      simp only [Function.comp_apply, start_cons_succ]
      omega

omit hb he hr hne in
theorem mem_spots {r : List ℕ} {x : ℕ × ℕ} : x ∈ spots r ↔ x.2 < rAt r x.1 := by
  simp only [spots, List.mem_flatMap, List.mem_range, List.mem_map, List.mem_reverse]
  constructor
  · rintro ⟨i, -, t, ht, rfl⟩; exact ht
  · intro h
    exact ⟨x.1, rAt_pos_lt (by omega), x.2, h, rfl⟩

/-- The agents of the deal with rank `j`, in the order in which they are visited. -/
def visits (cs : List AgentCategory) (r : List ℕ) (j : ℕ) : List (ℕ × ℚ) := (spots r).map (fun x => (x.1, (vAt cs x.1).getD (j * rAt r x.1 + x.2) 0))

theorem deal_ok {cs : List AgentCategory} (hcs : cs.length = m.numCategories) {j : ℕ} (hav : Avail cs r j) (A : Walk) :
    psStep fl m r (pivotIndexes 0 r) (pivotIndexToCategoryIndex 0 r) z (state base es A) (blk cs r j) = .ok (state base es ((visits cs r j).foldl (step fl base r z) A)) := by
  have hval : ∀ x ∈ spots r, (blk cs r j)[start r x.1 + x.2]? = some ((vAt cs x.1).getD (j * rAt r x.1 + x.2) 0) := by
    intro x hx
    have ht := mem_spots.1 hx
    have hi : x.1 < cs.length := by have := rAt_pos_lt (show 0 < rAt r x.1 by omega); omega
    have hl := hav x.1 hi
    rw [Nat.add_mul, Nat.one_mul] at hl
    rw [blk_get (by omega) hav x.1 x.2 ht, List.getD_eq_getElem?_getD, List.getElem?_eq_getElem (by omega)]
    rfl
  unfold visits
  rw [pivots_eq]
  simp only [Nat.zero_add]
  have hall : ∀ x ∈ spots r, x.2 < rAt r x.1 := fun x hx => mem_spots.1 hx
  generalize spots r = S at *
  cases A with
  | searching L =>
    show (S.map _).foldlM (competeStep fl m r (pivotIndexToCategoryIndex 0 r) z (blk cs r j)) (state base es (.searching L)) = _
    generalize Walk.searching L = A
    induction S generalizing A with
    | nil => rfl
    | cons x S ih =>
      rw [List.map_cons, List.foldlM_cons, compete_ok hb he hr hne (hall x (by simp)) (hval x (by simp))]
      exact ih (fun y hy => hval y (by simp [hy])) (fun y hy => hall y (by simp [hy])) _
  | priced L T p =>
    show (S.map _).foldlM (tradeStep (pivotIndexToCategoryIndex 0 r) (blk cs r j)) (state base es (.priced L T p)) = _
    induction S generalizing T with
    | nil => rfl
    | cons x S ih =>
      rw [List.map_cons, List.foldlM_cons, trade_ok he hr (hall x (by simp)) (hval x (by simp))]
      exact ih (fun y hy => hval y (by simp [hy])) (fun y hy => hall y (by simp [hy])) _

theorem deals_ok {cs : List AgentCategory} (hcs : cs.length = m.numCategories) (ranks : List ℕ) (hav : ∀ j ∈ ranks, Avail cs r j) (A : Walk) :
    (ranks.map (blk cs r)).foldlM (psStep fl m r (pivotIndexes 0 r) (pivotIndexToCategoryIndex 0 r) z) (state base es A)
      = .ok (state base es ((ranks.flatMap (visits cs r)).foldl (step fl base r z) A)) := by
  induction ranks generalizing A with
  | nil => rfl
  | cons j ranks ih =>
    rw [List.map_cons, List.foldlM_cons, deal_ok hb he hr hne hcs (hav j (by simp)), List.flatMap_cons, List.foldl_append]
    exact ih (fun i hi => hav i (by simp [hi])) _

end

/-- An agent that the walk has rejected, after those of `L`. -/
def Rejected (fl : ℚ → ℚ) (base : List AgentCategory) (r : List ℕ) (z : Bool) (V : List (ℕ × ℚ)) : Prop :=
  ∀ pre x post, V = pre ++ x :: post → ¬ Pass z (flDot fl (bestAt (withAdded base pre) x.1 x.2) r)

theorem foldl_priced (fl : ℚ → ℚ) (base : List AgentCategory) (r : List ℕ) (z : Bool) (V : List (ℕ × ℚ)) (L T : List (ℕ × ℚ)) (p : List ℚ) :
    V.foldl (step fl base r z) (.priced L T p) = .priced L (T ++ V) p := by
  induction V generalizing T with
  | nil => simp
  | cons x V ih => rw [List.foldl_cons, step, ih]; simp

theorem walk_end (fl : ℚ → ℚ) (base : List AgentCategory) (r : List ℕ) (z : Bool) (V L : List (ℕ × ℚ)) (hL : Rejected fl base r z L) :
    (Rejected fl base r z (L ++ V) ∧ V.foldl (step fl base r z) (.searching L) = .searching (L ++ V)) ∨
      ∃ pre x post, L ++ V = pre ++ x :: post ∧ Rejected fl base r z pre ∧ Pass z (flDot fl (bestAt (withAdded base pre) x.1 x.2) r) ∧
        V.foldl (step fl base r z) (.searching L) = .priced pre (x :: post) (priceVec fl r (bestAt (withAdded base pre) x.1 x.2) x.1 x.2) := by
  induction V generalizing L with
  | nil => left; simpa using hL
  | cons x V ih =>
    rw [List.foldl_cons, step]
    split
    · rename_i hp
      right
      exact ⟨L, x, V, rfl, hL, hp, by rw [foldl_priced]; rfl⟩
    · rename_i hp
      have hL' : Rejected fl base r z (L ++ [x]) := by
        intro pre y post h
        rcases List.eq_nil_or_concat post with rfl | ⟨post', w, rfl⟩
        · have h1 := List.append_inj' h rfl
          rw [← h1.1]
          simp only [List.cons.injEq, and_true] at h1
          rw [← h1.2]
          exact hp
        · have h1 : L ++ [x] = (pre ++ y :: post') ++ [w] := by rw [h]; simp
          have h2 := (List.append_inj' h1 rfl).1
          exact hL pre y post' h2
      have := ih (L ++ [x]) hL'
      simpa using this

/-! ### The whole protocol -/

/-- The agents that are in none of the first `K` deals, with the dummy agents. -/
def rest (m : Market) (r : List ℕ) (K : ℕ) : List AgentCategory := (McAfee.padEmpty ⟨dropBlocks m.sorted r K⟩).categories

theorem empty_values (m : Market) : ∀ c ∈ m.emptyAgentCategories, c.values = [] := by
  intro c hc
  simp only [Market.emptyAgentCategories, List.mem_map] at hc
  obtain ⟨c', -, rfl⟩ := hc
  simp [AgentCategory.init, sortDesc]

theorem rest_eq {m : Market} {r : List ℕ} (h : r.length = m.numCategories) (K : ℕ) :
    rest m r K = remCats m.sorted (padOf m.sorted r K) (fun l => K * rAt r l) := pad_dropBlocks (by rw [m.sorted_length]; exact h) K

theorem rest_length {m : Market} {r : List ℕ} (h : r.length = m.numCategories) (K : ℕ) : (rest m r K).length = m.numCategories := by
  rw [rest_eq h, remCats_length, m.sorted_length]

/-- The agents of a category that are in none of the first `K` deals; a dummy if there are none. -/
theorem rest_spec {m : Market} {r : List ℕ} (h : r.length = m.numCategories) (K : ℕ) {c : AgentCategory} {l : ℕ} (hc : (rest m r K)[l]? = some c) :
    SortedDesc c.values ∧ c.values ≠ [] ∧ ∀ v ∈ c.values, v = -MAX_VALUE ∨ v ∈ (vAt m.sorted l).drop (K * rAt r l) := by
  rw [rest_eq h] at hc
  have hl : l < m.sorted.length := by
    have := (List.getElem?_eq_some_iff.1 hc).1
    rwa [remCats_length] at this
  simp only [remCats, List.getElem?_mapIdx, List.getElem?_eq_getElem hl, Option.map_some, Option.some.injEq] at hc
  subst hc
  have hs := m.sorted_sorted m.sorted[l] (List.getElem_mem hl)
  rw [vAt_eq_getElem hl]
  dsimp only
  split
  · refine ⟨sortDesc_sorted _, ?_, fun v hv => ?_⟩
    · intro h0
      have := congrArg List.length h0
      simp at this
    · rw [mem_sortDesc, List.mem_cons] at hv
      exact hv
  · rename_i hp
    have hlt : K * rAt r l < (m.sorted[l]).values.length := by
      have : ¬ ((vAt m.sorted l).length ≤ K * rAt r l) := by simpa [padOf] using hp
      rw [vAt_eq_getElem hl] at this
      omega
    refine ⟨hs.drop _, ?_, fun v hv => Or.inr hv⟩
    rw [List.drop_eq_getElem_cons hlt]
    simp [hlt]

theorem rest_ne {m : Market} {r : List ℕ} (h : r.length = m.numCategories) (K : ℕ) : ∀ c ∈ rest m r K, c.values ≠ [] := by
  intro c hc
  obtain ⟨l, hl, rfl⟩ := List.getElem_of_mem hc
  exact (rest_spec h K (List.getElem?_eq_getElem hl)).2.1

theorem flReduction_eq (fl : ℚ → ℚ) {m : Market} {r : List ℕ} (h : r.length = m.numCategories) (hcat : m.categories ≠ []) (hpos : ∃ x ∈ r, 0 < x) (z : Bool) :
    ∃ k idx, FlStop fl m r 2000000 true k ∧ idx.Perm (List.range k) ∧ optimalTrade fl m r = .ok (⟨idx.map (blk m.sorted r)⟩, ⟨dropBlocks m.sorted r k⟩) ∧
      ((k = 0 ∧ tradeReduction fl m r z = initTrade fl m.emptyAgentCategories r (some (List.replicate r.length 0))) ∨
        ∃ K ranks, (ranks = idx ∧ K = k ∨ ranks = k :: idx ∧ K = k + 1) ∧ (∀ j ∈ ranks, Avail m.sorted r j) ∧
          let s := state (rest m r K) m.emptyAgentCategories ((ranks.flatMap (visits m.sorted r)).foldl (step fl (rest m r K) r z) (.searching []))
          tradeReduction fl m r z = initTrade fl s.actualTraders r s.latestPrices) := by
  have h' : r.length = m.sorted.length := by rw [m.sorted_length]; exact h
  obtain ⟨⟨⟨o⟩, rem⟩, he⟩ := optimalTrade_ok fl h hcat 2000000 true
  obtain ⟨k, idx, hk, hperm, ho, rfl⟩ := flOptimal_eq he
  dsimp only at ho
  subst ho
  refine ⟨k, idx, hk, hperm, he, ?_⟩
  have hil : idx.length = k := by rw [hperm.length_eq, List.length_range]
  have hidx : ∀ j ∈ idx, Avail m.sorted r j := fun j hj => (hk.taken j (List.mem_range.1 (hperm.mem_iff.1 hj))).1
  have hend : ∀ (K : ℕ) (ranks : List ℕ), (∀ j ∈ ranks, Avail m.sorted r j) →
      (ranks.map (blk m.sorted r)).foldlM (psStep fl m r (pivotIndexes 0 r) (pivotIndexToCategoryIndex 0 r) z)
        ⟨McAfee.padEmpty ⟨dropBlocks m.sorted r K⟩, m.emptyAgentCategories, none, false⟩
        = .ok (state (rest m r K) m.emptyAgentCategories ((ranks.flatMap (visits m.sorted r)).foldl (step fl (rest m r K) r z) (.searching []))) := by
    intro K ranks hav
    have hes : m.emptyAgentCategories.length = m.numCategories := by simp [Market.emptyAgentCategories, Market.numCategories]
    have := deals_ok (fl := fl) (z := z) (rest_length h K) hes h (rest_ne h K) m.sorted_length ranks hav (.searching [])
    rw [← this]
    congr 1
    simp only [state]
    rw [withAdded_nil, withAdded_nil]
    · rfl
    · intro c hc
      rw [empty_values m c hc]
      exact List.Pairwise.nil
    · intro c hc
      obtain ⟨l, hl, rfl⟩ := List.getElem_of_mem hc
      exact (rest_spec h K (List.getElem?_eq_getElem hl)).1
  rcases Nat.eq_zero_or_pos k with hk0 | hk0
  · left
    refine ⟨hk0, ?_⟩
    have : idx = [] := List.length_eq_zero_iff.1 (by omega)
    subst this
    unfold tradeReduction
    simp only [h, ne_eq, not_true_eq_false, if_false, he, bind, Except.bind, List.map_nil, List.length_nil, if_true]
  · right
    have hne : ¬ ((idx.map (blk m.sorted r)).length = 0) := by simp; intro h0; simp [h0] at hil; omega
    have hkr : ∀ i < m.sorted.length, k * rAt r i ≤ (vAt m.sorted i).length := by
      intro i hi
      have := (hk.taken (k - 1) (by omega)).1 i hi
      rwa [show k - 1 + 1 = k by omega] at this
    have hlen : r.length = (dropBlocks m.sorted r k).length := by rw [dropBlocks_length h']; exact h'
    rcases getHighestAgentsLoop_eq hlen with ⟨hav, hg⟩ | ⟨hav, hg⟩
    · have hav' := (avail_dropBlocks h' k hkr).1 hav
      rw [blk_dropBlocks h', Nat.add_zero] at hg
      have hrem := removeHighestAgentsLoop_eq hlen hav
      rw [dropBlocks_dropBlocks h'] at hrem
      have hav2 : ∀ j ∈ k :: idx, Avail m.sorted r j := by
        intro j hj
        rcases List.mem_cons.1 hj with rfl | hj
        · exact hav'
        · exact hidx j hj
      refine ⟨k + 1, k :: idx, Or.inr ⟨rfl, rfl⟩, hav2, ?_⟩
      have hbne : blk m.sorted r k ≠ [] := by
        intro hnil
        obtain ⟨x, hx, hx0⟩ := hpos
        have h1 := TradeReduction.blk_length h' hav'
        rw [hnil, List.length_nil] at h1
        have h2 : x ≤ r.sum := List.single_le_sum (by simp) _ hx
        omega
      obtain ⟨y, ys, hys⟩ := List.exists_cons_of_ne_nil hbne
      have hfin := hend (k + 1) (k :: idx) hav2
      rw [List.map_cons, hys] at hfin
      unfold tradeReduction
      simp only [h, ne_eq, not_true_eq_false, if_false, he, bind, Except.bind, hne, Market.getHighestAgents, hg, hys, Market.removeHighestAgents, hrem]
      rw [hfin]
    · refine ⟨k, idx, Or.inl ⟨rfl, rfl⟩, hidx, ?_⟩
      have hfin := hend k idx hidx
      unfold tradeReduction
      simp only [h, ne_eq, not_true_eq_false, if_false, he, bind, Except.bind, hne, Market.getHighestAgents, hg]
      rw [hfin]

end Auctions.Floating
