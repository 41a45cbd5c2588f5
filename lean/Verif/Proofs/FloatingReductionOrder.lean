import Verif.Proofs.FloatingReduction
import Verif.Props.FloatingOptimal

set_option autoImplicit false

/-! # Helper lemmas: the trade-reduction protocol with rounding: the order of the agents -/

namespace Auctions.Floating

open Auctions Auctions.Spec Auctions.TradeReduction

theorem flatMap_single {α : Type} {n l : ℕ} (hl : l < n) (X : ℕ → List α) : (List.range n).flatMap (fun i => if i = l then X i else []) = X l := by
  induction n with
  | zero => omega
  | succ n ih =>
    rw [List.range_succ, List.flatMap_append]
    rcases Nat.lt_or_eq_of_le (Nat.lt_succ_iff.1 hl) with h | h
    · rw [ih h]
      simp [show n ≠ l by omega]
    · subst h
      have : (List.range l).flatMap (fun i => if i = l then X i else []) = [] := by
        rw [List.flatMap_eq_nil_iff]
        intro i hi
        rw [if_neg (by have := List.mem_range.1 hi; omega)]
      rw [this]
      simp

theorem added_flatMap {α : Type} (f : α → List (ℕ × ℚ)) (L : List α) (l : ℕ) : added (L.flatMap f) l = L.flatMap (fun a => added (f a) l) := by
  induction L with
  | nil => rfl
  | cons a L ih => rw [List.flatMap_cons, List.flatMap_cons, added_append, ih]

/-- The agents of a category of a deal are visited from the lowest to the highest. -/
theorem added_visits {cs : List AgentCategory} {r : List ℕ} (h : r.length = cs.length) {j : ℕ} (hav : Avail cs r j) {l : ℕ} (hl : l < cs.length) :
    added (visits cs r j) l = (seg (vAt cs l) (rAt r l) j).reverse := by
  have h1 : added (visits cs r j) l = (List.range r.length).flatMap (fun i => if i = l then (List.range (rAt r i)).reverse.map (fun t => (vAt cs i).getD (j * rAt r i + t) 0) else []) := by
    unfold visits spots
    rw [List.map_flatMap, added_flatMap]
    congr 1
    funext i
    rw [List.map_map]
    split
    · rename_i hi
      subst hi
      unfold added
      rw [List.filter_eq_self.2, List.map_map]
      · rfl
      · intro x hx
        obtain ⟨t, -, rfl⟩ := List.mem_map.1 hx
        simp
    · rename_i hi
      unfold added
      rw [List.filter_eq_nil_iff.2]
      · rfl
      · intro x hx
        obtain ⟨t, -, rfl⟩ := List.mem_map.1 hx
        simpa using hi
  rw [h1, flatMap_single (by omega), List.map_reverse]
  congr 1
  have hlen := seg_length (hav l hl)
  have hb := hav l hl
  rw [Nat.add_mul, Nat.one_mul] at hb
  apply List.ext_getElem
  · simp [hlen]
  · intro t h2 h3
    simp only [List.length_map, List.length_range] at h2
    rw [seg_getElem h3]
    simp only [List.getElem_map, List.getElem_range]
    rw [List.getD_eq_getElem?_getD, List.getElem?_eq_getElem (by omega)]
    rfl

theorem visits_lt {cs : List AgentCategory} {r : List ℕ} (h : r.length = cs.length) {j : ℕ} {x : ℕ × ℚ} (hx : x ∈ visits cs r j) : x.1 < cs.length ∧ 0 < rAt r x.1 := by
  obtain ⟨y, hy, rfl⟩ := List.mem_map.1 hx
  have h1 := mem_spots.1 hy
  have h2 := rAt_pos_lt (show 0 < rAt r y.1 by omega)
  dsimp only
  exact ⟨by omega, by omega⟩

/-- Two lists of the same length, one above the other: the differences are bounded by the difference of the sums. -/
theorem sum_above {p q : List ℚ} (hl : p.length = q.length) (h : ∀ x ∈ p, ∀ y ∈ q, y ≤ x) : q.sum ≤ p.sum := by
  induction p generalizing q with
  | nil => simp only [List.length_nil] at hl; rw [List.length_eq_zero_iff.1 hl.symm]
  | cons x p ih =>
    cases q with
    | nil => simp at hl
    | cons y q =>
      rw [List.sum_cons, List.sum_cons]
      exact add_le_add (h x (by simp) y (by simp)) (ih (by simpa using hl) (fun a ha b hb => h a (by simp [ha]) b (by simp [hb])))

theorem difference_above {p q : List ℚ} (hl : p.length = q.length) (h : ∀ x ∈ p, ∀ y ∈ q, y ≤ x) {x y : ℚ} (hx : x ∈ p) (hy : y ∈ q) : x - y ≤ p.sum - q.sum := by
  have hp := List.perm_cons_erase hx
  have hq := List.perm_cons_erase hy
  have h1 := hp.length_eq
  have h2 := hq.length_eq
  simp only [List.length_cons] at h1 h2
  have h3 := sum_above (p := p.erase x) (q := q.erase y) (by omega) (fun a ha b hb => h a (List.mem_of_mem_erase ha) b (List.mem_of_mem_erase hb))
  rw [hp.sum_eq, hq.sum_eq, List.sum_cons, List.sum_cons]
  linarith

theorem seg_above {V : List ℚ} (hV : SortedDesc V) {a b R : ℕ} (hab : a < b) (hb : (b + 1) * R ≤ V.length) {x y : ℚ} (hx : x ∈ seg V R a) (hy : y ∈ seg V R b) : y ≤ x := by
  obtain ⟨t, ht, rfl⟩ := List.getElem_of_mem hx
  obtain ⟨t', ht', rfl⟩ := List.getElem_of_mem hy
  rw [seg_getElem ht, seg_getElem ht']
  have h2 : (a + 1) * R ≤ b * R := Nat.mul_le_mul_right R hab
  have h3 : (a + 1) * R ≤ V.length := h2.trans ((Nat.mul_le_mul_right R (by omega)).trans hb)
  rw [seg_length h3] at ht
  rw [Nat.add_mul, Nat.one_mul] at h2
  exact hV.getElem_ge (by omega) _

/-- The order in which the deals are tried. -/
def Order (fl : ℚ → ℚ) (cs : List AgentCategory) (r : List ℕ) (a b : ℕ) : Prop := b < a ∨ (a < b ∧ flSum fl (blk cs r a) ≤ flSum fl (blk cs r b))

theorem order_idx {fl : ℚ → ℚ} {m : Market} {r : List ℕ} {N : ℕ} {z : Bool} {idx : List ℕ} {rem : Market} (h : optimalTrade fl m r N z = .ok (⟨idx.map (blk m.sorted r)⟩, rem))
    (hn : idx.Nodup) : idx.Pairwise (Order fl m.sorted r) := by
  have h1 := (Props.float_optimal_sorted h).2
  rw [List.pairwise_map] at h1
  refine (h1.and hn).imp fun {a b} h2 => ?_
  rcases Nat.lt_or_ge b a with h3 | h3
  · exact Or.inl h3
  · exact Or.inr ⟨lt_of_le_of_ne h3 h2.2, h2.1⟩

/-- The agents of a category of a deal are visited from the lowest to the highest. -/
theorem visits_inner {m : Market} {r : List ℕ} (hl : r.length = m.numCategories) {j : ℕ} (hav : Avail m.sorted r j) :
    (visits m.sorted r j).Pairwise (fun x y : ℕ × ℚ => x.1 = y.1 → x.2 ≤ y.2) := by
  have hl' : r.length = m.sorted.length := by rw [m.sorted_length]; exact hl
  unfold visits
  rw [List.pairwise_map]
  have h1 : (spots r).Pairwise (fun x y : ℕ × ℕ => x.1 = y.1 → y.2 < x.2) := by
    unfold spots
    rw [List.pairwise_flatMap]
    constructor
    · intro i _
      rw [List.pairwise_map, List.pairwise_reverse]
      refine (List.pairwise_lt_range (n := rAt r i)).imp ?_
      intro a b h _
      exact h
    · refine (List.pairwise_lt_range).imp fun {a b} hab x hx y hy hxy => ?_
      obtain ⟨t, -, rfl⟩ := List.mem_map.1 hx
      obtain ⟨t', -, rfl⟩ := List.mem_map.1 hy
      dsimp only at hxy
      omega
  refine h1.imp_of_mem fun {x y} hx hy hxy e => ?_
  have h2 := hxy e
  have hx' := mem_spots.1 hx
  have hy' := mem_spots.1 hy
  dsimp only at e ⊢
  rw [← e]
  have hi : x.1 < m.sorted.length := by have := rAt_pos_lt (show 0 < rAt r x.1 by omega); omega
  have h3 := hav x.1 hi
  rw [Nat.add_mul, Nat.one_mul] at h3
  have h4 := (Ascending.sorted_vAt m x.1).getElem_ge (i := j * rAt r x.1 + y.2) (j := j * rAt r x.1 + x.2) (by omega) (by omega)
  simp only [List.getD_eq_getElem?_getD, List.getElem?_eq_getElem (show j * rAt r x.1 + x.2 < (vAt m.sorted x.1).length by omega),
    List.getElem?_eq_getElem (show j * rAt r x.1 + y.2 < (vAt m.sorted x.1).length by omega), Option.getD_some]
  exact h4

section
variable {fl : ℚ → ℚ} (hf : Rounding fl) {m : Market} {r : List ℕ} {M k : ℕ} (h : FloatReports m r M k) (hR : r.sum ≤ 2 ^ k) (hl : r.length = m.numCategories)
include hf h hR hl

/-- An agent of an earlier deal is not much better than one of the same category of a later deal. -/
theorem order_values {a b : ℕ} (ha : Avail m.sorted r a) (hb : Avail m.sorted r b) (hab : Order fl m.sorted r a b) {l : ℕ} (hll : l < m.sorted.length) {x y : ℚ}
    (hx : x ∈ seg (vAt m.sorted l) (rAt r l) a) (hy : y ∈ seg (vAt m.sorted l) (rAt r l) b) : x ≤ y + 2 * (r.sum / 2 ^ k) := by
  have hδ : (0 : ℚ) ≤ 2 * (r.sum / 2 ^ k) := by positivity
  have hs := Ascending.sorted_vAt m l
  rcases hab with hab | ⟨hab, hsum⟩
  · have := seg_above hs hab (ha l hll) hy hx
    linarith
  · have hl' : r.length = m.sorted.length := by rw [m.sorted_length]; exact hl
    obtain ⟨h2, -⟩ := flSum_blk hf h hR hl ha
    obtain ⟨h3, -⟩ := flSum_blk hf h hR hl hb
    have h4 := (abs_le.1 h2).1
    have h5 := (abs_le.1 h3).2
    have h6 : (blk m.sorted r a).sum - (blk m.sorted r b).sum ≤ 2 * (r.sum / 2 ^ k) := by linarith
    rw [blk_sum hl', blk_sum hl', ← Finset.sum_sub_distrib] at h6
    have hup : ∀ i < m.sorted.length, ∀ x ∈ seg (vAt m.sorted i) (rAt r i) a, ∀ y ∈ seg (vAt m.sorted i) (rAt r i) b, y ≤ x :=
      fun i hi x hx y hy => seg_above (Ascending.sorted_vAt m i) hab (hb i hi) hx hy
    have hlen : ∀ i < m.sorted.length, (seg (vAt m.sorted i) (rAt r i) a).length = (seg (vAt m.sorted i) (rAt r i) b).length :=
      fun i hi => by rw [seg_length (ha i hi), seg_length (hb i hi)]
    have h7 := Finset.single_le_sum (s := Finset.range m.sorted.length) (f := fun i => (seg (vAt m.sorted i) (rAt r i) a).sum - (seg (vAt m.sorted i) (rAt r i) b).sum)
      (fun i hi => sub_nonneg.2 (sum_above (hlen i (Finset.mem_range.1 hi)) (hup i (Finset.mem_range.1 hi)))) (Finset.mem_range.2 hll)
    have h8 := difference_above (hlen l hll) (hup l hll) hx hy
    linarith

/-- The order of the visits. -/
theorem visits_order {ranks : List ℕ} (hav : ∀ j ∈ ranks, Avail m.sorted r j) (hord : ranks.Pairwise (Order fl m.sorted r)) :
    (ranks.flatMap (visits m.sorted r)).Pairwise (fun x y : ℕ × ℚ => x.1 = y.1 → x.2 ≤ y.2 + 2 * ((r.sum : ℚ) / 2 ^ k)) := by
  have hl' : r.length = m.sorted.length := by rw [m.sorted_length]; exact hl
  have hδ : (0 : ℚ) ≤ 2 * (r.sum / 2 ^ k) := by positivity
  rw [List.pairwise_flatMap]
  constructor
  · intro j hj
    refine (visits_inner hl (hav j hj)).imp fun {x y} hxy e => ?_
    have := hxy e
    linarith
  · refine hord.imp_of_mem fun {a b} ha hb hab x hx y hy e => ?_
    have hll := (visits_lt hl' hx).1
    have h1 : x.2 ∈ added (visits m.sorted r a) x.1 := mem_added.2 hx
    have h2 : y.2 ∈ added (visits m.sorted r b) x.1 := mem_added.2 (by rw [e]; exact hy)
    rw [added_visits hl' (hav a ha) hll, List.mem_reverse] at h1
    rw [added_visits hl' (hav b hb) hll, List.mem_reverse] at h2
    exact order_values hf h hR hl (hav a ha) (hav b hb) hab hll h1 h2

end

/-! ### The best deals -/

theorem head_spec {X : List ℚ} (hX : X ≠ []) : (sortDesc X).headD 0 ∈ X ∧ ∀ y ∈ X, y ≤ (sortDesc X).headD 0 := by
  have hne : sortDesc X ≠ [] := by
    intro h0
    have := congrArg List.length h0
    simp only [sortDesc_length, List.length_nil] at this
    exact hX (List.length_eq_zero_iff.1 this)
  obtain ⟨w, W, hW⟩ := List.exists_cons_of_ne_nil hne
  have hs := sortDesc_sorted X
  rw [hW] at hs
  have hmem : ∀ y, y ∈ X ↔ y ∈ w :: W := fun y => by rw [← hW, mem_sortDesc]
  rw [hW, List.headD_cons]
  exact ⟨(hmem w).2 (by simp), fun y hy => hs.le_head y ((hmem y).1 hy)⟩

theorem bestAt_get {base : List AgentCategory} {pre : List (ℕ × ℚ)} {i l : ℕ} {v : ℚ} (hl : l < base.length) :
    (bestAt (withAdded base pre) i v).getD l 0 = if l = i then v else (sortDesc (base[l].values ++ added pre l)).headD 0 := by
  simp [bestAt, withAdded, hl]

section
variable {fl : ℚ → ℚ} {m : Market} {r : List ℕ} {M k : ℕ} (hl : r.length = m.numCategories)
include hl

theorem best_spec {K : ℕ} {pre : List (ℕ × ℚ)} {i l : ℕ} {v : ℚ} (hll : l < m.numCategories) (hli : l ≠ i) :
    ((bestAt (withAdded (rest m r K) pre) i v).getD l 0 = -MAX_VALUE ∨ (bestAt (withAdded (rest m r K) pre) i v).getD l 0 ∈ (vAt m.sorted l).drop (K * rAt r l) ∨
      (bestAt (withAdded (rest m r K) pre) i v).getD l 0 ∈ added pre l) ∧ ∀ y ∈ added pre l, y ≤ (bestAt (withAdded (rest m r K) pre) i v).getD l 0 := by
  have hlb : l < (rest m r K).length := by rw [rest_length hl]; exact hll
  rw [bestAt_get hlb, if_neg hli]
  obtain ⟨-, h2, h3⟩ := rest_spec hl K (List.getElem?_eq_getElem hlb)
  obtain ⟨h4, h5⟩ := head_spec (X := (rest m r K)[l].values ++ added pre l) (by simp [h2])
  refine ⟨?_, fun y hy => h5 y (by simp [hy])⟩
  rcases List.mem_append.1 h4 with h6 | h6
  · rcases h3 _ h6 with h7 | h7
    · exact Or.inl h7
    · exact Or.inr (Or.inl h7)
  · exact Or.inr (Or.inr h6)

theorem bestAt_len (K : ℕ) (pre : List (ℕ × ℚ)) (i : ℕ) (v : ℚ) : (bestAt (withAdded (rest m r K) pre) i v).length = r.length := by
  rw [bestAt_length, withAdded_length, rest_length hl, hl]

/-- The values in a best deal are reports (or the constant). -/
theorem best_bound (h : FloatReports m r M k) {K : ℕ} {pre : List (ℕ × ℚ)} (hpre : ∀ x ∈ pre, x.2 ∈ vAt m.sorted x.1) {i : ℕ} {v : ℚ} (hv : v ∈ vAt m.sorted i) :
    ∀ q ∈ bestAt (withAdded (rest m r K) pre) i v, |q| ≤ (M : ℚ) := by
  intro q hq
  obtain ⟨l, hlt, rfl⟩ := List.getElem_of_mem hq
  have hll : l < m.numCategories := by rw [bestAt_len hl, hl] at hlt; exact hlt
  have e : (bestAt (withAdded (rest m r K) pre) i v)[l] = (bestAt (withAdded (rest m r K) pre) i v).getD l 0 := by
    simp [List.getD_eq_getElem?_getD, List.getElem?_eq_getElem hlt]
  rw [e]
  by_cases hli : l = i
  · subst hli
    rw [bestAt_get (by rw [rest_length hl]; exact hll), if_pos rfl]
    exact (report_bound h l v hv).2
  · rcases (best_spec hl (K := K) (pre := pre) (v := v) hll hli).1 with h1 | h1 | h1
    · rw [h1, abs_neg, abs_of_pos (by norm_num [MAX_VALUE])]
      have : (100000000 : ℚ) ≤ M := by exact_mod_cast h.constant
      simpa [MAX_VALUE] using this
    · exact (report_bound h l _ (List.mem_of_mem_drop h1)).2
    · exact (report_bound h l _ (hpre _ (mem_added.1 h1))).2

end

section
variable {fl : ℚ → ℚ} (hf : Rounding fl) {m : Market} {r : List ℕ} {M k : ℕ} (h : FloatReports m r M k) (hl : r.length = m.numCategories)
include hf h hl

/-- The computed gain of a best deal is near to its gain. -/
theorem best_near {best : List ℚ} (hb : ∀ q ∈ best, |q| ≤ (M : ℚ)) (hlen : best.length = r.length) : |flDot fl best r - recipeSum r best| ≤ 2 * r.length * (1 / 2 ^ k) := by
  refine flDot_near (A := M * r.sum + 1) (by positivity) (fl_nearTo hf h.digits) hb hlen (by positivity) ?_
  have := units_le (r := r) (k := k) h.categories (a := 2 * r.length) (by linarith)
  linarith

/-- The prices that a best deal leads to, and their sum. -/
theorem price_spec {best : List ℚ} (hb : ∀ q ∈ best, |q| ≤ (M : ℚ)) (hlen : best.length = r.length) {i : ℕ} {v : ℚ} (hi : 0 < rAt r i) (hbi : best[i]? = some v) :
    |recipeSum r (priceVec fl r best i v)| ≤ (2 * r.length + 2 + r.sum) / 2 ^ k ∧
      (0 ≤ flDot fl best r → (priceVec fl r best i v).getD i 0 ≤ v + 2 / 2 ^ k) := by
  set u : ℚ := 1 / 2 ^ k with hu
  have hu0 : 0 ≤ u := by positivity
  have hir : i < r.length := rAt_pos_lt hi
  have hN := fl_nearTo hf (M := M) (r := r) (k := k) h.digits
  have hD := best_near hf h hl hb hlen
  have hv : |v| ≤ (M : ℚ) := hb v (List.mem_of_getElem? hbi)
  have hri : (rAt r i : ℚ) ≤ r.sum := by exact_mod_cast rAt_le_sum i
  have hri1 : (1 : ℚ) ≤ rAt r i := by exact_mod_cast hi
  have hri0 : (0 : ℚ) < rAt r i := by linarith
  have hM0 : (0 : ℚ) ≤ M := by positivity
  have hvr : |v * rAt r i| ≤ M * r.sum := by
    rw [abs_mul, abs_of_pos hri0]
    exact mul_le_mul hv hri hri0.le hM0
  have ha := hN (v * rAt r i) (by linarith)
  have hu4 := units_le (r := r) (k := k) h.categories (a := 2 * r.length + 4) le_rfl
  rw [← hu] at hu4 ha hD
  have hn0 : (0 : ℚ) ≤ 2 * r.length * u := by positivity
  have hrec : r[i]? = some (rAt r i) := by rw [rAt_eq_getElem hir]; exact List.getElem?_eq_getElem _
  set a := fl (v * rAt r i) with haD
  set D := flDot fl best r with hDD
  set O := recipeSum r (best.set i 0) with hO
  have hOb : |O| ≤ M * r.sum := by
    refine recipeSum_bound hM0 fun q hq => ?_
    rcases List.mem_or_eq_of_mem_set hq with hq | rfl
    · exact hb q hq
    · simpa using hM0
  have hO2 : O = recipeSum r best - rAt r i * v := by
    rw [hO, recipeSum_set hrec hbi]; ring
  have h1 : |a - D + O| ≤ (2 * r.length + 1) * u := by
    have e : a - D + O = (a - v * rAt r i) - (D - recipeSum r best) := by rw [hO2]; ring
    rw [e]
    refine (abs_sub _ _).trans ?_
    have : (2 * r.length + 1) * u = u + 2 * r.length * u := by ring
    rw [this]
    exact add_le_add ha hD
  have h2 : |a - D| ≤ M * r.sum + 1 := by
    have e : a - D = (a - D + O) - O := by ring
    rw [e]
    refine (abs_sub _ _).trans ?_
    nlinarith
  have h3 := hN _ h2
  rw [← hu] at h3
  set w := fl (a - D) with hw
  have h4 : |w + O| ≤ (2 * r.length + 2) * u := by
    have e : w + O = (w - (a - D)) + (a - D + O) := by ring
    rw [e]
    refine (abs_add_le _ _).trans ?_
    nlinarith
  have h5 : |w| ≤ M * r.sum + 1 := by
    have e : w = (w + O) - O := by ring
    rw [e]
    refine (abs_sub _ _).trans ?_
    nlinarith
  have h6 : |w / rAt r i| ≤ M * r.sum + 1 := by
    rw [abs_div, abs_of_pos hri0]
    exact (div_le_self (abs_nonneg _) hri1).trans h5
  have h7 := hN _ h6
  rw [← hu] at h7
  set p := fl (w / rAt r i) with hp
  have hvec : priceVec fl r best i v = best.set i p := rfl
  constructor
  · rw [hvec, recipeSum_set hrec hbi]
    have e : recipeSum r best - rAt r i * v + rAt r i * p = (w + O) + rAt r i * (p - w / rAt r i) := by
      rw [hO2]
      field_simp
      ring
    rw [e]
    refine (abs_add_le _ _).trans ?_
    rw [abs_mul, abs_of_pos hri0]
    have h8 : (rAt r i : ℚ) * |p - w / rAt r i| ≤ r.sum * u := mul_le_mul hri h7 (abs_nonneg _) (by positivity)
    have h9 : ((2 * r.length + 2 + r.sum) / 2 ^ k : ℚ) = (2 * r.length + 2) * u + r.sum * u := by rw [hu]; ring
    rw [h9]
    exact add_le_add h4 h8
  · intro hD0
    have hg : (priceVec fl r best i v).getD i 0 = p := by
      rw [hvec]
      simp [List.getD_eq_getElem?_getD, show i < best.length by omega]
    rw [hg]
    have hA : (M : ℚ) * r.sum + 1 ≤ 2 ^ 53 := A_le h.digits
    have hdbl : fl a = a := hf.exact a (hf.float _ (by linarith))
    have hwa : w ≤ a := by
      rw [← hdbl]
      exact hf.monotone _ _ (by linarith)
    have h8 : w / rAt r i ≤ v + u := by
      rw [div_le_iff₀ hri0]
      have := (abs_le.1 ha).2
      nlinarith
    have h9 := (abs_le.1 h7).2
    have : (2 / 2 ^ k : ℚ) = u + u := by rw [hu]; ring
    rw [this]
    linarith

/-- A deal all agents of which were rejected is worth almost nothing. -/
theorem rejected_blk (hpos : ∃ x ∈ r, 0 < x) {K : ℕ} {z : Bool} {A : List (ℕ × ℚ)} {j : ℕ} (hav : Avail m.sorted r j) (hA : ∀ x ∈ A, x.2 ∈ vAt m.sorted x.1)
    (hrej : ∀ pre x, A ++ visits m.sorted r j = pre ++ [x] → ¬ Pass z (flDot fl (bestAt (withAdded (rest m r K) pre) x.1 x.2) r))
    (hord : (visits m.sorted r j).Pairwise (fun x y : ℕ × ℚ => x.1 = y.1 → x.2 ≤ y.2)) :
    (blk m.sorted r j).sum ≤ 2 * r.length / 2 ^ k := by
  have hl' : r.length = m.sorted.length := by rw [m.sorted_length]; exact hl
  have hmem : ∀ l < m.sorted.length, ∀ y ∈ seg (vAt m.sorted l) (rAt r l) j, (l, y) ∈ visits m.sorted r j := by
    intro l hll y hy
    rw [← mem_added, added_visits hl' hav hll, List.mem_reverse]
    exact hy
  have hin : ∀ x ∈ visits m.sorted r j, x.2 ∈ vAt m.sorted x.1 := by
    intro x hx
    have hll := (visits_lt hl' hx).1
    have h1 := mem_added.2 (show (x.1, x.2) ∈ visits m.sorted r j from hx)
    rw [added_visits hl' hav hll, List.mem_reverse] at h1
    exact List.mem_of_mem_drop (List.mem_of_mem_take h1)
  rcases List.eq_nil_or_concat (visits m.sorted r j) with h0 | ⟨V, x, hV⟩
  · exfalso
    obtain ⟨a, ha, ha0⟩ := hpos
    obtain ⟨i, hi, rfl⟩ := List.getElem_of_mem ha
    rw [← rAt_eq_getElem hi] at ha0
    have : (i, 0) ∈ spots r := mem_spots.2 ha0
    have h1 := List.mem_map_of_mem (f := fun x : ℕ × ℕ => (x.1, (vAt m.sorted x.1).getD (j * rAt r x.1 + x.2) 0)) this
    have h2 : visits m.sorted r j ≠ [] := List.ne_nil_of_mem h1
    exact h2 h0
  · rw [List.concat_eq_append] at hV
    have hp := hrej (A ++ V) x (by rw [hV]; simp)
    have hx := visits_lt hl' (show x ∈ visits m.sorted r j by rw [hV]; simp)
    have hxv := hin x (by rw [hV]; simp)
    set best := bestAt (withAdded (rest m r K) (A ++ V)) x.1 x.2 with hbest
    have hlen : best.length = r.length := bestAt_len hl K _ _ _
    have hb := best_bound hl h (K := K) (pre := A ++ V) (by
      intro y hy
      rcases List.mem_append.1 hy with hy | hy
      · exact hA y hy
      · exact hin y (by rw [hV]; simp [hy])) hxv
    have hD := (abs_le.1 (best_near hf h hl hb hlen)).1
    have hD0 : flDot fl best r ≤ 0 := by
      unfold Pass at hp
      push Not at hp
      exact hp.1
    have hsum : (blk m.sorted r j).sum ≤ recipeSum r best := by
      rw [blk_sum hl', recipeSum_eq_sum (n := m.sorted.length) hl' (by omega)]
      refine Finset.sum_le_sum fun l hll => ?_
      rw [Finset.mem_range] at hll
      have hseg := seg_length (hav l hll)
      have hle : ∀ y ∈ seg (vAt m.sorted l) (rAt r l) j, y ≤ best.getD l 0 := by
        intro y hy
        have h1 := hmem l hll y hy
        rw [hV] at h1 hord
        rw [List.pairwise_append] at hord
        by_cases hlx : l = x.1
        · have h2 : best.getD l 0 = x.2 := by
            rw [hbest, bestAt_get (by rw [rest_length hl, ← m.sorted_length]; exact hll), if_pos hlx]
          rw [h2]
          rcases List.mem_append.1 h1 with h1 | h1
          · exact hord.2.2 _ h1 x (by simp) hlx
          · simp only [List.mem_singleton] at h1
            rw [← h1]
        · have h2 : (l, y) ∈ V := by
            rcases List.mem_append.1 h1 with h1 | h1
            · exact h1
            · simp only [List.mem_singleton] at h1
              exact absurd (by rw [← h1]) hlx
          exact (best_spec hl (K := K) (v := x.2) (by rw [← m.sorted_length]; exact hll) hlx).2 y (by rw [mem_added]; simp [h2])
      have h2 := List.sum_le_card_nsmul _ _ hle
      rw [hseg, nsmul_eq_mul] at h2
      exact h2
    have : (2 * r.length / 2 ^ k : ℚ) = 2 * r.length * (1 / 2 ^ k) := by ring
    rw [this]
    linarith

end

end Auctions.Floating
