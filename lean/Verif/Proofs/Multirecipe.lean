import Verif.Model.Multirecipe
import Verif.Spec.Multirecipe
import Verif.Proofs.TreeAuctionStart
import Verif.Proofs.Ascending
import Verif.Proofs.Trade

set_option autoImplicit false

/-! # Helper lemmas for the old auction with several recipes -/

namespace Auctions.Multirecipe

open Auctions Spec TreeAuction

/-! ## The analysis of the recipes -/

theorem mem_containing {R : List (List ℕ)} {c k : ℕ} : k ∈ containing R c ↔ k < R.length ∧ Uses R k c := by
  simp [containing, Uses]

theorem containing_nodup (R : List (List ℕ)) (c : ℕ) : (containing R c).Nodup := List.nodup_range.filter _

theorem containing_single {R : List (List ℕ)} {c k : ℕ} (hk : k < R.length) : containing R c = [k] ↔ Owns R k c := by
  constructor
  · intro h
    refine ⟨(mem_containing.1 (by rw [h]; simp)).2, fun j hj hu => ?_⟩
    have := mem_containing.2 ⟨hj, hu⟩
    rw [h] at this; simpa using this
  · intro h
    have hp : (containing R c).Perm [k] := by
      rw [List.perm_ext_iff_of_nodup (containing_nodup R c) (by simp)]
      intro a
      rw [mem_containing]
      constructor
      · rintro ⟨h1, h2⟩; simp [h.2 a h1 h2]
      · intro ha
        have : a = k := by simpa using ha
        subst this; exact ⟨hk, h.1⟩
    exact List.perm_singleton.1 hp

theorem containing_all {R : List (List ℕ)} {c : ℕ} : (containing R c).length = R.length ↔ ∀ k < R.length, Uses R k c := by
  have h0 : (containing R c).length ≤ (List.range R.length).length := List.length_filter_le _ _
  constructor
  · intro h k hk
    have : containing R c = List.range R.length := by
      apply List.Sublist.eq_of_length List.filter_sublist
      rw [List.length_range]; exact h
    exact (mem_containing.1 (by rw [this]; simpa using hk)).2
  · intro h
    have : containing R c = List.range R.length := by
      unfold containing
      rw [List.filter_eq_self]
      intro k hk
      have := h k (by simpa using hk)
      simpa [Uses] using this
    rw [this]; simp

/-- The sharing condition in terms of the numbers of recipes. -/
theorem shared_iff {R : List (List ℕ)} {c : ℕ} :
    ((∀ j < R.length, ∀ k < R.length, Uses R j c → Uses R k c → j = k) ∨ ∀ k < R.length, Uses R k c) ↔
      ((containing R c).length ≤ 1 ∨ (containing R c).length = R.length) := by
  rw [containing_all]
  refine or_congr_left ?_
  constructor
  · intro h
    by_contra hlt
    obtain ⟨x, y, l, hl⟩ : ∃ x y l, containing R c = x :: y :: l := by
      match hc : containing R c with
      | [] => simp [hc] at hlt
      | [_] => simp [hc] at hlt
      | x :: y :: l => exact ⟨x, y, l, rfl⟩
    have hx := mem_containing.1 (show x ∈ containing R c by rw [hl]; simp)
    have hy := mem_containing.1 (show y ∈ containing R c by rw [hl]; simp)
    have hxy := h x hx.1 y hy.1 hx.2 hy.2
    have := containing_nodup R c
    rw [hl, hxy] at this
    simp at this
  · intro h j hj k hk uj uk
    have hj := mem_containing.2 ⟨hj, uj⟩
    have hk := mem_containing.2 ⟨hk, uk⟩
    match hc : containing R c with
    | [] => rw [hc] at hj; simp at hj
    | [x] => rw [hc] at hj hk; simp at hj hk; omega
    | x :: y :: l => rw [hc] at h; simp at h

/-- The categories of recipe `k` alone, among `cs`. -/
def ownList (R : List (List ℕ)) (k : ℕ) (cs : List ℕ) : List ℕ := cs.filter (fun c => containing R c = [k])

/-- The common categories among `cs`. -/
def commonList (R : List (List ℕ)) (cs : List ℕ) : List ℕ := cs.filter (fun c => 2 ≤ R.length ∧ (containing R c).length = R.length)

theorem ownList_cons (R : List (List ℕ)) (k c : ℕ) (cs : List ℕ) :
    ownList R k (c :: cs) = if containing R c = [k] then c :: ownList R k cs else ownList R k cs := by
  unfold ownList
  rw [List.filter_cons]
  simp

theorem commonList_cons (R : List (List ℕ)) (c : ℕ) (cs : List ℕ) :
    commonList R (c :: cs) = if 2 ≤ R.length ∧ (containing R c).length = R.length then c :: commonList R cs else commonList R cs := by
  unfold commonList
  rw [List.filter_cons]
  simp

theorem analyzeLoop_ok {R : List (List ℕ)} (hR : R ≠ []) {cs : List ℕ} {a : Analysis} (ha : a.unique.length = R.length)
    (h : ∀ c ∈ cs, (containing R c).length ≤ 1 ∨ (containing R c).length = R.length) :
    ∃ a', analyzeLoop R cs a = .ok a' ∧ a'.common = a.common ++ commonList R cs ∧ a'.unique.length = R.length ∧
      ∀ k < R.length, a'.unique.getD k [] = a.unique.getD k [] ++ ownList R k cs := by
  have hpos : 0 < R.length := List.length_pos_iff.2 hR
  induction cs generalizing a with
  | nil => exact ⟨a, rfl, by simp [commonList], ha, by simp [ownList]⟩
  | cons c cs ih =>
    have hc := h c (by simp)
    have ih := fun a ha => ih (a := a) ha (fun c hc => h c (by simp [hc]))
    rw [analyzeLoop]
    by_cases h0 : (containing R c).length = 0
    · simp only [h0, if_true]
      obtain ⟨a', e1, e2, e3, e4⟩ := ih { a with recipeIndices := a.recipeIndices ++ [containing R c] } ha
      refine ⟨a', e1, ?_, e3, ?_⟩
      · rw [e2, commonList_cons, if_neg (by omega)]
      · intro k hk
        rw [e4 k hk, ownList_cons, if_neg]
        have : containing R c = [] := List.length_eq_zero_iff.1 h0
        simp [this]
    · by_cases h1 : (containing R c).length = 1
      · obtain ⟨x, hx⟩ := List.length_eq_one_iff.1 h1
        have hxl : x < R.length := (mem_containing.1 (by rw [hx]; simp : x ∈ containing R c)).1
        simp only [hx, List.length_singleton, if_true, List.headD_cons, show ¬ (1 = 0) from by omega, if_false]
        obtain ⟨a', e1, e2, e3, e4⟩ := ih ⟨a.recipeIndices ++ [[x]], a.common, a.unique.modify x (· ++ [c])⟩ (by simpa using ha)
        refine ⟨a', e1, ?_, e3, ?_⟩
        · rw [e2, commonList_cons, if_neg (by omega)]
        · intro k hk
          rw [e4 k hk]
          by_cases hkx : x = k
          · subst hkx
            rw [show ownList R x (c :: cs) = c :: ownList R x cs by rw [ownList_cons, if_pos hx]]
            simp [List.getD_eq_getElem?_getD, ha, hxl]
          · rw [show ownList R k (c :: cs) = ownList R k cs by rw [ownList_cons, if_neg (by simp [hx, hkx])]]
            simp [List.getD_eq_getElem?_getD, List.getElem?_modify, hkx]
      · have hall : (containing R c).length = R.length := by omega
        simp only [hall, if_true]
        rw [if_neg (by omega), if_neg (by omega)]
        obtain ⟨a', e1, e2, e3, e4⟩ := ih ⟨a.recipeIndices ++ [containing R c], a.common ++ [c], a.unique⟩ ha
        refine ⟨a', e1, ?_, e3, ?_⟩
        · rw [e2, commonList_cons, if_pos (by omega)]; simp
        · intro k hk
          rw [e4 k hk, ownList_cons, if_neg]
          intro hh
          rw [hh] at h1; simp at h1

theorem analyzeLoop_error {R : List (List ℕ)} {cs : List ℕ} {a : Analysis}
    (h : ∃ c ∈ cs, ¬ ((containing R c).length ≤ 1 ∨ (containing R c).length = R.length)) : analyzeLoop R cs a = .error .valueError := by
  induction cs generalizing a with
  | nil => simp at h
  | cons c cs ih =>
    rw [analyzeLoop]
    by_cases hc : (containing R c).length ≤ 1 ∨ (containing R c).length = R.length
    · have h' : ∃ c ∈ cs, ¬ ((containing R c).length ≤ 1 ∨ (containing R c).length = R.length) := by
        obtain ⟨d, hd, hd'⟩ := h
        rcases List.mem_cons.1 hd with rfl | hd
        · exact absurd hc hd'
        · exact ⟨d, hd, hd'⟩
      simp only [ih h', ite_self]
    · simp only
      rw [if_neg (by omega), if_neg (by omega), if_neg (by omega)]

/-- What the analysis finds. -/
structure Analyzed (n : ℕ) (R : List (List ℕ)) (a : Analysis) : Prop where
  common : a.common = commonList R (List.range n)
  length : a.unique.length = R.length
  unique : ∀ k < R.length, a.unique.getD k [] = ownList R k (List.range n)

theorem analyze_ok {n : ℕ} {R : List (List ℕ)} (h : MultiRecipes n R) : ∃ a, analyzeRecipes n R = .ok a ∧ Analyzed n R a := by
  obtain ⟨a, h1, h2, h3, h4⟩ := analyzeLoop_ok h.nonempty (cs := List.range n) (a := ⟨[], [], List.replicate R.length []⟩) (by simp)
    (fun c hc => shared_iff.1 (h.shared c (by simpa using hc)))
  refine ⟨a, h1, by simpa using h2, h3, fun k hk => ?_⟩
  rw [h4 k hk]
  simp [List.getD_eq_getElem?_getD, hk]

theorem getD_mem {R : List (List ℕ)} {k : ℕ} (h : k < R.length) : R.getD k [] ∈ R := by
  simp [List.getD_eq_getElem?_getD, h]

theorem uses_lt {n : ℕ} {R : List (List ℕ)} (h : ∀ r ∈ R, r.length = n) {k c : ℕ} (hk : k < R.length) (hu : Uses R k c) : c < n := by
  by_contra hc
  have := h _ (getD_mem hk)
  unfold Uses at hu
  rw [List.getD_eq_getElem?_getD (l := R.getD k []), List.getElem?_eq_none (by omega)] at hu
  simp at hu

theorem Analyzed.mem_common {n : ℕ} {R : List (List ℕ)} {a : Analysis} (ha : Analyzed n R a) (h : MultiRecipes n R) {c : ℕ} :
    c ∈ a.common ↔ SharedByAll R c := by
  rw [ha.common, commonList, List.mem_filter, List.mem_range]
  simp only [decide_eq_true_eq, SharedByAll, containing_all]
  constructor
  · rintro ⟨-, h1, h2⟩; exact ⟨h1, h2⟩
  · rintro ⟨h1, h2⟩; exact ⟨uses_lt h.length (k := 0) (by omega) (h2 0 (by omega)), h1, h2⟩

theorem Analyzed.mem_unique {n : ℕ} {R : List (List ℕ)} {a : Analysis} (ha : Analyzed n R a) (h : MultiRecipes n R) {k c : ℕ} (hk : k < R.length) :
    c ∈ a.unique.getD k [] ↔ Owns R k c := by
  rw [ha.unique k hk, ownList, List.mem_filter, List.mem_range]
  simp only [decide_eq_true_eq, containing_single hk]
  constructor
  · rintro ⟨-, h1⟩; exact h1
  · intro h1; exact ⟨uses_lt h.length hk h1.1, h1⟩

theorem analyze_error {n : ℕ} {R : List (List ℕ)}
    (h : ∃ c < n, ¬ ((∀ j < R.length, ∀ k < R.length, Uses R j c → Uses R k c → j = k) ∨ ∀ k < R.length, Uses R k c)) :
    analyzeRecipes n R = .error .valueError := by
  obtain ⟨c, hc, h⟩ := h
  exact analyzeLoop_error ⟨c, by simpa using hc, fun h' => h (shared_iff.2 h')⟩

theorem validRecipes_iff {n : ℕ} {R : List (List ℕ)} :
    validRecipes n R = true ↔ R ≠ [] ∧ (∀ r ∈ R, r.length = n) ∧ ∀ r ∈ R, ∀ x ∈ r, x = 0 ∨ x = 1 := by
  unfold validRecipes
  simp only [Bool.and_eq_true, decide_eq_true_eq, List.length_pos_iff, List.all_eq_true, Bool.or_eq_true]
  constructor
  · rintro ⟨h1, h2⟩
    exact ⟨h1, fun r hr => (h2 r hr).1, fun r hr x hx => ((h2 r hr).2 x hx).symm⟩
  · rintro ⟨h1, h2, h3⟩
    exact ⟨h1, fun r hr => ⟨h2 r hr, fun x hx => (h3 r hr x hx).symm⟩⟩

/-! ## The largest categories -/

/-- One largest category of each list. -/
def Largest (cats : List AgentCategory) (us : List (List ℕ)) (L : List ℕ) : Prop :=
  L.length = us.length ∧ ∀ k < us.length, L.getD k 0 ∈ us.getD k [] ∧ ∀ j ∈ us.getD k [], sizeAt cats j ≤ sizeAt cats (L.getD k 0)

theorem largestUnique_ok {order : List ℕ → List ℕ} (ho : ∀ l, (order l).Perm l) (cats : List AgentCategory) {us : List (List ℕ)}
    (h : ∀ u ∈ us, u ≠ []) : ∃ L, largestUnique order cats us = .ok L ∧ Largest cats us L := by
  induction us with
  | nil => exact ⟨[], rfl, rfl, by simp⟩
  | cons u us ih =>
    obtain ⟨L, h1, h2, h3⟩ := ih (fun u hu => h u (by simp [hu]))
    obtain ⟨x, e1, e2, e3⟩ := Ascending.pyMaxBy_spec (fun i => (sizeAt cats i : ℚ)) (l := order u)
      (fun e => h u (by simp) (by have := ho u; rw [e] at this; exact this.symm.eq_nil))
    refine ⟨x :: L, by simp [largestUnique, e1, h1, bind, Except.bind], by simp [h2], ?_⟩
    intro k hk
    cases k with
    | zero =>
      refine ⟨by simpa using (ho u).mem_iff.1 e2, fun j hj => ?_⟩
      have := e3 j ((ho u).mem_iff.2 (by simpa using hj))
      simpa using this
    | succ k => simpa using h3 k (by simpa using hk)

theorem largestUnique_error {order : List ℕ → List ℕ} (ho : ∀ l, (order l).Perm l) (cats : List AgentCategory) {us : List (List ℕ)}
    (h : [] ∈ us) : largestUnique order cats us = .error .valueError := by
  induction us with
  | nil => simp at h
  | cons u us ih =>
    by_cases hu : u = []
    · subst hu
      rw [largestUnique, (ho []).eq_nil]; rfl
    · have h' : [] ∈ us := by
        rcases List.mem_cons.1 h with h | h
        · exact absurd h.symm hu
        · exact h
      obtain ⟨x, e1, -⟩ := Ascending.pyMaxBy_spec (fun i => (sizeAt cats i : ℚ)) (l := order u)
        (fun e => hu (by have := ho u; rw [e] at this; exact this.symm.eq_nil))
      simp [largestUnique, e1, ih h', bind, Except.bind]

theorem sizeAt_get {cats : List AgentCategory} {i : ℕ} (h : i < cats.length) : sizeAt cats i = cats[i].size := by
  rw [sizeAt_eq, valuesAt_get h]; rfl

theorem lowest_eq {cats : List AgentCategory} {i : ℕ} (h : i < cats.length) (h0 : sizeAt cats i ≠ 0) :
    cats[i].lowestAgentValue = .ok (target cats i) := by
  unfold AgentCategory.lowestAgentValue target
  rw [valuesAt_get h]
  rw [sizeAt_eq, valuesAt_get h] at h0
  cases hl : cats[i].values.getLast? with
  | none => rw [List.getLast?_eq_none_iff] at hl; simp [hl] at h0
  | some x => rfl

theorem plan_spec {cats : List AgentCategory} {L : List ℕ} (hL : ∀ i ∈ L, i < cats.length) (k0 : ℕ) (acc : List (ℕ × ℚ)) :
    ((∀ i ∈ L, sizeAt cats i ≠ 0) ∧ plan cats k0 L acc = .ok (.increases (acc ++ L.map (fun i => (i, target cats i))))) ∨
    ∃ k < L.length, sizeAt cats (L.getD k 0) = 0 ∧ plan cats k0 L acc = .ok (.delete (k0 + k)) := by
  induction L generalizing k0 acc with
  | nil => left; simp [plan]
  | cons i L ih =>
    have hi := hL i (by simp)
    by_cases h0 : sizeAt cats i = 0
    · right
      refine ⟨0, by simp, by simpa using h0, ?_⟩
      rw [sizeAt_get hi] at h0
      simp [plan, pyGet_ok (List.getElem?_eq_getElem hi), bind, Except.bind, h0]
    · have e : plan cats k0 (i :: L) acc = plan cats (k0 + 1) L (acc ++ [(i, target cats i)]) := by
        have h0' := h0
        rw [sizeAt_get hi] at h0'
        simp [plan, pyGet_ok (List.getElem?_eq_getElem hi), bind, Except.bind, h0', lowest_eq hi h0]
      rw [e]
      rcases ih (fun j hj => hL j (by simp [hj])) (k0 + 1) (acc ++ [(i, target cats i)]) with ⟨h1, h2⟩ | ⟨k, h1, h2, h3⟩
      · left
        refine ⟨?_, by rw [h2]; simp⟩
        intro j hj
        rcases List.mem_cons.1 hj with rfl | hj
        · exact h0
        · exact h1 j hj
      · right
        exact ⟨k + 1, by simpa using h1, by simpa using h2, by rw [h3]; congr 2; omega⟩

/-! ## A set of categories, one for each recipe -/

/-- One own category per recipe. -/
structure Choice (R : List (List ℕ)) (L : List ℕ) : Prop where
  length : L.length = R.length
  owns : ∀ k < R.length, Owns R k (L.getD k 0)

theorem Choice.nodup {R : List (List ℕ)} {L : List ℕ} (h : Choice R L) : L.Nodup := by
  rw [List.nodup_iff_getElem?_ne_getElem?]
  intro i j hij hj he
  have hj' : j < R.length := by rw [← h.length]; exact hj
  have h1 := h.owns i (by omega)
  have h2 := h.owns j hj'
  have : L.getD i 0 = L.getD j 0 := by rw [List.getD_eq_getElem?_getD, List.getD_eq_getElem?_getD, he]
  rw [this] at h1
  have := h1.2 j hj' h2.1
  omega

theorem Choice.mem {R : List (List ℕ)} {L : List ℕ} (h : Choice R L) {i : ℕ} (hi : i ∈ L) : ∃ k < R.length, L.getD k 0 = i := by
  obtain ⟨k, hk, rfl⟩ := List.getElem_of_mem hi
  exact ⟨k, by rw [← h.length]; exact hk, by simp [List.getD_eq_getElem?_getD, hk]⟩

theorem Choice.getD_mem {R : List (List ℕ)} {L : List ℕ} (h : Choice R L) {k : ℕ} (hk : k < R.length) : L.getD k 0 ∈ L := by
  simp [List.getD_eq_getElem?_getD, h.length, hk]

theorem Choice.lt {n : ℕ} {R : List (List ℕ)} {L : List ℕ} (h : Choice R L) (hR : MultiRecipes n R) : ∀ i ∈ L, i < n := by
  intro i hi
  obtain ⟨k, hk, rfl⟩ := h.mem hi
  exact uses_lt hR.length hk (h.owns k hk).1

theorem uses_iff {n : ℕ} {R : List (List ℕ)} (hR : MultiRecipes n R) {k c : ℕ} (hk : k < R.length) : (R.getD k [])[c]? = some 1 ↔ Uses R k c := by
  unfold Uses
  constructor
  · intro h; rw [List.getD_eq_getElem?_getD (l := R.getD k []), h]; simp
  · intro h
    cases hc : (R.getD k [])[c]? with
    | none => rw [List.getD_eq_getElem?_getD (l := R.getD k []), hc] at h; simp at h
    | some x =>
      rw [List.getD_eq_getElem?_getD (l := R.getD k []), hc] at h
      rcases hR.binary _ (Multirecipe.getD_mem hk) x (List.mem_of_getElem? hc) with rfl | rfl
      · simp at h
      · rfl

theorem Choice.hits {n : ℕ} {R : List (List ℕ)} {L : List ℕ} (h : Choice R L) (hR : MultiRecipes n R) (g : ℕ → ℚ) : ∀ r ∈ R, hits r (L.map (fun i => (i, g i))) = 1 := by
  intro r hr
  obtain ⟨k, hk, rfl⟩ := List.getElem_of_mem hr
  have hrk : R[k] = R.getD k [] := by simp [List.getD_eq_getElem?_getD, hk]
  unfold Auctions.hits
  rw [List.filter_map, List.length_map]
  have hp : (L.filter ((fun inc : ℕ × ℚ => decide (R[k][inc.1]? = some 1)) ∘ fun i => (i, g i))).Perm [L.getD k 0] := by
    rw [List.perm_ext_iff_of_nodup (h.nodup.filter _) (by simp)]
    intro x
    simp only [List.mem_filter, Function.comp, decide_eq_true_eq, hrk, uses_iff hR hk, List.mem_singleton]
    constructor
    · rintro ⟨hx, hu⟩
      obtain ⟨j, hj, rfl⟩ := h.mem hx
      have := (h.owns j hj).2 k hk hu
      rw [this]
    · rintro rfl
      exact ⟨h.getD_mem hk, (h.owns k hk).1⟩
  rw [hp.length_eq]; rfl

/-! ## One iteration -/

/-- A joint raise of one own category per recipe. -/
theorem raise {n : ℕ} {R : List (List ℕ)} (hR : MultiRecipes n R) {L : List ℕ} (hL : Choice R L) (cats : List AgentCategory)
    {v : SimultaneousAscendingPriceVectors} {s : ℚ} (hv : v.psRecipes = R) (hl : v.prices.length = n) (hb : ∀ r ∈ R, recipeSum r v.prices = s) :
    ∃ v' d, v.increasePrices (L.map (fun i => (i, target cats i))) = .ok v' ∧
      (∃ i ∈ L, target cats i - priceAt v i = d) ∧ (∀ i ∈ L, d ≤ target cats i - priceAt v i) ∧
      (∀ j, priceAt v' j = priceAt v j + if j ∈ L then min d (-s) else 0) ∧
      v'.psRecipes = R ∧ v'.prices.length = n ∧ (∀ r ∈ R, recipeSum r v'.prices = s + min d (-s)) ∧
      v'.status = if 0 ≤ s + d then some .stoppedAtZeroSum else some .stoppedAtAgentValue := by
  have hlt := hL.lt hR
  have hsum : v.priceSum = s := by
    unfold SimultaneousAscendingPriceVectors.priceSum
    rw [dot_eq, hv]
    cases hc : R with
    | nil => exact absurd hc hR.nonempty
    | cons r rs => exact hb r (by simp [hc])
  rcases increasePrices_spec v (L.map (fun i => (i, target cats i))) 0 (by rw [hv]; exact hR.nonempty)
    (by rw [hv, hl]; exact hR.length) (by rw [hv]; exact hR.binary)
    (by intro inc hinc; obtain ⟨i, hi, rfl⟩ := List.mem_map.1 hinc; rw [hl]; exact hlt i hi) with ⟨⟨r, hr, h1⟩, -⟩ | ⟨-, d, delta, v', h2, h3, h4, h5, h6, h7, h8, h9, h10⟩
  · rw [hv] at hr; exact absurd (hL.hits hR _ r hr) h1
  rw [hsum, zero_sub] at h4
  have hd : delta = min d (-s) := h4
  subst hd
  refine ⟨v', d, h5, ?_, ?_, ?_, by rw [h6, hv], by rw [h7, hl], ?_, ?_⟩
  · obtain ⟨inc, hinc, h2⟩ := h2
    obtain ⟨i, hi, rfl⟩ := List.mem_map.1 hinc
    exact ⟨i, hi, h2⟩
  · intro i hi; exact h3 (i, target cats i) (List.mem_map.2 ⟨i, hi, rfl⟩)
  · intro j
    by_cases hj : j < n
    · have := h8 j (by rw [hl]; exact hj)
      rw [listed_nodup _ hL.nodup] at this
      unfold priceAt
      rw [this]
      split <;> simp
    · have hnj : j ∉ L := fun h => hj (hlt j h)
      unfold priceAt
      rw [if_neg hnj, List.getD_eq_getElem?_getD, List.getD_eq_getElem?_getD, List.getElem?_eq_none (by omega), List.getElem?_eq_none (by omega)]
      simp
  · intro r hr; rw [h9 r (by rw [hv]; exact hr), hb r hr]
  · rw [h10, hsum, zero_sub]
    refine if_congr ?_ rfl rfl
    constructor
    · intro h
      have := min_le_left d (-s)
      linarith
    · intro h; exact min_eq_right (by linarith)

/-- The invariant of the loop. -/
structure Inv (n : ℕ) (R : List (List ℕ)) (cats0 cats : List AgentCategory) (v : SimultaneousAscendingPriceVectors) (s : ℚ) : Prop where
  len : cats.length = n
  names : cats.map AgentCategory.name = cats0.map AgentCategory.name
  sorted : ∀ i, SortedDesc (valuesAt cats i)
  recipes : v.psRecipes = R
  plen : v.prices.length = n
  balanced : ∀ r ∈ R, recipeSum r v.prices = s
  rational : ∀ i, ∀ x ∈ valuesAt cats i, priceAt v i ≤ x
  left : ∀ i, ∃ k, valuesAt cats i = (valuesAt cats0 i).take k ∧ ∀ x ∈ (valuesAt cats0 i).drop k, x ≤ priceAt v i
  low : ∀ i < n, priceAt v i ≤ -MAX_VALUE ∨ ∃ x ∈ valuesAt cats0 i, priceAt v i ≤ x
  untouched : ∀ c, SharedByAll R c → priceAt v c ≤ -MAX_VALUE

theorem take_removal {l0 : List ℚ} {k : ℕ} {p p' : ℚ} (h : ∀ x ∈ l0.drop k, x ≤ p) (hp : p ≤ p') :
    ∃ k', afterRemoval (l0.take k) p' = l0.take k' ∧ ∀ x ∈ l0.drop k', x ≤ p' := by
  unfold afterRemoval
  split
  · rename_i hlast
    obtain ⟨y, hy, hyp⟩ := hlast
    have hne : l0.take k ≠ [] := by rintro e; rw [e] at hy; simp at hy
    have hpos := List.length_pos_iff.2 hne
    have hlen : (l0.take k).length = min k l0.length := List.length_take
    refine ⟨(l0.take k).length - 1, ?_, ?_⟩
    · rw [List.dropLast_eq_take, List.take_take]
      congr 1; omega
    · intro x hx
      have hlt : (l0.take k).length - 1 < l0.length := by omega
      rw [List.drop_eq_getElem_cons hlt, List.mem_cons] at hx
      rcases hx with rfl | hx
      · have h1 : (l0.take k)[(l0.take k).length - 1]? = some y := by
          rw [← List.getLast?_eq_getElem?]; exact hy
        rw [List.getElem?_take_of_lt (by omega), List.getElem?_eq_getElem hlt] at h1
        simp only [Option.some.injEq] at h1
        rw [h1]; exact hyp
      · refine (h x ?_).trans hp
        by_cases hkl : k ≤ l0.length
        · rwa [show (l0.take k).length - 1 + 1 = k by omega] at hx
        · rw [show (l0.take k).length - 1 + 1 = l0.length by omega, List.drop_length] at hx; simp at hx
  · exact ⟨k, rfl, fun x hx => (h x hx).trans hp⟩

theorem target_mem {cats : List AgentCategory} {i : ℕ} (h : sizeAt cats i ≠ 0) : target cats i ∈ valuesAt cats i := by
  unfold target
  rw [sizeAt_eq] at h
  cases hl : (valuesAt cats i).getLast? with
  | none => rw [List.getLast?_eq_none_iff] at hl; simp [hl] at h
  | some x => exact List.mem_of_getLast? hl

/-- The prices after a raise that goes up to at most the lowest values. -/
theorem Inv.raised {n : ℕ} {R : List (List ℕ)} {cats0 cats : List AgentCategory} {v v' : SimultaneousAscendingPriceVectors} {s e : ℚ} (h : Inv n R cats0 cats v s)
    {L : List ℕ} (hL : Choice R L) (hne : ∀ i ∈ L, sizeAt cats i ≠ 0) (he : 0 ≤ e) (hle : ∀ i ∈ L, priceAt v i + e ≤ target cats i)
    (hp : ∀ j, priceAt v' j = priceAt v j + if j ∈ L then e else 0) (hr : v'.psRecipes = R) (hl : v'.prices.length = n) (hb : ∀ r ∈ R, recipeSum r v'.prices = s + e) :
    Inv n R cats0 cats v' (s + e) := by
  have hmono : ∀ i, priceAt v i ≤ priceAt v' i := by intro i; rw [hp]; split <;> linarith
  refine ⟨h.len, h.names, h.sorted, hr, hl, hb, ?_, ?_, ?_, ?_⟩
  · intro i x hx
    rw [hp]
    by_cases hi : i ∈ L
    · rw [if_pos hi]; exact (hle i hi).trans (target_le (h.sorted i) x hx)
    · rw [if_neg hi, add_zero]; exact h.rational i x hx
  · intro i
    obtain ⟨k, h1, h2⟩ := h.left i
    exact ⟨k, h1, fun x hx => (h2 x hx).trans (hmono i)⟩
  · intro i hi
    rw [hp]
    by_cases hi' : i ∈ L
    · right
      rw [if_pos hi']
      refine ⟨target cats i, ?_, hle i hi'⟩
      obtain ⟨k, h1, -⟩ := h.left i
      have := target_mem (hne i hi')
      rw [h1] at this
      exact List.mem_of_mem_take this
    · rw [if_neg hi', add_zero]; exact h.low i hi
  · intro c hc
    rw [hp, if_neg, add_zero]
    · exact h.untouched c hc
    · intro hcL
      obtain ⟨k, hk, rfl⟩ := hL.mem hcL
      have h1 := (hL.owns k hk).2 0 (by have := hc.1; omega) (hc.2 0 (by have := hc.1; omega))
      have h2 := (hL.owns k hk).2 1 (by have := hc.1; omega) (hc.2 1 (by have := hc.1; omega))
      omega

/-- The removals after a raise. -/
theorem Inv.removed {n : ℕ} {R : List (List ℕ)} {cats0 cats cats' : List AgentCategory} {v : SimultaneousAscendingPriceVectors} {s : ℚ} (h : Inv n R cats0 cats v s)
    (hc : cats' = List.zipWith (fun c p => (⟨c.name, afterRemoval c.values p⟩ : AgentCategory)) cats v.prices) : Inv n R cats0 cats' v s := by
  have hlen : v.prices.length = cats.length := by rw [h.plen, h.len]
  have hvals : ∀ i, valuesAt cats' i = afterRemoval (valuesAt cats i) (priceAt v i) := by rw [hc]; exact valuesAt_removal hlen
  refine ⟨by rw [hc]; simp [hlen, h.len], ?_, ?_, h.recipes, h.plen, h.balanced, ?_, ?_, h.low, h.untouched⟩
  · rw [← h.names, hc]
    apply List.ext_getElem
    · simp [hlen]
    · intro k h1 h2; simp
  · intro i
    obtain ⟨k', hk'⟩ := afterRemoval_take (valuesAt cats i) (priceAt v i)
    rw [hvals, hk']; exact (h.sorted i).take _
  · intro i x hx
    rw [hvals] at hx
    exact h.rational i x (afterRemoval_subset hx)
  · intro i
    obtain ⟨k, h1, h2⟩ := h.left i
    rw [hvals, h1]
    exact take_removal h2 (le_refl _)

/-- The number of agents. -/
def total (cats : List AgentCategory) : ℕ := (cats.map AgentCategory.size).sum

theorem total_removed {cats : List AgentCategory} {ps : List ℚ} (hl : ps.length = cats.length) {i : ℕ} (hi : i < cats.length) (h0 : sizeAt cats i ≠ 0) (ht : target cats i ≤ ps.getD i 0) :
    total (List.zipWith (fun c p => (⟨c.name, afterRemoval c.values p⟩ : AgentCategory)) cats ps) < total cats := by
  have key : ∀ (l : List ℚ) (p : ℚ), (afterRemoval l p).length ≤ l.length := by
    intro l p; unfold afterRemoval; split <;> simp
  have hle : ∀ (cats : List AgentCategory) (ps : List ℚ), total (List.zipWith (fun c p => (⟨c.name, afterRemoval c.values p⟩ : AgentCategory)) cats ps) ≤ total cats := by
    intro cats
    induction cats with
    | nil => simp [total]
    | cons c cats ih =>
      intro ps
      cases ps with
      | nil => simp [total]
      | cons p ps =>
        have h1 := ih ps
        have h2 := key c.values p
        simp only [total, List.zipWith_cons_cons, List.map_cons, List.sum_cons, AgentCategory.size] at h1 ⊢
        omega
  induction cats generalizing ps i with
  | nil => simp at hi
  | cons c cats ih =>
    cases ps with
    | nil => simp at hl
    | cons p ps =>
      cases i with
      | zero =>
        have h1 := hle cats ps
        have h2 : (afterRemoval c.values p).length < c.values.length := by
          have h3 := lowest_eq hi h0
          rw [sizeAt_get hi] at h0
          simp only [List.getElem_cons_zero, AgentCategory.size] at h0 h3
          unfold AgentCategory.lowestAgentValue at h3
          cases hlast : c.values.getLast? with
          | none => rw [hlast] at h3; simp at h3
          | some x =>
            rw [hlast] at h3
            simp only [Except.ok.injEq] at h3
            unfold afterRemoval
            rw [if_pos ⟨x, hlast, by rw [h3]; simpa using ht⟩, List.length_dropLast]
            omega
        simp only [total, List.zipWith_cons_cons, List.map_cons, List.sum_cons, AgentCategory.size] at h1 ⊢
        omega
      | succ i =>
        have h1 := ih (ps := ps) (by simpa using hl) (i := i) (by simpa using hi) (by simpa [sizeAt] using h0)
          (by simpa [target, valuesAt] using ht)
        have h2 := key c.values p
        simp only [total, List.zipWith_cons_cons, List.map_cons, List.sum_cons, AgentCategory.size] at h1 ⊢
        omega

/-- The largest own categories of the recipes. -/
theorem largest_choice {order : List ℕ → List ℕ} (ho : ∀ l, (order l).Perm l) (cats : List AgentCategory) {n : ℕ} {R : List (List ℕ)} (hR : MultiRecipes n R)
    (hown : AllOwn R) {a : Analysis} (ha : Analyzed n R a) :
    ∃ L, largestUnique order cats a.unique = .ok L ∧ Choice R L ∧ ∀ k < R.length, ∀ c, Owns R k c → sizeAt cats c ≤ sizeAt cats (L.getD k 0) := by
  obtain ⟨L, h1, h2, h3⟩ := largestUnique_ok ho cats (us := a.unique) (by
    intro u hu he
    obtain ⟨k, hk, rfl⟩ := List.getElem_of_mem hu
    have hk' : k < R.length := by rw [← ha.length]; exact hk
    obtain ⟨c, hc⟩ := hown k hk'
    have := (ha.mem_unique hR hk').2 hc
    rw [List.getD_eq_getElem?_getD, List.getElem?_eq_getElem hk] at this
    simp [he] at this)
  refine ⟨L, h1, ⟨by rw [h2, ha.length], fun k hk => ?_⟩, fun k hk c hc => ?_⟩
  · exact (ha.mem_unique hR hk).1 (h3 k (by rw [ha.length]; exact hk)).1
  · exact (h3 k (by rw [ha.length]; exact hk)).2 c ((ha.mem_unique hR hk).2 hc)

/-- The largest common category. -/
theorem common_ok {order : List ℕ → List ℕ} (ho : ∀ l, (order l).Perm l) (cats : List AgentCategory) (a : Analysis) :
    ∃ i m, largestCommon order cats a.common = .ok (i, m) ∧ ((a.common = [] ∧ m = 0) ∨ (i ∈ a.common ∧ m = sizeAt cats i ∧ ∀ j ∈ a.common, sizeAt cats j ≤ m)) := by
  by_cases hc : a.common = []
  · exact ⟨0, 0, by simp [hc, largestCommon], Or.inl ⟨hc, rfl⟩⟩
  · obtain ⟨x, e1, e2, e3⟩ := Ascending.pyMaxBy_spec (fun i => (sizeAt cats i : ℚ)) (l := order a.common)
      (fun e => hc (by have := ho a.common; rw [e] at this; exact this.symm.eq_nil))
    refine ⟨x, sizeAt cats x, ?_, Or.inr ⟨(ho _).mem_iff.1 e2, rfl, fun j hj => by exact_mod_cast e3 j ((ho _).mem_iff.2 hj)⟩⟩
    rw [largestCommon, if_pos (List.length_pos_iff.2 hc), e1]; rfl

theorem hits_replicate {n : ℕ} {R : List (List ℕ)} (hR : MultiRecipes n R) {c : ℕ} (hc : SharedByAll R c) (x : ℚ) (m : ℕ) :
    ∀ r ∈ R, hits r (List.replicate m (c, x)) = m := by
  intro r hr
  obtain ⟨k, hk, rfl⟩ := List.getElem_of_mem hr
  have hrk : R[k] = R.getD k [] := by simp [List.getD_eq_getElem?_getD, hk]
  unfold hits
  rw [List.filter_eq_self.2, List.length_replicate]
  intro y hy
  rw [List.eq_of_mem_replicate hy]
  simp only [decide_eq_true_eq, hrk]
  exact (uses_iff hR hk).2 (hc.2 k hk)

section

variable {order : List ℕ → List ℕ} {n : ℕ} {R : List (List ℕ)} {a : Analysis} {cats0 cats : List AgentCategory} {v : SimultaneousAscendingPriceVectors} {s : ℚ}

/-- What one iteration that does not end the loop does: the prices of the largest own categories go up by `e`, and those who have at most the price leave. -/
structure Raised (R : List (List ℕ)) (cats : List AgentCategory) (v : SimultaneousAscendingPriceVectors) (L : List ℕ) (e : ℚ) (cats' : List AgentCategory)
    (v' : SimultaneousAscendingPriceVectors) : Prop where
  choice : Choice R L
  largest : ∀ k < R.length, ∀ c, Owns R k c → sizeAt cats c ≤ sizeAt cats (L.getD k 0)
  nonempty : ∀ i ∈ L, sizeAt cats i ≠ 0
  nonneg : 0 ≤ e
  upTo : ∀ i ∈ L, priceAt v i + e ≤ target cats i
  price : ∀ j, priceAt v' j = priceAt v j + if j ∈ L then e else 0
  removed : ∀ i, valuesAt cats' i = afterRemoval (valuesAt cats i) (priceAt v' i)

/-- One iteration. -/
theorem loop_step (ho : ∀ l, (order l).Perm l) (hR : MultiRecipes n R) (hown : AllOwn R) (ha : Analyzed n R a) (h : Inv n R cats0 cats v s) (hs : s < 0) (fuel : ℕ) :
    ((∀ k < R.length, ∀ c, Owns R k c → sizeAt cats c = 0) ∧ loop order R.length a (fuel + 1) cats v = .ok (some (.trade cats v.prices))) ∨
    ((∃ c, SharedByAll R c) ∧ loop order R.length a (fuel + 1) cats v = .error .valueError) ∨
    (∃ k < R.length, 2 ≤ R.length ∧ (∀ c, Owns R k c → sizeAt cats c = 0) ∧ loop order R.length a (fuel + 1) cats v = .ok (some (.restart k))) ∨
    (∃ v', loop order R.length a (fuel + 1) cats v = .ok (some (.trade cats v'.prices)) ∧ Inv n R cats0 cats v' 0) ∨
    (∃ cats' v' s', loop order R.length a (fuel + 1) cats v = loop order R.length a fuel cats' v' ∧ s' < 0 ∧ Inv n R cats0 cats' v' s' ∧ total cats' < total cats ∧
      ∃ L e, Raised R cats v L e cats' v') := by
  obtain ⟨i, m, hcom, hcom'⟩ := common_ok ho cats a
  obtain ⟨L, hL1, hL, hL3⟩ := largest_choice ho cats hR hown ha
  have hlen0 : L.length ≠ 0 := by rw [hL.length]; exact fun e => hR.nonempty (List.length_eq_zero_iff.1 e)
  have hlt : ∀ i ∈ L, i < cats.length := by rw [h.len]; exact hL.lt hR
  by_cases h0 : (L.map (sizeAt cats)).sum = 0
  · left
    refine ⟨fun k hk c hc => ?_, ?_⟩
    · have h1 := hL3 k hk c hc
      have h2 : sizeAt cats (L.getD k 0) = 0 := (List.sum_eq_zero_iff.1 h0) _ (List.mem_map.2 ⟨_, hL.getD_mem hk, rfl⟩)
      omega
    · rw [loop, hcom]
      simp only [bind, Except.bind, hL1, if_neg hlen0, h0, if_true]
  · right
    by_cases hbig : (L.map (sizeAt cats)).sum ≤ m
    · left
      rcases hcom' with ⟨-, hm⟩ | ⟨hi, hm, -⟩
      · omega
      have hsh := (ha.mem_common hR).1 hi
      have hic : i < cats.length := by
        rw [h.len]; exact uses_lt hR.length (k := 0) (by have := hsh.1; omega) (hsh.2 0 (by have := hsh.1; omega))
      have hi0 : sizeAt cats i ≠ 0 := by omega
      refine ⟨⟨i, hsh⟩, ?_⟩
      have herr : v.increasePrices (List.replicate R.length (i, target cats i)) = .error .valueError := by
        rcases increasePrices_spec v (List.replicate R.length (i, target cats i)) 0 (by rw [h.recipes]; exact hR.nonempty)
          (by rw [h.recipes, h.plen]; exact hR.length) (by rw [h.recipes]; exact hR.binary)
          (by intro inc hinc; rw [List.eq_of_mem_replicate hinc, h.plen, ← h.len]; exact hic) with ⟨-, h1⟩ | ⟨h1, -⟩
        · exact h1
        · obtain ⟨r, hr⟩ := List.exists_mem_of_ne_nil _ hR.nonempty
          have := h1 r (by rw [h.recipes]; exact hr)
          rw [hits_replicate hR hsh _ _ r hr] at this
          have := hsh.1; omega
      rw [loop, hcom]
      simp only [bind, Except.bind, hL1, if_neg hlen0, if_neg h0, decision, if_pos hbig, pyGet_ok (List.getElem?_eq_getElem hic), lowest_eq hic hi0, herr]
    · right
      rcases plan_spec hlt 0 [] with ⟨hne, hpl⟩ | ⟨k, hk, hk0, hpl⟩
      · right
        rw [List.nil_append] at hpl
        obtain ⟨v', d, e1, ⟨i0, hi0, hd0⟩, e3, e4, e5, e6, e7, e8⟩ := raise hR hL cats h.recipes h.plen h.balanced
        have hd : 0 ≤ d := by
          have := h.rational i0 _ (target_mem (hne i0 hi0)); linarith
        have hloop : ∀ r, (if v'.status = some .stoppedAtZeroSum then (.ok (some (.trade cats v'.prices)) : Py (Option Outcome))
            else do
              let cats' ← removeLosers cats v'.prices
              loop order R.length a fuel cats' v') = r → loop order R.length a (fuel + 1) cats v = r := by
          intro r hr
          rw [loop, hcom]
          simp only [bind, Except.bind, hL1, if_neg hlen0, if_neg h0, decision, if_neg hbig, hpl, e1]
          exact hr
        by_cases hz : 0 ≤ s + d
        · left
          have hmin : min d (-s) = -s := min_eq_right (by linarith)
          rw [hmin] at e4 e7
          refine ⟨v', hloop _ (by rw [e8, if_pos hz]; simp), ?_⟩
          have := h.raised hL hne (e := -s) (by linarith) (fun i hi => by have := e3 i hi; linarith) e4 e5 e6 e7
          rwa [add_neg_cancel] at this
        · right
          have hmin : min d (-s) = d := min_eq_left (by linarith)
          rw [hmin] at e4 e7
          have hlen : v'.prices.length = cats.length := by rw [e6, h.len]
          have hinv := h.raised hL hne hd (fun i hi => by have := e3 i hi; linarith) e4 e5 e6 e7
          refine ⟨_, v', s + d, hloop _ ?_, by linarith, hinv.removed rfl, ?_, L, d, hL, hL3, hne, hd, fun i hi => by have := e3 i hi; linarith, e4, valuesAt_removal hlen⟩
          · rw [e8, if_neg hz, removeLosers_eq hlen]; simp [bind, Except.bind]
          · refine total_removed hlen (hlt i0 hi0) (hne i0 hi0) ?_
            have := e4 i0
            rw [if_pos hi0] at this
            unfold priceAt at this hd0
            linarith
      · left
        have hkR : k < R.length := by rw [← hL.length]; exact hk
        refine ⟨k, hkR, ?_, fun c hc => by have := hL3 k hkR c hc; omega, ?_⟩
        · by_contra h2
          have h1 : R.length = 1 := by omega
          have hL1' : L.length = 1 := by rw [hL.length, h1]
          obtain ⟨x, rfl⟩ := List.length_eq_one_iff.1 hL1'
          have : k = 0 := by omega
          subst this
          apply h0; simpa using hk0
        · rw [loop, hcom]
          simp only [bind, Except.bind, hL1, if_neg hlen0, if_neg h0, decision, if_neg hbig, hpl, Nat.zero_add]

/-- If a common category has at least as many agents as the own categories together, and these are not all empty, an exception is raised. -/
theorem loop_common (ho : ∀ l, (order l).Perm l) (hR : MultiRecipes n R) (hown : AllOwn R) (ha : Analyzed n R a) (h : Inv n R cats0 cats v s) (hs : s < 0) (fuel : ℕ)
    {c : ℕ} (hc : SharedByAll R c) (hne : ∃ k < R.length, ∃ i, Owns R k i ∧ sizeAt cats i ≠ 0)
    (hle : ∀ L, Choice R L → (L.map (sizeAt cats)).sum ≤ sizeAt cats c) :
    loop order R.length a (fuel + 1) cats v = .error .valueError := by
  obtain ⟨i, m, hcom, hcom'⟩ := common_ok ho cats a
  obtain ⟨L, hL1, hL, hL3⟩ := largest_choice ho cats hR hown ha
  have hlen0 : L.length ≠ 0 := by rw [hL.length]; exact fun e => hR.nonempty (List.length_eq_zero_iff.1 e)
  have h0 : (L.map (sizeAt cats)).sum ≠ 0 := by
    obtain ⟨k, hk, j, hj, hj0⟩ := hne
    intro h0
    have h1 := hL3 k hk j hj
    have h2 : sizeAt cats (L.getD k 0) = 0 := (List.sum_eq_zero_iff.1 h0) _ (List.mem_map.2 ⟨_, hL.getD_mem hk, rfl⟩)
    omega
  have hca := (ha.mem_common hR).2 hc
  rcases hcom' with ⟨e, -⟩ | ⟨hi, hm, hmax⟩
  · rw [e] at hca; simp at hca
  have hbig : (L.map (sizeAt cats)).sum ≤ m := (hle L hL).trans (hmax c hca)
  have hsh := (ha.mem_common hR).1 hi
  have hic : i < cats.length := by
    rw [h.len]; exact uses_lt hR.length (k := 0) (by have := hsh.1; omega) (hsh.2 0 (by have := hsh.1; omega))
  have hi0 : sizeAt cats i ≠ 0 := by omega
  have herr : v.increasePrices (List.replicate R.length (i, target cats i)) = .error .valueError := by
    rcases increasePrices_spec v (List.replicate R.length (i, target cats i)) 0 (by rw [h.recipes]; exact hR.nonempty)
      (by rw [h.recipes, h.plen]; exact hR.length) (by rw [h.recipes]; exact hR.binary)
      (by intro inc hinc; rw [List.eq_of_mem_replicate hinc, h.plen, ← h.len]; exact hic) with ⟨-, h1⟩ | ⟨h1, -⟩
    · exact h1
    · obtain ⟨r, hr⟩ := List.exists_mem_of_ne_nil _ hR.nonempty
      have := h1 r (by rw [h.recipes]; exact hr)
      rw [hits_replicate hR hsh _ _ r hr] at this
      have := hsh.1; omega
  rw [loop, hcom]
  simp only [bind, Except.bind, hL1, if_neg hlen0, if_neg h0, decision, if_pos hbig, pyGet_ok (List.getElem?_eq_getElem hic), lowest_eq hic hi0, herr]

/-- How the loop ends. -/
theorem loop_end (ho : ∀ l, (order l).Perm l) (hR : MultiRecipes n R) (hown : AllOwn R) (ha : Analyzed n R a) (fuel : ℕ) (h : Inv n R cats0 cats v s) (hs : s < 0) :
    (fuel ≤ total cats ∧ loop order R.length a fuel cats v = .ok none) ∨
    ((∃ c, SharedByAll R c) ∧ loop order R.length a fuel cats v = .error .valueError) ∨
    (∃ k < R.length, 2 ≤ R.length ∧ loop order R.length a fuel cats v = .ok (some (.restart k))) ∨
    (∃ cats' v' s', loop order R.length a fuel cats v = .ok (some (.trade cats' v'.prices)) ∧ Inv n R cats0 cats' v' s' ∧
      (s' = 0 ∨ ∀ k < R.length, ∀ c, Owns R k c → sizeAt cats' c = 0)) := by
  induction fuel generalizing cats v s with
  | zero => left; exact ⟨Nat.zero_le _, rfl⟩
  | succ fuel ih =>
    rcases loop_step ho hR hown ha h hs fuel with ⟨h1, h2⟩ | h1 | h1 | ⟨v', h1, h2⟩ | ⟨cats', v', s', h1, h2, h3, h4, -⟩
    · exact Or.inr (Or.inr (Or.inr ⟨cats, v, s, h2, h, Or.inr h1⟩))
    · exact Or.inr (Or.inl h1)
    · obtain ⟨k, hk, h2, -, h3⟩ := h1
      exact Or.inr (Or.inr (Or.inl ⟨k, hk, h2, h3⟩))
    · exact Or.inr (Or.inr (Or.inr ⟨cats, v', 0, h1, h2, Or.inl rfl⟩))
    · rw [h1]
      rcases ih h3 h2 with ⟨e1, e2⟩ | e | e | e
      · left; exact ⟨by omega, e2⟩
      · exact Or.inr (Or.inl e)
      · exact Or.inr (Or.inr (Or.inl e))
      · exact Or.inr (Or.inr (Or.inr e))

end

/-! ## The number of deals -/

theorem supported_ok {cats : List AgentCategory} {us : List (List ℕ)} (h : ∀ u ∈ us, u ≠ []) :
    ∃ xs, supported cats us = .ok xs ∧ xs.length = us.length ∧
      ∀ k < us.length, (∀ c ∈ us.getD k [], xs.getD k 0 ≤ sizeAt cats c) ∧ ∃ c ∈ us.getD k [], xs.getD k 0 = sizeAt cats c := by
  induction us with
  | nil => exact ⟨[], rfl, rfl, by simp⟩
  | cons u us ih =>
    obtain ⟨xs, h1, h2, h3⟩ := ih (fun u hu => h u (by simp [hu]))
    rcases pyMinNat_spec (u.map (sizeAt cats)) with ⟨e, -⟩ | ⟨x, e1, e2, e3⟩
    · exact absurd (List.map_eq_nil_iff.1 e) (h u (by simp))
    refine ⟨x :: xs, by simp [supported, e1, h1, bind, Except.bind], by simp [h2], ?_⟩
    intro k hk
    cases k with
    | zero =>
      refine ⟨fun c hc => ?_, ?_⟩
      · simpa using e3 _ (List.mem_map_of_mem (by simpa using hc))
      · obtain ⟨c, hc, rfl⟩ := List.mem_map.1 e2
        exact ⟨c, by simpa using hc, by simp⟩
    | succ k => simpa using h3 k (by simpa using hk)

/-- The number of deals of a trade: what the own categories support, in total, but at most what the common categories support. -/
theorem init_ok {n : ℕ} {R : List (List ℕ)} (hR : MultiRecipes n R) (hown : AllOwn R) {cats : List AgentCategory} (hl : cats.length = n) (ps : List ℚ) :
    ∃ (u : ℕ → ℕ) (b : ℕ), Trade.init cats R ps = .ok ⟨cats, R, ps, min (∑ k ∈ Finset.range R.length, u k) b⟩ ∧
      (∀ k < R.length, (∀ c, Owns R k c → u k ≤ sizeAt cats c) ∧ ∃ c, Owns R k c ∧ u k = sizeAt cats c) ∧
      ((∀ c, SharedByAll R c → b ≤ sizeAt cats c) ∧ ((∃ c, SharedByAll R c ∧ b = sizeAt cats c) ∨ (¬ (∃ c, SharedByAll R c) ∧ b = 100000000))) := by
  obtain ⟨a, ha1, ha⟩ := analyze_ok hR
  obtain ⟨xs, h1, h2, h3⟩ := supported_ok (cats := cats) (us := a.unique) (by
    intro u hu he
    obtain ⟨k, hk, rfl⟩ := List.getElem_of_mem hu
    have hk' : k < R.length := by rw [← ha.length]; exact hk
    obtain ⟨c, hc⟩ := hown k hk'
    have := (ha.mem_unique hR hk').2 hc
    rw [List.getD_eq_getElem?_getD, List.getElem?_eq_getElem hk] at this
    simp [he] at this)
  have hsum : xs.sum = ∑ k ∈ Finset.range R.length, xs.getD k 0 := by
    rw [← ha.length, ← h2]
    have : ∀ l : List ℕ, l.sum = ∑ k ∈ Finset.range l.length, l.getD k 0 := by
      intro l
      induction l with
      | nil => simp
      | cons x l ih => rw [List.length_cons, Finset.sum_range_succ', List.sum_cons, ih]; simp [add_comm]
    exact this xs
  obtain ⟨b, hb1, hb2, hb3⟩ : ∃ b, supportedByCommon cats a.common = .ok b ∧
      (∀ c, SharedByAll R c → b ≤ sizeAt cats c) ∧ ((∃ c, SharedByAll R c ∧ b = sizeAt cats c) ∨ (¬ (∃ c, SharedByAll R c) ∧ b = 100000000)) := by
    by_cases hc : a.common = []
    · have hno : ¬ ∃ c, SharedByAll R c := by
        rintro ⟨c, h⟩
        have := (ha.mem_common hR).2 h
        rw [hc] at this; simp at this
      exact ⟨100000000, by simp [hc, supportedByCommon], fun c h => absurd ⟨c, h⟩ hno, Or.inr ⟨hno, rfl⟩⟩
    · rcases pyMinNat_spec (a.common.map (sizeAt cats)) with ⟨e, -⟩ | ⟨x, e1, e2, e3⟩
      · exact absurd (List.map_eq_nil_iff.1 e) hc
      · obtain ⟨c, hc', rfl⟩ := List.mem_map.1 e2
        refine ⟨_, by rw [supportedByCommon, if_pos (List.length_pos_iff.2 hc), e1], fun d hd => e3 _ (List.mem_map_of_mem ((ha.mem_common hR).2 hd)), Or.inl ⟨c, (ha.mem_common hR).1 hc', rfl⟩⟩
  refine ⟨fun k => xs.getD k 0, b, ?_, ?_, hb2, hb3⟩
  · simp only [Trade.init, hl, ha1, bind, Except.bind, hb1, h1, hsum]
  · intro k hk
    obtain ⟨e1, c, hc, e2⟩ := h3 k (by rw [ha.length]; exact hk)
    exact ⟨fun c hc => e1 c ((ha.mem_unique hR hk).2 hc), c, (ha.mem_unique hR hk).1 hc, e2⟩

/-! ## Deleting a recipe -/

/-- The old number of the recipe that has number `j` after recipe `k` was deleted. -/
def old (k j : ℕ) : ℕ := if j < k then j else j + 1

theorem uses_erase (R : List (List ℕ)) (k j c : ℕ) : Uses (R.eraseIdx k) j c ↔ Uses R (old k j) c := by
  unfold Uses old
  rw [List.getD_eq_getElem?_getD (l := R.eraseIdx k), List.getElem?_eraseIdx]
  split <;> simp [List.getD_eq_getElem?_getD]

theorem old_lt {R : List (List ℕ)} {k j : ℕ} (hk : k < R.length) (hj : j < (R.eraseIdx k).length) : old k j < R.length := by
  rw [List.length_eraseIdx_of_lt hk] at hj
  unfold old; split <;> omega

theorem old_inj {k i j : ℕ} (h : old k i = old k j) : i = j := by
  unfold old at h; split at h <;> split at h <;> omega

theorem owns_erase {R : List (List ℕ)} {k j c : ℕ} (hk : k < R.length) (h : Owns R (old k j) c) : Owns (R.eraseIdx k) j c := by
  refine ⟨(uses_erase R k j c).2 h.1, fun i hi hu => ?_⟩
  exact old_inj (h.2 (old k i) (old_lt hk hi) ((uses_erase R k i c).1 hu))

theorem allOwn_erase {R : List (List ℕ)} {k : ℕ} (hk : k < R.length) (h : AllOwn R) : AllOwn (R.eraseIdx k) := by
  intro j hj
  obtain ⟨c, hc⟩ := h (old k j) (old_lt hk hj)
  exact ⟨c, owns_erase hk hc⟩

theorem multi_erase {n : ℕ} {R : List (List ℕ)} {k : ℕ} (hk : k < R.length) (h2 : 2 ≤ R.length) (h : MultiRecipes n R) : MultiRecipes n (R.eraseIdx k) := by
  have hsub : ∀ r ∈ R.eraseIdx k, r ∈ R := fun r hr => List.mem_of_mem_eraseIdx hr
  refine ⟨?_, fun r hr => h.length r (hsub r hr), fun r hr => h.binary r (hsub r hr), fun c hc => ?_⟩
  · intro e
    have := List.length_eraseIdx_of_lt hk
    rw [e] at this; simp at this; omega
  · rcases h.shared c hc with h1 | h1
    · left
      intro i hi j hj ui uj
      exact old_inj (h1 _ (old_lt hk hi) _ (old_lt hk hj) ((uses_erase R k i c).1 ui) ((uses_erase R k j c).1 uj))
    · right
      intro j hj
      exact (uses_erase R k j c).2 (h1 _ (old_lt hk hj))

theorem shared_erase {n : ℕ} {R : List (List ℕ)} {k : ℕ} (hk : k < R.length) (h : MultiRecipes n R) {c : ℕ} (hc : SharedByAll (R.eraseIdx k) c) : SharedByAll R c := by
  have hl := List.length_eraseIdx_of_lt hk
  have h1 := hc.1
  refine ⟨by omega, ?_⟩
  have u0 := (uses_erase R k 0 c).1 (hc.2 0 (by omega))
  have u1 := (uses_erase R k 1 c).1 (hc.2 1 (by omega))
  have l0 := old_lt hk (show 0 < (R.eraseIdx k).length by omega)
  have l1 := old_lt hk (show 1 < (R.eraseIdx k).length by omega)
  rcases h.shared c (uses_lt h.length l0 u0) with h2 | h2
  · have := old_inj (h2 _ l0 _ l1 u0 u1); omega
  · exact h2

/-! ## The start -/

theorem init_eq {n : ℕ} {R : List (List ℕ)} (h : MultiRecipes n R) (p0 : List ℚ) : SimultaneousAscendingPriceVectors.init R p0 = .ok ⟨R, p0, none⟩ := by
  cases R with
  | nil => exact absurd rfl h.nonempty
  | cons r rs =>
    rw [SimultaneousAscendingPriceVectors.init, if_neg]
    simp only [List.any_eq_true, decide_eq_true_eq, not_exists, not_and, not_not]
    intro q hq
    rw [h.length q hq, h.length r (by simp)]

theorem sum_neg {r : List ℕ} {p : List ℚ} (hl : r.length = p.length) {c : ℕ} (hc : 0 < r.getD c 0) (hp : ∀ x ∈ p, x ≤ -MAX_VALUE) : recipeSum r p < 0 := by
  have hM := max_value_pos
  have hle : ∀ (r : List ℕ) (p : List ℚ), (∀ x ∈ p, x ≤ -MAX_VALUE) → recipeSum r p ≤ 0 := by
    intro r
    induction r with
    | nil => intro p _; simp [recipeSum]
    | cons a r ih =>
      intro p hp
      cases p with
      | nil => simp [recipeSum]
      | cons x p =>
        have h1 := ih p (fun y hy => hp y (by simp [hy]))
        have h2 := hp x (by simp)
        have h3 : (a : ℚ) * x ≤ 0 := mul_nonpos_of_nonneg_of_nonpos (by positivity) (by linarith)
        simp only [recipeSum, List.zipWith_cons_cons, List.sum_cons] at h1 ⊢
        linarith
  induction r generalizing p c with
  | nil => simp at hc
  | cons a r ih =>
    cases p with
    | nil => simp at hl
    | cons x p =>
      have h2 := hp x (by simp)
      have h4 := hle r p (fun y hy => hp y (by simp [hy]))
      cases c with
      | zero =>
        have ha : 0 < (a : ℚ) := by exact_mod_cast (by simpa using hc : 0 < a)
        have h3 : (a : ℚ) * x < 0 := mul_neg_of_pos_of_neg ha (by linarith)
        simp only [recipeSum, List.zipWith_cons_cons, List.sum_cons] at h4 ⊢
        linarith
      | succ c =>
        have h1 := ih (p := p) (by simpa using hl) (c := c) (by simpa using hc) (fun y hy => hp y (by simp [hy]))
        have h3 : (a : ℚ) * x ≤ 0 := mul_nonpos_of_nonneg_of_nonpos (by positivity) (by linarith)
        simp only [recipeSum, List.zipWith_cons_cons, List.sum_cons] at h1 ⊢
        linarith

theorem start {m : Market} {R : List (List ℕ)} (hR : MultiRecipes m.numCategories R) (hown : AllOwn R) {p0 : List ℚ} (hp : InitialPrices R (-MAX_VALUE) p0)
    (hval : ∀ l ∈ m.valueLists, ∀ x ∈ l, -MAX_VALUE ≤ x) :
    ∃ s < 0, Inv m.numCategories R m.sorted m.sorted ⟨R, p0, none⟩ s := by
  obtain ⟨h1, h2, s, h3⟩ := hp
  have hpos : 0 < R.length := List.length_pos_iff.2 hR.nonempty
  have hmem := getD_mem hpos
  obtain ⟨c, hc⟩ := hown 0 hpos
  have hlen : p0.length = m.numCategories := by rw [← h1 _ hmem, hR.length _ hmem]
  have hM := max_value_pos
  have hprice : ∀ i < m.numCategories, p0.getD i 0 ≤ -MAX_VALUE := fun i hi => getD_le_of_forall h2 (by omega)
  refine ⟨s, ?_, m.sorted_length, rfl, ?_, rfl, hlen, h3, ?_, ?_, ?_, ?_⟩
  · rw [← h3 _ hmem]
    exact sum_neg (h1 _ hmem) hc.1 h2
  · intro i; rw [valuesAt_sorted]; exact sortDesc_sorted _
  · intro i x hx
    rw [valuesAt_sorted, mem_sortDesc] at hx
    by_cases hil : i < m.valueLists.length
    · refine (hprice i (by simpa [Market.valueLists, Market.numCategories] using hil)).trans (hval (m.valueLists.getD i []) ?_ x hx)
      rw [List.getD_eq_getElem?_getD, List.getElem?_eq_getElem hil]; exact List.getElem_mem hil
    · rw [List.getD_eq_getElem?_getD, List.getElem?_eq_none (by omega)] at hx; simp at hx
  · intro i
    exact ⟨(valuesAt m.sorted i).length, by simp, by simp⟩
  · intro i hi; exact Or.inl (hprice i hi)
  · intro d hd
    exact hprice d (uses_lt hR.length hpos (hd.2 0 hpos))

theorem total_sorted (m : Market) : total m.sorted = m.numAgents := by
  have h1 : m.sorted.map AgentCategory.size = m.valueLists.map List.length := by
    unfold Market.sorted Market.valueLists
    simp [AgentCategory.size, AgentCategory.clone, AgentCategory.init, sortDesc_length]
  unfold total Market.numAgents
  rw [h1]

/-- What is returned: a trade for some of the recipes. -/
def Returned (m : Market) (R : List (List ℕ)) (t : Trade) : Prop :=
  ∃ R' cats v s, R'.Sublist R ∧ MultiRecipes m.numCategories R' ∧ AllOwn R' ∧ Trade.init cats R' v.prices = .ok t ∧ Inv m.numCategories R' m.sorted cats v s ∧
    (s = 0 ∨ ∀ k < R'.length, ∀ c, Owns R' k c → sizeAt cats c = 0)

/-- The auction for recipes that are accepted. -/
theorem auctionLoop_eq {m : Market} {R : List (List ℕ)} (hR : MultiRecipes m.numCategories R) (hown : AllOwn R) (order : List ℕ → List ℕ) (f : List (List ℕ) → ℚ → Py (List ℚ))
    (fuel calls : ℕ) :
    ∃ a, Analyzed m.numCategories R a ∧ auctionLoop order f m fuel (calls + 1) R = (do
        let p0 ← f R (-MAX_VALUE)
        match ← loop order R.length a fuel m.sorted ⟨R, p0, none⟩ with
        | none => .ok none
        | some (.trade cats ps) => do
          let t ← Trade.init cats R ps
          .ok (some t)
        | some (.restart k) => if R.length = 1 then .ok none else auctionLoop order f m fuel calls (R.eraseIdx k)) := by
  obtain ⟨a, ha1, ha⟩ := analyze_ok hR
  have hvalid : validRecipes m.numCategories R = true := validRecipes_iff.2 ⟨hR.nonempty, hR.length, hR.binary⟩
  have hpos : 0 < R.length := List.length_pos_iff.2 hR.nonempty
  have hcat : m.categories ≠ [] := by
    obtain ⟨c, hc⟩ := hown 0 hpos
    have := uses_lt hR.length hpos hc.1
    intro e; simp [Market.numCategories, e] at this
  refine ⟨a, ha, ?_⟩
  rw [auctionLoop, if_neg (by simp [hvalid]), ha1, Market.clone_eq hcat]
  simp only [bind, Except.bind]
  cases f R (-MAX_VALUE) with
  | error e => rfl
  | ok p0 => simp only [init_eq hR]; rfl

/-- How the auction ends. -/
theorem auction_end {order : List ℕ → List ℕ} (ho : ∀ l, (order l).Perm l) {f : List (List ℕ) → ℚ → Py (List ℚ)} (hf : PriceContract f) {m : Market}
    (hval : ∀ l ∈ m.valueLists, ∀ x ∈ l, -MAX_VALUE ≤ x) {R : List (List ℕ)} (hR : MultiRecipes m.numCategories R) (hown : AllOwn R) (fuel calls : ℕ) (hcalls : R.length ≤ calls) :
    (∃ e R', R'.Sublist R ∧ MultiRecipes m.numCategories R' ∧ AllOwn R' ∧ f R' (-MAX_VALUE) = .error e ∧ auctionLoop order f m fuel calls R = .error e) ∨
    (fuel ≤ m.numAgents ∧ auctionLoop order f m fuel calls R = .ok none) ∨
    ((∃ c, SharedByAll R c) ∧ auctionLoop order f m fuel calls R = .error .valueError) ∨
    (∃ t, auctionLoop order f m fuel calls R = .ok (some t) ∧ Returned m R t) := by
  induction calls generalizing R with
  | zero =>
    exact absurd (List.length_eq_zero_iff.1 (by omega)) hR.nonempty
  | succ calls ih =>
    obtain ⟨a, ha, heq⟩ := auctionLoop_eq hR hown order f fuel calls
    rw [heq]
    cases hp : f R (-MAX_VALUE) with
    | error e => exact Or.inl ⟨e, R, List.Sublist.refl _, hR, hown, hp, rfl⟩
    | ok p0 =>
      obtain ⟨s, hs, hinv⟩ := start hR hown (hf _ _ _ hp) hval
      simp only [bind, Except.bind]
      rcases loop_end ho hR hown ha fuel hinv hs with ⟨h1, h2⟩ | ⟨h1, h2⟩ | ⟨k, hk, h2, h3⟩ | ⟨cats', v', s', h1, h2, h3⟩
      · exact Or.inr (Or.inl ⟨by rw [← total_sorted]; exact h1, by rw [h2]⟩)
      · exact Or.inr (Or.inr (Or.inl ⟨h1, by rw [h2]⟩))
      · rw [h3]
        simp only
        rw [if_neg (by omega)]
        have hlen := List.length_eraseIdx_of_lt hk
        rcases ih (multi_erase hk h2 hR) (allOwn_erase hk hown) (by omega) with ⟨e, R', e0, e1, e2, e3, e4⟩ | e | ⟨⟨c, hc⟩, e2⟩ | ⟨t, e1, R', cats, v, s', e2, e3, e4, e5, e6, e7⟩
        · exact Or.inl ⟨e, R', e0.trans (List.eraseIdx_sublist _ _), e1, e2, e3, e4⟩
        · exact Or.inr (Or.inl e)
        · exact Or.inr (Or.inr (Or.inl ⟨⟨c, shared_erase hk hR hc⟩, e2⟩))
        · exact Or.inr (Or.inr (Or.inr ⟨t, e1, R', cats, v, s', e2.trans (List.eraseIdx_sublist _ _), e3, e4, e5, e6, e7⟩))
      · rw [h1]
        obtain ⟨u, b, hi, -⟩ := init_ok hR hown h2.len v'.prices
        refine Or.inr (Or.inr (Or.inr ⟨_, by simp only [hi], R, cats', v', s', List.Sublist.refl _, hR, hown, hi, h2, h3⟩))

end Auctions.Multirecipe
