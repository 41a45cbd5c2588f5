import Verif.Proofs.OldPrices
import Verif.Props.Prices

set_option autoImplicit false

/-!
# C90 — the old price-vectors and their rewrite
-/

namespace Auctions.Props

open Auctions Spec OldPriceVectors

/-- **C90**, the table of prices. It never finds two prices for a category: it has the price of every category that is in some recipe, and `None` for the others. -/
theorem old_map_prices {v : OldPriceVectors} (hne : v.psRecipes ≠ []) (hlen : ∀ r ∈ v.psRecipes, r.length = v.prices.length) :
    ∃ table, v.mapCategoryIndexToPrice = .ok table ∧ table.length = v.prices.length ∧
      ∀ j < v.prices.length, table.getD j none = if (∀ r ∈ v.psRecipes, r.getD j 0 = 0) then none else some (v.prices.getD j 0) := by
  have hn : (v.psRecipes.headD []).length = v.prices.length := by
    obtain ⟨r, rs, hrs⟩ := List.exists_cons_of_ne_nil hne
    rw [hrs]
    exact hlen r (by simp [hrs])
  obtain ⟨t, h1, h2, h3, h4⟩ := mapLoop_ok (prices := v.prices) rfl v.psRecipes hlen (result := List.replicate v.prices.length none) (by simp) (by
    intro j q hq
    rw [List.getElem?_replicate] at hq
    split_ifs at hq
    simp at hq)
  refine ⟨t, ?_, h2, fun j hj => ?_⟩
  · unfold mapCategoryIndexToPrice
    rw [hn]; exact h1
  · have h5 := h4 j
    have h6 := h3 j
    have hlt : j < t.length := by omega
    rw [List.getElem?_eq_getElem hlt] at h5 h6
    rw [List.getD_eq_getElem?_getD, List.getElem?_eq_getElem hlt, Option.getD_some]
    have h7 : (List.replicate v.prices.length (none : Option ℚ))[j]? = some none := by simp [hj]
    rw [h7] at h5
    generalize t[j] = x at *
    split_ifs with hu
    · have := h5.2 ⟨rfl, hu⟩
      simpa using this
    · cases x with
      | none => exact absurd (h5.1 rfl).2 hu
      | some q =>
        have := h6 q rfl
        rw [List.getD_eq_getElem?_getD, this]
        rfl

/-- What holds before an increase: as many prices as categories, recipes of zeros and ones, and the same sum for all recipes. -/
structure OldFine (v : OldPriceVectors) (s : ℚ) : Prop where
  nonempty : v.psRecipes ≠ []
  length : ∀ r ∈ v.psRecipes, r.length = v.prices.length
  binary : ∀ r ∈ v.psRecipes, ∀ x ∈ r, x = 0 ∨ x = 1
  balanced : ∀ r ∈ v.psRecipes, recipeSum r v.prices = s

theorem OldFine.chosen {v : OldPriceVectors} {s : ℚ} (h : OldFine v s) {incs per : List (ℕ × ℚ)} (hp : PerRecipe v.psRecipes incs per) :
    List.Forall₂ (Chosen v.prices s incs) v.psRecipes per := by
  have key : ∀ (rs : List (List ℕ)) (xs : List (ℕ × ℚ)), (∀ r ∈ rs, r ∈ v.psRecipes) →
      List.Forall₂ (fun r x => x ∈ incs ∧ r.getD x.1 0 = 1 ∧ ∀ y ∈ incs, r.getD y.1 0 = 1 → y = x) rs xs → List.Forall₂ (Chosen v.prices s incs) rs xs := by
    intro rs xs hrs hf
    induction hf with
    | nil => exact .nil
    | @cons r x rs xs h1 _ ih =>
      exact .cons ⟨⟨h.length r (hrs r (by simp)), h.binary r (hrs r (by simp)), h.balanced r (hrs r (by simp))⟩, h1⟩ (ih fun r hr => hrs r (by simp [hr]))
  exact key _ _ (fun r hr => hr) hp.one

/-- Every increase belongs to a recipe. -/
theorem chosen_mem {p0 : List ℚ} {s : ℚ} {incs : List (ℕ × ℚ)} {rs : List (List ℕ)} {xs : List (ℕ × ℚ)} (h : List.Forall₂ (Chosen p0 s incs) rs xs) {x : ℕ × ℚ} (hx : x ∈ xs) :
    ∃ r ∈ rs, Chosen p0 s incs r x := by
  induction h with
  | nil => simp at hx
  | @cons r y rs xs h1 _ ih =>
    rcases List.mem_cons.1 hx with rfl | hx
    · exact ⟨r, by simp, h1⟩
    · obtain ⟨r', hr', h2⟩ := ih hx
      exact ⟨r', by simp [hr'], h2⟩

theorem chosen_mem' {p0 : List ℚ} {s : ℚ} {incs : List (ℕ × ℚ)} {rs : List (List ℕ)} {xs : List (ℕ × ℚ)} (h : List.Forall₂ (Chosen p0 s incs) rs xs) {r : List ℕ} (hr : r ∈ rs) :
    ∃ x ∈ xs, Chosen p0 s incs r x := by
  induction h with
  | nil => simp at hr
  | @cons r' y rs xs h1 _ ih =>
    rcases List.mem_cons.1 hr with rfl | hr
    · exact ⟨y, by simp, h1⟩
    · obtain ⟨x, hx, h2⟩ := ih hr
      exact ⟨x, by simp [hx], h2⟩

/-- The old `increase_prices` in closed form: `d` is the smallest requested raise. -/
theorem old_closed {v : OldPriceVectors} {s : ℚ} (h : OldFine v s) {incs per : List (ℕ × ℚ)} (hp : PerRecipe v.psRecipes incs per) :
    ∃ d bound, (∃ x ∈ incs, x.2 - v.prices.getD x.1 0 = d) ∧ (∀ x ∈ incs, d ≤ x.2 - v.prices.getD x.1 0) ∧
      bound = (if -(1 / 100000000000) < min 0 (s + d) ∧ min 0 (s + d) < 1 / 100000000000 then 0 else min 0 (s + d)) ∧
      ∃ q, v.increasePrices per = .ok ⟨v.psRecipes, q, some (if bound = 0 then .stoppedAtZeroSum else .stoppedAtAgentValue)⟩ ∧ q.length = v.prices.length ∧
        (∀ x ∈ incs, q.getD x.1 0 = min x.2 (v.prices.getD x.1 0 + (bound - s))) ∧ (∀ j < v.prices.length, j ∉ incs.map Prod.fst → q.getD j 0 = v.prices.getD j 0) ∧
        ∀ r ∈ v.psRecipes, ∃ x ∈ incs, recipeSum r q = s + min (x.2 - v.prices.getD x.1 0) (bound - s) := by
  have hc := h.chosen hp
  have hlen : per.length = v.psRecipes.length := hp.one.length_eq.symm
  have hper : per ≠ [] := by
    intro h0
    rw [h0, List.length_nil] at hlen
    exact h.nonempty (List.length_eq_zero_iff.1 hlen.symm)
  have hsub : ∀ x ∈ per, x ∈ incs := fun x hx => by
    obtain ⟨r, -, h2⟩ := chosen_mem hc hx
    exact h2.2.1
  obtain ⟨m, hm1, hm2, hm3⟩ := pyMin_spec (l := per.map (fun x => s + (x.2 - v.prices.getD x.1 0))) (by simpa using hper)
  obtain ⟨x0, hx0, hx0m⟩ := List.mem_map.1 hm2
  have hd : s + (m - s) = m := by ring
  set d := m - s with hdd
  set bound : ℚ := if -(1 / 100000000000) < min 0 (s + d) ∧ min 0 (s + d) < 1 / 100000000000 then 0 else min 0 (s + d) with hbound
  refine ⟨d, bound, ⟨x0, hsub x0 hx0, by linarith⟩, ?_, rfl, ?_⟩
  · intro x hx
    have := hm3 _ (List.mem_map.2 ⟨x, hp.all x hx, rfl⟩)
    linarith
  -- the category determines the increase
  have huniq : ∀ x ∈ incs, ∀ y ∈ incs, x.1 = y.1 → x = y := by
    intro x hx y hy hxy
    obtain ⟨r, -, h2⟩ := chosen_mem hc (hp.all y hy)
    refine h2.2.2.2 x hx ?_
    rw [hxy]; exact h2.2.2.1
  set e : ℕ → ℚ := fun j => min (((incs.find? (fun y => y.1 = j)).getD (0, 0)).2 - v.prices.getD j 0) (bound - s) with he
  have he' : ∀ y ∈ incs, e y.1 = min (y.2 - v.prices.getD y.1 0) (bound - s) := by
    intro y hy
    have hf : incs.find? (fun z => z.1 = y.1) = some y := by
      cases hf : incs.find? (fun z => z.1 = y.1) with
      | none =>
        have := List.find?_eq_none.1 hf y hy
        simp at this
      | some z =>
        have h1 := List.find?_some hf
        have h2 := List.mem_of_find?_eq_some hf
        rw [huniq z h2 y hy (by simpa using h1)]
    simp only [he, hf, Option.getD_some]
  obtain ⟨q, g1, g2, g3⟩ := raiseLoop_eq he' hc (D := []) (q := v.prices) (by simp) rfl (by simp)
  simp only [List.nil_append] at g3
  obtain ⟨table, ht, -⟩ := old_map_prices h.nonempty h.length
  have hmem : ∀ x ∈ incs, x.1 ∈ per.map Prod.fst := fun x hx => List.mem_map.2 ⟨x, hp.all x hx, rfl⟩
  refine ⟨q, ?_, g2, ?_, ?_, ?_⟩
  · unfold increasePrices
    rw [if_neg (by rw [hlen]; simp), ht, newSums_eq hc]
    simp only [bind, Except.bind, roundedMin, hm1]
    rw [hd] at hbound
    rw [← hbound, g1]
  · intro x hx
    obtain ⟨r, -, h2⟩ := chosen_mem hc (hp.all x hx)
    rw [g3 x.1 h2.lt, if_pos (hmem x hx), he' x hx, ← min_add_add_left]
    congr 1
    ring
  · intro j hj hn
    rw [g3 j hj, if_neg, add_zero]
    intro hjm
    obtain ⟨x, hx, rfl⟩ := List.mem_map.1 hjm
    exact hn (List.mem_map.2 ⟨x, hsub x hx, rfl⟩)
  · intro r hr
    obtain ⟨x, hx, h2⟩ := chosen_mem' hc hr
    refine ⟨x, h2.2.1, ?_⟩
    rw [h2.sum g2 (D := per.map Prod.fst) (e := e) (fun c hc => by
      obtain ⟨y, hy, rfl⟩ := List.mem_map.1 hc
      exact ⟨y, hsub y hy, rfl⟩) g3, if_pos (hmem x h2.2.1), he' x h2.2.1]

/-- **C90**. When each recipe has exactly one of the increases, the old class succeeds, the sums of all recipes stay non-positive and equal up to `10^-11`, no price is raised above its target,
and the prices of the other categories do not change. -/
theorem old_raise {v : OldPriceVectors} {s : ℚ} (h : OldFine v s) {incs per : List (ℕ × ℚ)} (hp : PerRecipe v.psRecipes incs per) :
    ∃ v', v.increasePrices per = .ok v' ∧ v'.psRecipes = v.psRecipes ∧ v'.prices.length = v.prices.length ∧
      (∀ r ∈ v'.psRecipes, recipeSum r v'.prices ≤ 0 ∧ ∀ r' ∈ v'.psRecipes, recipeSum r v'.prices - recipeSum r' v'.prices < 1 / 100000000000) ∧
      (v'.status = some .stoppedAtZeroSum ↔ ∀ r ∈ v'.psRecipes, -(1 / 100000000000) < recipeSum r v'.prices) ∧
      (v'.status ≠ some .stoppedAtZeroSum → ∃ s', OldFine v' s') ∧
      (∀ x ∈ incs, v'.prices.getD x.1 0 ≤ x.2) ∧ (∀ j < v.prices.length, j ∉ incs.map Prod.fst → v'.prices.getD j 0 = v.prices.getD j 0) := by
  obtain ⟨d, bound, ⟨x0, hx0, hd0⟩, hd, hb, q, hq, hql, hqx, hqj, hqr⟩ := old_closed h hp
  have hb0 : bound ≤ 0 := by rw [hb]; split_ifs; exacts [le_refl _, min_le_left _ _]
  -- every sum is between the rounded and the exact minimum
  have hsum : ∀ r ∈ v.psRecipes, recipeSum r q ≤ bound ∧ min 0 (s + d) ≤ recipeSum r q := by
    intro r hr
    obtain ⟨x, hx, e⟩ := hqr r hr
    rw [e]
    constructor
    · have := min_le_right (x.2 - v.prices.getD x.1 0) (bound - s)
      linarith
    · have h1 := hd x hx
      rw [← min_add_add_left]
      refine le_min ?_ ?_
      · exact le_trans (min_le_right _ _) (by linarith)
      · have : min 0 (s + d) ≤ bound := by rw [hb]; split_ifs; exacts [min_le_left _ _, le_refl _]
        linarith
  -- somebody is at the exact minimum
  refine ⟨_, hq, rfl, hql, ?_, ?_, ?_, fun x hx => by rw [hqx x hx]; exact min_le_left _ _, hqj⟩
  · intro r hr
    refine ⟨(hsum r hr).1.trans hb0, fun r' hr' => ?_⟩
    have h1 := (hsum r hr).1
    have h2 := (hsum r' hr').2
    show recipeSum r q - recipeSum r' q < _
    rw [hb] at h1
    split_ifs at h1 with hc
    · have := hc.1
      linarith
    · have : (0 : ℚ) < 1 / 100000000000 := by norm_num
      linarith
  · show (some (if bound = 0 then PriceStatus.stoppedAtZeroSum else PriceStatus.stoppedAtAgentValue) = some .stoppedAtZeroSum ↔ ∀ r ∈ v.psRecipes, -(1 / 100000000000) < recipeSum r q)
    by_cases hc : -(1 / 100000000000) < min 0 (s + d) ∧ min 0 (s + d) < 1 / 100000000000
    · rw [if_pos hc] at hb
      rw [if_pos hb]
      refine iff_of_true rfl fun r hr => lt_of_lt_of_le hc.1 (hsum r hr).2
    · rw [if_neg hc] at hb
      have hle : min 0 (s + d) ≤ -(1 / 100000000000) := by
        by_contra hlt
        have : min 0 (s + d) ≤ 0 := min_le_left _ _
        exact hc ⟨not_le.1 hlt, lt_of_le_of_lt this (by norm_num)⟩
      have hne : bound ≠ 0 := by
        rw [hb]
        intro h0
        rw [h0] at hle
        norm_num at hle
      rw [if_neg hne]
      refine iff_of_false (by simp) (fun hall => ?_)
      obtain ⟨r, hr⟩ := List.exists_mem_of_ne_nil _ h.nonempty
      have h1 := hall r hr
      have h2 := (hsum r hr).1
      rw [hb] at h2
      linarith
  · intro hst
    have hne : bound ≠ 0 := by
      intro h0
      rw [if_pos h0] at hst
      exact hst rfl
    have hbe : bound = min 0 (s + d) := by
      rw [hb]
      split_ifs with hc
      · rw [if_pos hc] at hb; exact absurd hb hne
      · rfl
    refine ⟨bound, h.nonempty, fun r hr => (h.length r hr).trans hql.symm, h.binary, fun r hr => le_antisymm (hsum r hr).1 ?_⟩
    rw [hbe]; exact (hsum r hr).2

/-- **C90**. The rewritten class (`prices.py`) gives the same prices and the same status, unless the sum it reaches is closer to 0 than `10^-11` but not 0. -/
theorem old_raise_like_new {v : OldPriceVectors} {s : ℚ} (h : OldFine v s) {incs per : List (ℕ × ℚ)} (hp : PerRecipe v.psRecipes incs per) :
    ∃ w, SimultaneousAscendingPriceVectors.increasePrices ⟨v.psRecipes, v.prices, v.status⟩ incs = .ok w ∧
      ((w.priceSum = 0 ∨ w.priceSum ≤ -(1 / 100000000000)) → v.increasePrices per = .ok ⟨w.psRecipes, w.prices, w.status⟩) := by
  have hc := h.chosen hp
  have hwf : WellFormed ⟨v.psRecipes, v.prices, v.status⟩ := ⟨h.nonempty, h.length, h.binary⟩
  have hidx : ∀ inc ∈ incs, inc.1 < v.prices.length := by
    intro x hx
    obtain ⟨r, -, h2⟩ := chosen_mem hc (hp.all x hx)
    exact h2.lt
  rcases simultaneous_raise ⟨v.psRecipes, v.prices, v.status⟩ hwf h.balanced incs 0 hidx with ⟨⟨r, hr, hne⟩, -⟩ | ⟨-, w, d', hw, ⟨x1, hx1, hd1⟩, hd2, hwf', hrs, hbal, hz, ha, hj, -⟩
  · exfalso
    apply hne
    obtain ⟨x, hx, h2⟩ := chosen_mem' hc hr
    have hfil : incs.filter (fun inc => r[inc.1]? = some 1) = incs.filter (fun inc => inc = x) := by
      refine List.filter_congr fun y hy => ?_
      rw [decide_eq_decide]
      constructor
      · intro hy1
        refine h2.2.2.2 y hy ?_
        rw [List.getD_eq_getElem?_getD, hy1]; rfl
      · rintro rfl
        have := h2.2.2.1
        rw [List.getD_eq_getElem?_getD] at this
        cases hg : r[y.1]? with
        | none => rw [hg] at this; simp at this
        | some z => rw [hg] at this; simpa using this
    rw [hfil]
    exact length_filter_eq_one hp.nodup h2.2.1
  · refine ⟨w, hw, fun hsmall => ?_⟩
    obtain ⟨d, bound, ⟨x0, hx0, hd0⟩, hd, hb, q, hq, hql, hqx, hqj, hqr⟩ := old_closed h hp
    simp only at hd1 hd2 hrs hj hwf'
    have hdd : d' = d := by
      have h1 := hd x1 hx1
      have h2 := hd2 x0 hx0
      rw [hd1] at h1
      rw [hd0] at h2
      exact le_antisymm h2 h1
    subst hdd
    have hps : w.priceSum = min 0 (s + d') := by
      unfold SimultaneousAscendingPriceVectors.priceSum
      rw [dot_eq]
      obtain ⟨r, rs, hrs'⟩ := List.exists_cons_of_ne_nil h.nonempty
      have := hbal r (by rw [hrs, hrs']; simp)
      rw [hrs, hrs']
      exact this
    rw [hps] at hsmall
    have hbe : bound = min 0 (s + d') := by
      rw [hb]
      split_ifs with hcnd
      · rcases hsmall with h0 | h0
        · exact h0.symm
        · exact absurd hcnd.1 (not_lt.2 h0)
      · rfl
    have hwl : w.prices.length = v.prices.length := by
      obtain ⟨r, hr⟩ := List.exists_mem_of_ne_nil _ h.nonempty
      rw [← h.length r hr]
      exact (hwf'.length r (by rw [hrs]; exact hr)).symm
    rw [hq, hrs]
    congr 2
    · apply List.ext_getElem
      · omega
      · intro j h1 h2
        have e1 : q[j] = q.getD j 0 := by simp [List.getD_eq_getElem?_getD, h1]
        have e2 : w.prices[j] = w.prices.getD j 0 := by simp [List.getD_eq_getElem?_getD, h2]
        rw [e1, e2, hj j (by omega)]
        by_cases hm : j ∈ incs.map Prod.fst
        · obtain ⟨x, hx, rfl⟩ := List.mem_map.1 hm
          have hfil : (incs.filter (fun inc => inc.1 = x.1)).length = 1 := by
            have hcongr : incs.filter (fun inc => inc.1 = x.1) = incs.filter (fun inc => inc = x) := by
              refine List.filter_congr fun y hy => ?_
              rw [decide_eq_decide]
              constructor
              · intro hyx
                obtain ⟨r, -, h2⟩ := chosen_mem hc (hp.all x hx)
                exact h2.2.2.2 y hy (by rw [hyx]; exact h2.2.2.1)
              · rintro rfl; rfl
            rw [hcongr]
            exact length_filter_eq_one hp.nodup hx
          rw [hqx x hx, hfil, hbe]
          have h3 := hd x hx
          have h4 : min d' (0 - s) = min 0 (s + d') - s := by
            rcases le_total 0 (s + d') with h5 | h5
            · rw [min_eq_left h5, min_eq_right (by linarith)]
            · rw [min_eq_right h5, min_eq_left (by linarith)]; ring
          rw [h4, Nat.cast_one, mul_one]
          refine min_eq_right ?_
          have := min_le_right 0 (s + d')
          linarith
        · rw [hqj j (by omega) hm]
          have : (incs.filter (fun inc => inc.1 = j)).length = 0 := by
            rw [List.length_eq_zero_iff, List.filter_eq_nil_iff]
            intro y hy hyj
            exact hm (List.mem_map.2 ⟨y, hy, by simpa using hyj⟩)
          rw [this]; simp
    · rw [hbe]
      by_cases h0 : 0 ≤ s + d'
      · rw [if_pos (min_eq_left h0), hz.2 h0]
      · rw [if_neg, ha.2 (not_le.1 h0)]
        rw [min_eq_right (not_le.1 h0).le]
        exact (not_le.1 h0).ne

/-- The doctest of the old class: first both recipes raise the buyers, then the seller and the first half-seller, then the seller and the second half-seller; and the rewrite. -/
example :
    let v : OldPriceVectors := ⟨[[1, 1, 0, 0], [1, 0, 1, 1]], [-5000, -5000, -2500, -2500], none⟩
    OldFine v (-10000) ∧ PerRecipe v.psRecipes [(0, 10)] [(0, 10), (0, 10)] ∧
    v.increasePrices [(0, 10), (0, 10)] = .ok ⟨v.psRecipes, [10, -5000, -2500, -2500], some .stoppedAtAgentValue⟩ ∧
    SimultaneousAscendingPriceVectors.increasePrices ⟨v.psRecipes, v.prices, none⟩ [(0, 10)] = .ok ⟨v.psRecipes, [10, -5000, -2500, -2500], some .stoppedAtAgentValue⟩ ∧
    PerRecipe v.psRecipes [(1, -80), (2, -80)] [(1, -80), (2, -80)] ∧
    OldPriceVectors.increasePrices ⟨v.psRecipes, [10, -5000, -2500, -2500], none⟩ [(1, -80), (2, -80)]
      = .ok ⟨v.psRecipes, [10, -2580, -80, -2500], some .stoppedAtAgentValue⟩ ∧
    OldPriceVectors.increasePrices ⟨v.psRecipes, [10, -2580, -80, -2500], none⟩ [(1, -80), (3, -80)]
      = .ok ⟨v.psRecipes, [10, -160, -80, -80], some .stoppedAtAgentValue⟩ ∧
    OldPriceVectors.mapCategoryIndexToPrice ⟨v.psRecipes, [10, -160, -80, -80], none⟩ = .ok [some 10, some (-160), some (-80), some (-80)] := by
  refine ⟨⟨by decide, by decide, by decide, by decide +kernel⟩, ⟨?_, by decide, by decide⟩, by decide +kernel, by decide +kernel, ⟨?_, by decide, by decide⟩, by decide +kernel, by decide +kernel, by decide +kernel⟩
  · exact .cons (by decide) (.cons (by decide) .nil)
  · exact .cons (by decide) (.cons (by decide) .nil)

/-- The condition matters: if the category of one increase is in another recipe too, the sums differ afterwards, although the class is documented to keep them equal. The rewrite rejects these increases. -/
example :
    let v : OldPriceVectors := ⟨[[1, 0, 1], [1, 1, 0]], [-5, -5, -5], none⟩
    OldFine v (-10) ∧ v.increasePrices [(2, -4), (0, -1)] = .ok ⟨v.psRecipes, [-4, -5, -4], some .stoppedAtAgentValue⟩ ∧
    recipeSum [1, 0, 1] [-4, -5, -4] = -8 ∧ recipeSum [1, 1, 0] [-4, -5, -4] = -9 ∧
    SimultaneousAscendingPriceVectors.increasePrices ⟨v.psRecipes, v.prices, none⟩ [(2, -4), (0, -1)] = .error .valueError := by
  refine ⟨⟨by decide, by decide, by decide, by decide +kernel⟩, by decide +kernel, by decide +kernel, by decide +kernel, by decide +kernel⟩

/-- With a sum close to 0 the old class ends, and the rewrite does not. -/
example :
    let v : OldPriceVectors := ⟨[[1, 1]], [-5, -5], none⟩
    v.increasePrices [(0, 5 - 1 / 1000000000000)] = .ok ⟨v.psRecipes, [5 - 1 / 1000000000000, -5], some .stoppedAtZeroSum⟩ ∧
    SimultaneousAscendingPriceVectors.increasePrices ⟨v.psRecipes, v.prices, none⟩ [(0, 5 - 1 / 1000000000000)]
      = .ok ⟨v.psRecipes, [5 - 1 / 1000000000000, -5], some .stoppedAtAgentValue⟩ := by
  decide +kernel

/-- What the old class refuses: no recipes, recipes of different lengths, and a list of increases whose length is not the number of recipes. -/
theorem old_refuses :
    (∀ (recipes : List (List ℕ)) (p : List ℚ),
      if recipes ≠ [] ∧ ∀ r ∈ recipes, ∀ r' ∈ recipes, r.length = r'.length then OldPriceVectors.init recipes p = .ok ⟨recipes, p, none⟩
      else OldPriceVectors.init recipes p = .error .valueError) ∧
    ∀ (v : OldPriceVectors) (incs : List (ℕ × ℚ)), incs.length ≠ v.psRecipes.length → v.increasePrices incs = .error .valueError := by
  constructor
  · intro recipes p
    cases recipes with
    | nil => simp [OldPriceVectors.init]
    | cons r rs =>
      by_cases h : ∀ a ∈ r :: rs, ∀ b ∈ r :: rs, a.length = b.length
      · rw [if_pos ⟨by simp, h⟩]
        unfold OldPriceVectors.init; dsimp only
        rw [if_neg]
        rw [List.any_eq_true]
        rintro ⟨q, hq, hne⟩
        exact absurd (h q hq r (by simp)) (by simpa using hne)
      · rw [if_neg (fun h' => h h'.2)]
        unfold OldPriceVectors.init; dsimp only
        rw [if_pos]
        by_contra hc
        refine h fun a ha b hb => ?_
        have key : ∀ q ∈ r :: rs, q.length = r.length := by
          intro q hq
          by_contra hq'
          exact hc (List.any_eq_true.2 ⟨q, hq, by simpa using hq'⟩)
        rw [key a ha, key b hb]
  · intro v incs h
    unfold OldPriceVectors.increasePrices
    rw [if_pos h]

example : OldPriceVectors.init [[1, 1], [1, 0, 1]] [-5, -5, -5] = .error .valueError ∧
    OldPriceVectors.increasePrices ⟨[[1, 1]], [-5, -5], none⟩ [(0, 1), (1, 1)] = .error .valueError := by decide +kernel

end Auctions.Props
