import Verif.Proofs.TreeCountsStep

set_option autoImplicit false

/-! # Helper lemmas: at most one agent per category is missing for the deals at least as good as the clock -/

namespace Auctions

open Spec TreeAuction

/-- In a list sorted by a key, the elements with a key of at least `q` come first. -/
theorem filter_eq_take {α : Type} {g : α → ℚ} {l : List α} (hs : l.Pairwise (fun a b => g b ≤ g a)) (q : ℚ) :
    l.filter (fun a => q ≤ g a) = l.take (l.countP (fun a => q ≤ g a)) := by
  induction l with
  | nil => rfl
  | cons a l ih =>
    rw [List.pairwise_cons] at hs
    by_cases ha : q ≤ g a
    · rw [List.filter_cons_of_pos (by simpa using ha), List.countP_cons_of_pos (by simpa using ha), List.take_succ_cons, ih hs.2]
    · have h0 : (a :: l).countP (fun a => decide (q ≤ g a)) = 0 := by
        rw [List.countP_eq_zero]
        intro x hx
        rcases List.mem_cons.1 hx with rfl | hx
        · simpa using ha
        · have := hs.1 x hx
          simp only [decide_eq_true_eq]; intro h; exact ha (h.trans this)
      rw [h0, List.take_zero, List.filter_eq_nil_iff]
      rw [List.countP_eq_zero] at h0
      exact h0

theorem countP_le_succ {l : List ℚ} (hs : l.Pairwise (· > ·)) {c : ℕ} {q : ℚ} (h : SplitAt l c q) : l.countP (fun x => q ≤ x) ≤ c + 1 := by
  have hs' : l.Pairwise (fun a b => id b ≤ id a) := hs.imp (fun {a b} h => le_of_lt h)
  have ht := filter_eq_take hs' q
  simp only [id] at ht
  by_contra hlt
  push Not at hlt
  have hlen : l.countP (fun x => decide (q ≤ x)) ≤ l.length := List.countP_le_length
  have hm : l[c + 1] ∈ l.take (l.countP (fun x => decide (q ≤ x))) := by
    rw [List.mem_take_iff_getElem]
    exact ⟨c + 1, by omega, rfl⟩
  rw [← ht, List.mem_filter] at hm
  have h1 : q ≤ l[c + 1] := by simpa using hm.2
  have h2 := h.rest c (by omega) (le_refl _)
  have h3 : l[c] > l[c + 1] := List.pairwise_iff_getElem.1 hs c (c + 1) (by omega) (by omega) (by omega)
  linarith

theorem strict_of_nodup {l : List ℚ} (hs : SortedDesc l) (hn : l.Nodup) : l.Pairwise (· > ·) := by
  have h : l.Pairwise (fun a b => a ≥ b ∧ a ≠ b) := List.Pairwise.and hs hn
  exact h.imp (fun {a b} h => lt_of_le_of_ne h.1 (Ne.symm h.2))

theorem strict_zip {l l' : List ℚ} (h : l.Pairwise (· > ·)) (h' : SortedDesc l') : (List.zipWith (· + ·) l l').Pairwise (· > ·) := by
  rw [List.pairwise_iff_getElem]
  intro i j hi hj hij
  rw [List.length_zipWith] at hi hj
  rw [List.getElem_zipWith, List.getElem_zipWith]
  have h1 : l[i] > l[j] := List.pairwise_iff_getElem.1 h i j (by omega) (by omega) hij
  have h2 : l'[i] ≥ l'[j] := by apply h'.getElem_ge; omega
  linarith

section

variable {V : ℕ → List ℚ} {R : ℕ → ℕ} {p : ℕ → ℚ} {M B : ℚ}

theorem nodeValues_strict {i : ℕ} {ch : Forest} (hs : SortedDesc (V i)) (hn : (V i).Nodup) : (nodeValues V i ch).Pairwise (· > ·) := by
  by_cases hc : ch = .nil
  · subst hc; exact strict_of_nodup hs hn
  · rw [nodeValues_of_ne _ _ hc]
    exact strict_zip (strict_of_nodup hs hn) (sortDesc_sorted _)

/-- If the clock below a node is under its threshold, the node has no deals. -/
theorem node_low (hB : 0 ≤ B) {i : ℕ} {ch s : Forest} {t q a : ℚ} (hc : ch ≠ .nil)
    (hset : Setting V R p B (.cons i ch s)) (hl : Level p (.cons i ch s) q) (hcl : Clocked V R p M B (.cons i ch s) t q)
    (hta : t ≤ a) (ha : a + height (.cons i ch s) * B < 0) (hq : t < q) (htc : ¬ t - B < q - p i) : nodeValues V i ch = [] := by
  have hsp := hset.split i (by simp [nodes])
  have hp : B < p i := by linarith
  have hR : R i = 0 := by
    by_contra h
    have hle := hsp.le
    have hlt : 0 < (V i).length := by omega
    have h1 := hsp.above 0 hlt (by omega)
    have h2 := (hset.bound i (by simp [nodes]) _ (List.getElem_mem hlt)).2
    linarith
  apply nodeValues_nil_of hc
  by_cases hv : V i = []
  · exact Or.inl hv
  · right
    have hlen : 0 < (V i).length := List.length_pos_iff.2 hv
    have h6 := (hcl.1 hc).2.2 (by omega)
    have hh1 : (height ch : ℚ) + 1 ≤ height (.cons i ch s) := by rw [height]; exact_mod_cast le_max_left _ _
    have h1 : (height ch : ℚ) * B + B ≤ height (.cons i ch s) * B := by nlinarith
    exact no_deals hB hset.children hl.children hcl.2.1 (a := a) (by linarith) (by omega) (by linarith)

theorem agentsOf_length_le (i : ℕ) (l : List (ℕ × ℚ)) : (agentsOf i l).length ≤ l.length := by
  unfold agentsOf; rw [List.length_map]; exact List.length_filter_le _ _

/-- The deals of at least the clock use, in every category, at most one agent more than the category has left. -/
theorem through_le (hB : 0 ≤ B) {f : Forest} {t q a κ : ℚ} (hn : (nodes f).Nodup) (hd : Distinct V f)
    (hset : Setting V R p B f) (hl : Level p f q) (hcl : Clocked V R p M B f t q)
    (hcap : Capped B p κ f) (hta : t ≤ a) (hκ : B * (κ - 1) ≤ t + M) (ha : a + height f * B < 0) (hq : t < q) :
    ∀ x ∈ nodes f, (agentsOf x ((treeDeals V f).filter (fun d => q ≤ treeGain d)).flatten).length ≤ R x + 1 := by
  induction f generalizing t q a κ with
  | nil => simp [nodes]
  | cons i ch s ih1 ih2 =>
    have hn0 := hn
    rw [nodes, List.nodup_cons, List.mem_append, List.nodup_append] at hn
    obtain ⟨hi, hch, hs, hdis⟩ := hn
    push Not at hi
    have hh1 : (height ch : ℚ) + 1 ≤ height (.cons i ch s) := by rw [height]; exact_mod_cast le_max_left _ _
    have hh2 : (height s : ℚ) ≤ height (.cons i ch s) := by rw [height]; exact_mod_cast le_max_right _ _
    have h1 : (height ch : ℚ) * B + B ≤ height (.cons i ch s) * B := by nlinarith
    have h2 : (height s : ℚ) * B ≤ height (.cons i ch s) * B := mul_le_mul_of_nonneg_right hh2 hB
    have hsib := ih2 hs hd.2.2.1 hset.siblings hl.siblings hcl.2.2 hcap.2.2 hta hκ (by linarith) hq
    have hsp := hset.split i (by simp [nodes])
    have hns := node_split hB hset hl hcl hcap hta hκ ha hq (fun hc htc =>
      count_above hB hset.children hl.children hcl.2.1 hcap.2.1 (a := a + B) (by linarith) (by linarith) (by linarith) htc)
    have hstrict : (nodeValues V i ch).Pairwise (· > ·) := nodeValues_strict (hset.sorted i (by simp [nodes])) hd.1
    have hK := countP_le_succ hstrict hns
    -- the deals of the first tree
    have hsorted : (nodeDeals V i ch).Pairwise (fun a b => treeGain b ≤ treeGain a) := by
      rw [nodeValues_eq, List.pairwise_map] at hstrict
      exact hstrict.imp (fun {a b} h => le_of_lt h)
    have htake := filter_eq_take hsorted q
    have hcnt : (nodeDeals V i ch).countP (fun d => decide (q ≤ treeGain d)) = (nodeValues V i ch).countP (fun x => q ≤ x) := by
      rw [nodeValues_eq, List.countP_map]; rfl
    rw [hcnt] at htake
    generalize hKdef : (nodeValues V i ch).countP (fun x => decide (q ≤ x)) = K at *
    have hnode : ∀ x, (x = i → (agentsOf x ((nodeDeals V i ch).filter (fun d => q ≤ treeGain d)).flatten).length ≤ R x + 1) ∧
        (x ∈ nodes ch → (agentsOf x ((nodeDeals V i ch).filter (fun d => q ≤ treeGain d)).flatten).length ≤ R x + 1) := by
      intro x
      rw [htake]
      by_cases hc : ch = .nil
      · subst hc
        refine ⟨?_, by simp [nodes]⟩
        rintro rfl
        refine (agentsOf_length_le _ _).trans ?_
        have : ∀ (l : List ℚ) (K : ℕ), ((l.map (fun v => [(x, v)])).take K).flatten.length ≤ K := by
          intro l
          induction l with
          | nil => simp
          | cons v l ih => intro K; cases K with
            | zero => simp
            | succ K => simpa using ih K
        exact (this _ _).trans hK
      · rw [nodeDeals_of_ne _ _ hc, List.take_zipWith]
        have hp := List.perm_insertionSort (fun x y => treeGain x ≥ treeGain y) (treeDeals V ch)
        have hSs : ((treeDeals V ch).insertionSort (fun x y => treeGain x ≥ treeGain y)).Pairwise (fun a b => treeGain b ≤ treeGain a) := by
          have := sortDesc_sorted ((treeDeals V ch).map treeGain)
          rw [← sort_deals_gain] at this
          exact List.pairwise_map.1 this
        have hgain := sort_deals_gain (treeDeals V ch)
        rw [← combinedValues_eq] at hgain
        generalize hSdef : (treeDeals V ch).insertionSort (fun x y => treeGain x ≥ treeGain y) = S at *
        have hzip := agentsOf_zip i x ((V i).take K) (S.take K) (by
          intro a ha
          have := (flatten_sublist (List.take_sublist K S)).subset ha
          have := deals_nodes (treeDeals_path V ch) a ((flatten_perm hp).mem_iff.1 this)
          rintro rfl; exact hi.1 this)
        refine ⟨?_, ?_⟩
        · rintro rfl
          rw [if_pos rfl] at hzip
          have := hzip.length_le
          rw [List.length_take] at this
          omega
        · intro hx
          have hxi : x ≠ i := by rintro rfl; exact hi.1 hx
          rw [if_neg hxi] at hzip
          refine hzip.length_le.trans ?_
          by_cases htc : t - B < q - p i
          · have hIH := ih1 hch hd.2.1 hset.children hl.children hcl.2.1 hcap.2.1 (a := a + B) (by linarith) (by linarith) (by linarith)
              htc x hx
            have hN := count_above hB hset.children hl.children hcl.2.1 hcap.2.1 (a := a + B) (by linarith) (by linarith) (by linarith) htc
            refine le_trans ?_ hIH
            -- the first `K` deals are at least as good as the clock
            have hfS := filter_eq_take hSs (q - p i)
            have hKle : K ≤ S.countP (fun d => decide (q - p i ≤ treeGain d)) := by
              have hY : SplitAt (sortDesc (ch.combinedValues V)) (ch.rootSizes R) (q - p i) := by
                have := splitAt_of_sorted (sortDesc_sorted (ch.combinedValues V)) (q - p i)
                rwa [(sortDesc_perm _).countP_eq, hN] at this
              have hcS : S.countP (fun d => decide (q - p i ≤ treeGain d)) = (sortDesc (ch.combinedValues V)).countP (fun x => q - p i ≤ x) := by
                rw [← hgain, List.countP_map]; rfl
              rw [hcS]
              have hYs := sortDesc_sorted (ch.combinedValues V)
              have hnv := nodeValues_of_ne V i hc
              generalize hYdef : sortDesc (ch.combinedValues V) = Y at *
              -- element `K - 1`
              by_cases hK0 : K = 0
              · omega
              · have hKlen : K ≤ (nodeValues V i ch).length := by rw [← hKdef]; exact List.countP_le_length
                have hKl2 : K ≤ (V i).length ∧ K ≤ Y.length := by
                  rw [hnv, List.length_zipWith] at hKlen; omega
                have hYK : q - p i ≤ Y[K - 1]'(by omega) := by
                  have hge : q ≤ (nodeValues V i ch)[K - 1]'(by omega) := by
                    have hm : (nodeValues V i ch)[K - 1]'(by omega) ∈ (nodeValues V i ch).take K := by
                      rw [List.mem_take_iff_getElem]; exact ⟨K - 1, by omega, rfl⟩
                    have hft := filter_eq_take (g := id) (hstrict.imp (fun {a b} h => le_of_lt h)) q
                    simp only [id] at hft
                    rw [hKdef] at hft
                    rw [← hft, List.mem_filter] at hm
                    simpa using hm.2
                  have hge' : q ≤ (V i)[K - 1]'(by omega) + Y[K - 1]'(by omega) := by
                    have : (nodeValues V i ch)[K - 1]'(by omega) = (V i)[K - 1]'(by omega) + Y[K - 1]'(by omega) := by
                      have h3 : (nodeValues V i ch)[K - 1]? = (List.zipWith (· + ·) (V i) Y)[K - 1]? := by rw [hnv]
                      rw [List.getElem?_eq_getElem (by omega), List.getElem?_eq_getElem (by rw [List.length_zipWith]; omega),
                        List.getElem_zipWith] at h3
                      exact Option.some.inj h3
                    rw [← this]; exact hge
                  by_cases hKR : R i ≤ K - 1
                  · have := hsp.rest (K - 1) (by omega) hKR
                    linarith
                  · obtain ⟨c1, c2, c3⟩ := hcl.1 hc
                    by_cases hRc : ch.rootSizes R < R i
                    · obtain ⟨e1, e2⟩ := c1 htc hRc
                      obtain ⟨g1, g2⟩ := splitAt_mem hYs hY (by rw [← hYdef]; exact mem_sortDesc.2 e2)
                      have h4 : Y[K - 1]'(by omega) ≥ Y[ch.rootSizes R] := by apply hYs.getElem_ge; omega
                      linarith
                    · exact (hY.above (K - 1) (by omega) (by omega)).le
                by_contra hlt
                push Not at hlt
                have hft := filter_eq_take (g := id) (l := Y) hYs (q - p i)
                simp only [id] at hft
                have hm : Y[K - 1]'(by omega) ∈ Y.filter (fun x => q - p i ≤ x) := by
                  rw [List.mem_filter]; exact ⟨List.getElem_mem _, by simpa using hYK⟩
                -- all of the first `K` elements are at least the clock
                have hall : ∀ x ∈ Y.take K, decide (q - p i ≤ x) = true := by
                  intro x hx
                  obtain ⟨k, hk, rfl⟩ := List.mem_take_iff_getElem.1 hx
                  have h5 : Y[k]'(by omega) ≥ Y[K - 1]'(by omega) := by apply hYs.getElem_ge; omega
                  simp only [decide_eq_true_eq]; linarith
                have h6 : (Y.take K).countP (fun x => decide (q - p i ≤ x)) = K := by
                  rw [List.countP_eq_length.2 hall, List.length_take]; omega
                have h7 := (List.take_sublist K Y).countP_le (p := fun x => decide (q - p i ≤ x))
                omega
            have hsub : (S.take K).Sublist (S.filter (fun d => q - p i ≤ treeGain d)) := by
              rw [hfS]
              have : S.take K = (S.take (S.countP (fun d => decide (q - p i ≤ treeGain d)))).take K := by
                rw [List.take_take, min_eq_left hKle]
              rw [this]; exact List.take_sublist _ _
            have h8 := (agentsOf_sublist (i := x) (flatten_sublist hsub)).length_le
            have h9 := (agentsOf_perm (i := x) (flatten_perm (hp.filter (fun d => decide (q - p i ≤ treeGain d))))).length_eq
            omega
          · have hnil := node_low hB hc hset hl hcl hta ha hq htc
            rw [hnil] at hKdef
            simp only [List.countP_nil] at hKdef
            rw [← hKdef]
            simp [agentsOf]
    intro x hx
    rw [treeDeals_cons, List.filter_append, List.flatten_append, agentsOf_append, List.length_append]
    have hsn : x ∉ nodes s → agentsOf x ((treeDeals V s).filter (fun d => q ≤ treeGain d)).flatten = [] := by
      intro hxs
      apply agentsOf_eq_nil
      intro a ha
      have := (flatten_sublist (List.filter_sublist (p := fun d => decide (q ≤ treeGain d)) (l := treeDeals V s))).subset ha
      have := deals_nodes (treeDeals_path V s) a this
      rintro rfl; exact hxs this
    rw [nodes, List.mem_cons, List.mem_append] at hx
    rcases hx with rfl | hx | hx
    · rw [hsn hi.2]
      simpa using (hnode x).1 rfl
    · rw [hsn (fun h => hdis x hx x h rfl)]
      simpa using (hnode x).2 hx
    · have : agentsOf x ((nodeDeals V i ch).filter (fun d => decide (q ≤ treeGain d))).flatten = [] := by
        apply agentsOf_eq_nil
        intro a ha
        have := (flatten_sublist (List.filter_sublist (p := fun d => decide (q ≤ treeGain d)) (l := nodeDeals V i ch))).subset ha
        rw [nodeDeals_eq_treeDeals] at this
        have h3 := deals_nodes (treeDeals_path V _) a this
        simp only [nodes, List.append_nil, List.mem_cons] at h3
        rintro rfl
        rcases h3 with rfl | h3
        · exact hi.2 hx
        · exact hdis _ h3 _ hx rfl
      rw [this]
      simpa using hsib x hx

end

end Auctions
