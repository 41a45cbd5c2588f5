import Verif.Props.TradeReduction
import Verif.Props.AscendingTruthful

set_option autoImplicit false

/-!
# C45 — truthfulness of trade reduction for recipes of ones
-/

namespace Auctions.Props

open Auctions Spec Ascending TradeReduction

/-- A clock sum is negative when a needed category is exhausted and values are moderate. -/
theorem clockSum_neg {cs : List AgentCategory} {r : List ℕ} (h : r.length = cs.length) {s : ℕ → ℕ}
    (hval : ∀ i < cs.length, ∀ v ∈ vAt cs i, (r.sum : ℚ) * v < MAX_VALUE) {i : ℕ} (hi : i < cs.length) (hr : 0 < rAt r i)
    (hs : (vAt cs i).length ≤ s i) : clockSum cs r s < 0 := by
  have hM : (0 : ℚ) < MAX_VALUE := by unfold MAX_VALUE; norm_num
  have hsum : (r.sum : ℚ) = ∑ j ∈ Finset.range cs.length, (rAt r j : ℚ) := by
    have : ∀ l : List ℕ, (l.sum : ℚ) = ∑ j ∈ Finset.range l.length, (rAt l j : ℚ) := by
      intro l
      induction l with
      | nil => simp
      | cons a l ih => rw [List.length_cons, Finset.sum_range_succ']; simp [ih, add_comm]
    rw [this, h]
  have hri : (1 : ℚ) ≤ rAt r i := by exact_mod_cast hr
  have hRpos : (0 : ℚ) < r.sum := by
    rw [hsum, ← Finset.add_sum_erase _ _ (Finset.mem_range.2 hi)]
    have : (0 : ℚ) ≤ ∑ j ∈ (Finset.range cs.length).erase i, (rAt r j : ℚ) :=
      Finset.sum_nonneg fun j _ => by exact_mod_cast Nat.zero_le _
    linarith
  have hclk : ∀ j < cs.length, (r.sum : ℚ) * clock (vAt cs j) (s j) ≤ MAX_VALUE := by
    intro j hj
    by_cases hk : s j < (vAt cs j).length
    · rw [clock_of_lt hk]; exact (hval j hj _ (List.getElem_mem hk)).le
    · rw [clock_of_ge (by omega)]; nlinarith
  have hle : (r.sum : ℚ) * clockSum cs r s
      ≤ ∑ j ∈ Finset.range cs.length, (if j = i then -((rAt r i : ℚ) * r.sum * MAX_VALUE) else rAt r j * MAX_VALUE) := by
    rw [clockSum_eq h, Finset.mul_sum]
    refine Finset.sum_le_sum fun j hj => ?_
    have hj' := Finset.mem_range.1 hj
    by_cases hji : j = i
    · rw [if_pos hji]; subst hji; rw [clock_of_ge hs]; apply le_of_eq; ring
    · rw [if_neg hji]
      have h2 : (0 : ℚ) ≤ rAt r j := by exact_mod_cast Nat.zero_le _
      have := mul_le_mul_of_nonneg_left (hclk j hj') h2
      linarith
  have hle2 : ∑ j ∈ Finset.range cs.length,
      (if j = i then -((rAt r i : ℚ) * r.sum * MAX_VALUE) else rAt r j * MAX_VALUE)
      = r.sum * MAX_VALUE - rAt r i * MAX_VALUE - rAt r i * r.sum * MAX_VALUE := by
    rw [← Finset.add_sum_erase _ _ (Finset.mem_range.2 hi), if_pos rfl]
    have : ∑ j ∈ (Finset.range cs.length).erase i,
        (if j = i then -((rAt r i : ℚ) * r.sum * MAX_VALUE) else rAt r j * MAX_VALUE)
        = ∑ j ∈ (Finset.range cs.length).erase i, (rAt r j : ℚ) * MAX_VALUE := by
      refine Finset.sum_congr rfl fun j hj => ?_
      rw [if_neg (Finset.ne_of_mem_erase hj)]
    rw [this]
    have h3 : (r.sum : ℚ) * MAX_VALUE = ∑ j ∈ Finset.range cs.length, (rAt r j : ℚ) * MAX_VALUE := by
      rw [hsum, Finset.sum_mul]
    rw [h3, ← Finset.add_sum_erase _ _ (Finset.mem_range.2 hi)]
    ring
  rw [hle2] at hle
  have h4 : (r.sum : ℚ) * MAX_VALUE ≤ rAt r i * r.sum * MAX_VALUE := by
    have := mul_le_mul_of_nonneg_right hri (mul_nonneg hRpos.le hM.le)
    linarith
  have h5 : 0 < (rAt r i : ℚ) * MAX_VALUE := by positivity
  by_contra hge
  have := mul_nonneg hRpos.le (not_lt.1 hge)
  linarith

/-- Numbers of agents of each of the `n` categories not yet visited, when `T` agents in total are not yet visited. -/
def rank (n T l : ℕ) : ℕ := (T + l) / n

theorem rank_zero {n l : ℕ} (hl : l < n) : rank n 0 l = 0 := by unfold rank; rw [Nat.zero_add]; exact Nat.div_eq_of_lt hl

theorem rank_mono (n l : ℕ) {T T' : ℕ} (h : T ≤ T') : rank n T l ≤ rank n T' l := Nat.div_le_div_right (by omega)

theorem rank_eq {n i : ℕ} (hi : i < n) (j l : ℕ) (hl : l < n) : rank n (j * n + (n - i)) l = j + if i ≤ l then 1 else 0 := by
  unfold rank
  split
  · refine Nat.div_eq_of_lt_le ?_ ?_
    · rw [Nat.add_mul]; omega
    · rw [show (j + 1).succ * n = j * n + 2 * n by rw [Nat.succ_mul, Nat.add_mul]; omega]; omega
  · refine Nat.div_eq_of_lt_le ?_ ?_
    · rw [Nat.add_zero]; omega
    · rw [Nat.add_zero, Nat.succ_mul]; omega

theorem toCategory_ones (k n : ℕ) : pivotIndexToCategoryIndex k (List.replicate n 1) = List.range' k n := by
  induction n generalizing k with
  | zero => rfl
  | succ n ih => rw [List.replicate_succ, pivotIndexToCategoryIndex, ih, List.range'_succ]; rfl

theorem suffix_ones {n i : ℕ} {L : List ℕ} (h : (i :: L) <:+ pivotIndexToCategoryIndex 0 (List.replicate n 1)) :
    i < n ∧ ∀ l < n, (i :: L).count l = if i ≤ l then 1 else 0 := by
  rw [toCategory_ones, List.suffix_iff_eq_drop] at h
  set q := (List.range' 0 n).length - (i :: L).length with hq
  have hi : i < n ∧ q = i := by
    have h1 : ((List.range' 0 n).drop q)[0]? = some i := by rw [← h]; rfl
    rw [List.getElem?_drop, Nat.add_zero] at h1
    obtain ⟨hlt, he⟩ := List.getElem?_eq_some_iff.1 h1
    rw [List.length_range'] at hlt
    rw [List.getElem_range'] at he
    omega
  refine ⟨hi.1, fun l hl => ?_⟩
  rw [h, hi.2]
  have hnd : ((List.range' 0 n).drop i).Nodup := (List.nodup_range').sublist (List.drop_sublist _ _)
  have hmem : l ∈ (List.range' 0 n).drop i ↔ i ≤ l := by
    rw [List.drop_range', List.mem_range'_1]; omega
  split
  · rename_i hle; exact List.count_eq_one_of_mem hnd (hmem.2 hle)
  · rename_i hle; exact List.count_eq_zero.2 (fun hm => hle (hmem.1 hm))

theorem clock_antitone {V : List ℚ} (hV : SortedDesc V) (hb : ∀ v ∈ V, -MAX_VALUE ≤ v) {s s' : ℕ} (h : s ≤ s') : clock V s' ≤ clock V s := by
  by_cases h' : s' < V.length
  · rw [clock_of_lt h', clock_of_lt (by omega)]
    apply hV.getElem_ge; omega
  · rw [clock_of_ge (by omega)]
    by_cases h2 : s < V.length
    · rw [clock_of_lt h2]; exact hb _ (List.getElem_mem h2)
    · rw [clock_of_ge (by omega)]

theorem clockSum_antitone {m : Market} {r : List ℕ} (h : r.length = m.sorted.length)
    (hv : ∀ i < m.sorted.length, ∀ v ∈ vAt m.sorted i, -MAX_VALUE ≤ v) {s s' : ℕ → ℕ} (hs : ∀ l < m.sorted.length, s l ≤ s' l) :
    clockSum m.sorted r s' ≤ clockSum m.sorted r s := by
  rw [clockSum_eq h, clockSum_eq h]
  refine Finset.sum_le_sum fun l hl => ?_
  have hl' := Finset.mem_range.1 hl
  exact mul_le_mul_of_nonneg_left (clock_antitone (sorted_vAt m l) (hv l hl') (hs l hl')) (by exact_mod_cast Nat.zero_le _)

theorem clockSum_congr_left {cs : List AgentCategory} {r : List ℕ} (h : r.length = cs.length) {s s' : ℕ → ℕ}
    (hs : ∀ l < cs.length, s l = s' l) : clockSum cs r s = clockSum cs r s' := by
  rw [clockSum_eq h, clockSum_eq h]
  exact Finset.sum_congr rfl fun l hl => by rw [hs l (Finset.mem_range.1 hl)]

theorem mkMarket_congr {cs : List AgentCategory} {s s' : ℕ → ℕ} (hs : ∀ l < cs.length, s l = s' l) : mkMarket cs s = mkMarket cs s' := by
  unfold mkMarket
  congr 1
  apply List.ext_getElem
  · simp
  · intro l h1 h2
    simp only [List.length_mapIdx] at h1
    simp [hs l h1]

theorem pass_mono {z : Bool} {x y : ℚ} (h : Pass z x) (hxy : x ≤ y) : Pass z y := by
  unfold Pass at *
  rcases h with h | ⟨hz, h⟩
  · exact Or.inl (lt_of_lt_of_le h hxy)
  · rcases lt_or_eq_of_le hxy with h1 | h1
    · exact Or.inl (by linarith)
    · exact Or.inr ⟨hz, by linarith⟩

/-- The trade when `T` agents are left at the moment external competition is found by category `i`. -/
structure OnesTrade (m : Market) (z : Bool) (T i : ℕ) (p : List ℚ) (d : ℕ) : Prop where
  pos : 0 < T
  lt : i < m.numCategories
  step : rank m.numCategories T i = rank m.numCategories (T - 1) i + 1
  same : ∀ l < m.numCategories, l ≠ i → rank m.numCategories T l = rank m.numCategories (T - 1) l
  pass : Pass z (clockSum m.sorted (List.replicate m.numCategories 1) (rank m.numCategories (T - 1)))
  fail : ¬ Pass z (clockSum m.sorted (List.replicate m.numCategories 1) (rank m.numCategories T))
  plen : p.length = m.numCategories
  bal : recipeSum (List.replicate m.numCategories 1) p = 0
  price : ∀ l < m.numCategories, l ≠ i → p.getD l 0 = clock (vAt m.sorted l) (rank m.numCategories T l)
  inside : ∀ l < m.numCategories, ∀ v ∈ (vAt m.sorted l).take (rank m.numCategories T l), p.getD l 0 ≤ v
  outside : ∀ l < m.numCategories, ∀ v ∈ (vAt m.sorted l).drop (rank m.numCategories T l), v ≤ p.getD l 0
  len : ∀ l < m.numCategories, rank m.numCategories T l ≤ (vAt m.sorted l).length
  dle : ∀ l < m.numCategories, d ≤ rank m.numCategories T l
  dmax : ∀ d', (∀ l < m.numCategories, d' ≤ rank m.numCategories T l) → d' ≤ d

theorem tr_ones {m : Market} {z : Bool} {t : TradeWithSinglePrice}
    (hval : ∀ c ∈ m.categories, ∀ v ∈ c.values, -MAX_VALUE ≤ v ∧ (m.numCategories : ℚ) * v < MAX_VALUE) (hN : m.numAgents ≤ 2000000)
    (ht : tradeReduction m (List.replicate m.numCategories 1) z = .ok t) :
    (¬ Pass z (clockSum m.sorted (List.replicate m.numCategories 1) (rank m.numCategories 0)) ∧
      ∃ q, t = ⟨(mkMarket m.sorted (fun _ => 0)).categories, List.replicate m.numCategories 1, q, 0⟩) ∨
    ∃ T i p d, OnesTrade m z T i p d ∧
      t = ⟨(mkMarket m.sorted (rank m.numCategories T)).categories, List.replicate m.numCategories 1, some p, d⟩ := by
  set n := m.numCategories with hn
  set r := List.replicate n 1 with hr
  obtain ⟨h, hcat⟩ := tr_ok_inv ht
  have hsl : m.sorted.length = n := m.sorted_length
  have h' : r.length = m.sorted.length := by rw [hsl]; exact h
  have hn0 : 0 < n := by
    rcases Nat.eq_zero_or_pos n with h0 | h0
    · exact absurd (List.length_eq_zero_iff.1 h0) hcat
    · exact h0
  have hr1 : ∀ l < n, rAt r l = 1 := by intro l hl; simp [rAt, hr, hl]
  have hrsum : (r.sum : ℚ) = n := by simp [hr]
  have hpos : ∃ x ∈ r, 0 < x := ⟨1, by simp [hr]; omega, by omega⟩
  have hv : ∀ i < m.sorted.length, ∀ v ∈ vAt m.sorted i, -MAX_VALUE ≤ v ∧ (r.sum : ℚ) * v < MAX_VALUE := by
    intro i hi v hv
    have hi' : i < m.categories.length := by rw [m.sorted_length] at hi; exact hi
    rw [vAt_sorted, mem_sortDesc, vAt_eq_getElem hi'] at hv
    rw [hrsum]
    exact hval _ (List.getElem_mem hi') v hv
  have hneg : ∀ (s : ℕ → ℕ) i, i < n → (vAt m.sorted i).length ≤ s i → ¬ Pass z (clockSum m.sorted r s) := by
    intro s i hi hs hp
    have := clockSum_neg h' (fun i hi v hv' => (hv i hi v hv').2) (by omega) (by rw [hr1 i hi]; omega) hs
    rcases hp with h1 | ⟨-, h1⟩ <;> linarith
  obtain ⟨k, hk, -, hres⟩ := tr_outcome hpos (fun c hc v hv => (hval c hc v hv).1) ht
  rcases hres with ⟨q, hq, hc⟩ | ⟨a, p, d, rfl, hT, hmax⟩
  · left
    refine ⟨?_, q, hq⟩
    have e0 : clockSum m.sorted r (rank n 0) = clockSum m.sorted r (fun _ => 0) :=
      clockSum_congr_left h' (fun l hl => rank_zero (by omega))
    rw [e0]
    rcases hc with rfl | hc
    · rcases hk.stopped h hN hpos with h1 | h1
      · unfold Avail at h1
        push Not at h1
        obtain ⟨l, hl, hlt⟩ := h1
        rw [hr1 l (by omega)] at hlt
        exact hneg _ l (by omega) (by omega)
      · by_cases hav : Avail m.sorted r 0
        · have e1 : clockSum m.sorted r (fun _ => 0) = (blk m.sorted r 0).sum := by
            rw [clockSum_eq h', blk_sum h']
            refine Finset.sum_congr rfl fun l hl => ?_
            have hl' := Finset.mem_range.1 hl
            have := hav l hl'
            rw [hr1 l (by omega)] at this ⊢
            have hlt : 0 < (vAt m.sorted l).length := by omega
            cases hV : vAt m.sorted l with
            | nil => simp [hV] at hlt
            | cons x V => simp [seg, clock]
          rw [e1]
          unfold Good at h1
          intro hp
          rcases hp with h2 | ⟨-, h2⟩
          · apply h1; push Not; exact ⟨h2.le, by simp⟩
          · apply h1; push Not; exact ⟨h2.ge, by simp⟩
        · unfold Avail at hav
          push Not at hav
          obtain ⟨l, hl, hlt⟩ := hav
          rw [hr1 l (by omega)] at hlt
          exact hneg _ l (by omega) (by omega)
    · exact hc
  · right
    obtain ⟨i, hi, hri, hai, hpass, hprice, j, L, hsuf, hjL⟩ := hT.pivot
    obtain ⟨hin, hcount⟩ := suffix_ones hsuf
    set T := j * n + (n - i) with hTdef
    have ha : ∀ l < n, a l = rank n T l := by
      intro l hl
      rw [hTdef, rank_eq hin j l hl, ← hcount l hl, ← hjL l, hr1 l hl, Nat.mul_one]
    have hT0 : 0 < T := by omega
    have hprev : ∀ l < n, rank n (T - 1) l = if l = i then a i - 1 else a l := by
      intro l hl
      rw [ha i hin, ha l hl, hTdef, rank_eq hin j l hl, rank_eq hin j i hin]
      by_cases hi1 : i + 1 < n
      · rw [show j * n + (n - i) - 1 = j * n + (n - (i + 1)) by omega, rank_eq hi1 j l hl]
        split_ifs <;> omega
      · have hi2 : i + 1 = n := by omega
        unfold rank
        rw [show j * n + (n - i) - 1 + l = l + n * j by rw [Nat.mul_comm n j]; omega, Nat.add_mul_div_left _ _ hn0,
          Nat.div_eq_of_lt hl]
        split_ifs <;> omega
    have eT : clockSum m.sorted r (rank n T) = clockSum m.sorted r a :=
      clockSum_congr_left h' (fun l hl => (ha l (by omega)).symm)
    have eP : clockSum m.sorted r (rank n (T - 1)) = clockSum m.sorted r (Function.update a i (a i - 1)) := by
      refine clockSum_congr_left h' (fun l hl => ?_)
      rw [hprev l (by omega)]
      by_cases hli : l = i
      · subst hli; simp
      · simp [hli]
    have hmk : mkMarket m.sorted a = mkMarket m.sorted (rank n T) := mkMarket_congr (fun l hl => ha l (by omega))
    have hfail : ¬ Pass z (clockSum m.sorted r a) ∧ ∀ l < m.sorted.length, ∀ v ∈ (vAt m.sorted l).drop (a l), v ≤ p.getD l 0 := by
      rcases hT.outside with ⟨K, hkK, hK1, hKav, haK⟩ | ho
      · -- the first visit succeeded: only the pivot's category is exhausted
        have hKk : K = k := by
          by_contra hne
          have hav : ∀ i < m.sorted.length, (k + 1) * rAt r i ≤ a i := fun i hi => by
            rw [haK i]; exact Nat.mul_le_mul_right _ (by omega)
          have h0 := blocks_nonneg h' hT.plen hT.bal (fun i hi _ => hT.inside i hi) hT.alen (j := k) hav
          rcases hk.stopped h hN hpos with h1 | h1
          · exact h1 (hKav k (by omega))
          · apply h1
            unfold Good
            push Not
            exact ⟨h0, by simp⟩
        have hnav : ¬ Avail m.sorted r k := fun hh => by have := hK1 hh; omega
        unfold Avail at hnav
        push Not at hnav
        obtain ⟨c, hc, hlt⟩ := hnav
        rw [hr1 c (by omega)] at hlt
        have hac : a c = k := by rw [haK c, hr1 c (by omega), hKk, Nat.mul_one]
        have hex : ∀ l < n, (vAt m.sorted l).length ≤ a l → l = i := by
          intro l hl hle
          by_contra hli
          exact hneg _ l hl (by rw [Function.update_of_ne hli]; exact hle) hpass
        refine ⟨hneg _ c (by omega) (by omega), fun l hl v hvm => ?_⟩
        by_cases hli : l = i
        · subst hli
          have hci := hex c (by omega) (by omega)
          subst hci
          rw [List.drop_of_length_le (by omega)] at hvm
          simp at hvm
        · rw [hprice l hl hli]
          exact clock_ge_of_mem_drop (sorted_vAt m l) hvm
      · exact ho
    refine ⟨T, i, p, d, ⟨hT0, hin, ?_, ?_, by rw [← hn, ← hr, eP]; exact hpass, by rw [← hn, ← hr, eT]; exact hfail.1,
      by rw [hT.plen, hsl], hT.bal, ?_, ?_, ?_, ?_, ?_, ?_⟩, ?_⟩
    · rw [← hn, hprev i hin, ← ha i hin, if_pos rfl]; omega
    · intro l hl hli
      rw [← hn, hprev l hl, if_neg hli, ha l hl]
    · intro l hl hli
      rw [← hn, ← ha l hl]; exact hprice l (by omega) hli
    · intro l hl v hvm
      rw [← hn, ← ha l hl] at hvm
      exact hT.inside l (by omega) v hvm
    · intro l hl v hvm
      rw [← hn, ← ha l hl] at hvm
      exact hfail.2 l (by omega) v hvm
    · intro l hl
      rw [← hn, ← ha l hl]; exact hT.alen l
    · intro l hl
      rw [← hn, ← ha l hl]
      have := hT.dle l (by omega)
      rwa [hr1 l hl, Nat.mul_one] at this
    · intro d' hd'
      refine hmax d' (fun l hl => ?_)
      have := hd' l (by omega)
      rw [← hn, ← ha l (by omega)] at this
      rw [hr1 l (by omega), Nat.mul_one]; exact this
    · rw [hmk]

theorem OnesTrade.unique {m : Market} {z : Bool} {T T' i i' : ℕ} {p p' : List ℚ} {d d' : ℕ}
    (hv : ∀ i < m.sorted.length, ∀ v ∈ vAt m.sorted i, -MAX_VALUE ≤ v)
    (h : OnesTrade m z T i p d) (h' : OnesTrade m z T' i' p' d') : T = T' := by
  have hr : (List.replicate m.numCategories 1).length = m.sorted.length := by rw [m.sorted_length]; simp
  have key : ∀ {T T' i i' : ℕ} {p p' : List ℚ} {d d' : ℕ}, OnesTrade m z T i p d → OnesTrade m z T' i' p' d' → ¬ T < T' := by
    intro T T' i i' p p' d d' h h' hlt
    refine h.fail (pass_mono h'.pass ?_)
    exact clockSum_antitone hr hv (fun l _ => rank_mono _ _ (by omega))
  have h1 := key h h'
  have h2 := key h' h
  omega

/-- The clock sum splits into one category and the others. -/
theorem clockSum_split {m : Market} {s : ℕ → ℕ} {c : ℕ} (hc : c < m.numCategories) :
    clockSum m.sorted (List.replicate m.numCategories 1) s = clock (vAt m.sorted c) (s c) +
      ∑ l ∈ (Finset.range m.numCategories).erase c, clock (vAt m.sorted l) (s l) := by
  rw [clockSum_eq (by rw [m.sorted_length]; simp), m.sorted_length, ← Finset.add_sum_erase _ _ (Finset.mem_range.2 hc)]
  have hr1 : ∀ l < m.numCategories, rAt (List.replicate m.numCategories 1) l = 1 := by intro l hl; simp [rAt, hl]
  rw [hr1 c hc]
  congr 1
  · simp
  · refine Finset.sum_congr rfl fun l hl => ?_
    rw [hr1 l (Finset.mem_range.1 (Finset.mem_of_mem_erase hl))]; simp

/-- The price of the pivot's category balances the others. -/
theorem OnesTrade.pivot_price {m : Market} {z : Bool} {T i : ℕ} {p : List ℚ} {d : ℕ} (h : OnesTrade m z T i p d) :
    p.getD i 0 = -∑ l ∈ (Finset.range m.numCategories).erase i, clock (vAt m.sorted l) (rank m.numCategories T l) := by
  have hb := h.bal
  rw [recipeSum_eq_sum (n := m.numCategories) (by simp) h.plen, ← Finset.add_sum_erase _ _ (Finset.mem_range.2 h.lt)] at hb
  have hr1 : ∀ l < m.numCategories, rAt (List.replicate m.numCategories 1) l = 1 := by intro l hl; simp [rAt, hl]
  have e : ∑ x ∈ (Finset.range m.numCategories).erase i, (rAt (List.replicate m.numCategories 1) x : ℚ) * p.getD x 0
      = ∑ l ∈ (Finset.range m.numCategories).erase i, clock (vAt m.sorted l) (rank m.numCategories T l) := by
    refine Finset.sum_congr rfl fun l hl => ?_
    have hl' := Finset.mem_range.1 (Finset.mem_of_mem_erase hl)
    rw [hr1 l hl', h.price l hl' (Finset.ne_of_mem_erase hl)]; simp
  rw [e, hr1 i h.lt] at hb
  simp only [Nat.cast_one, one_mul] at hb
  linarith

theorem numAgents_withAgent (m : Market) (c : ℕ) (x : ℚ) : (withAgent m c x).numAgents ≤ m.numAgents + 1 := by
  unfold Market.numAgents Market.valueLists withAgent
  simp only
  generalize m.categories = cs
  induction cs generalizing c with
  | nil => simp
  | cons k cs ih =>
    cases c with
    | zero => simp; omega
    | succ c =>
      have := ih c
      simp only [List.modify_succ_cons, List.map_cons, List.sum_cons]
      omega

/-- **C45**, recipes of ones. If every recipe count is 1 and values are moderate, trade reduction is truthful in expectation: an agent with true
value `v` gets from reporting `v` at least the utility it gets from reporting any `b`, and never a negative utility. -/
theorem trade_reduction_truthful_ones {m : Market} {z : Bool} {c : ℕ} {v b : ℚ} {tT tB : TradeWithSinglePrice}
    (hval : ∀ x, x = v ∨ x = b ∨ (∃ k ∈ m.categories, x ∈ k.values) → -MAX_VALUE ≤ x ∧ (m.numCategories : ℚ) * x < MAX_VALUE)
    (hN : m.numAgents < 2000000)
    (hT : tradeReduction (withAgent m c v) (List.replicate m.numCategories 1) z = .ok tT)
    (hB : tradeReduction (withAgent m c b) (List.replicate m.numCategories 1) z = .ok tB) :
    utility tB c v b ≤ utility tT c v v ∧ 0 ≤ utility tT c v v := by
  set mT := withAgent m c v with hmT
  set mB := withAgent m c b with hmB
  have hnT : mT.numCategories = m.numCategories := withAgent_length ..
  have hnB : mB.numCategories = m.numCategories := withAgent_length ..
  -- bounds carry over
  have hmemx : ∀ (x : ℚ) (k : AgentCategory), k ∈ (withAgent m c x).categories → ∀ y ∈ k.values, y = x ∨ ∃ k ∈ m.categories, y ∈ k.values := by
    intro x k hk y hy
    obtain ⟨i, hi, rfl⟩ := List.getElem_of_mem hk
    have hi' : i < m.categories.length := by simpa [withAgent] using hi
    have h1 : y ∈ vAt (withAgent m c x).categories i := by rw [vAt_eq_getElem hi]; exact hy
    by_cases hic : i = c
    · subst hic
      rw [vAt_withAgent_eq m x hi'] at h1
      rcases List.mem_cons.1 h1 with h2 | h2
      · exact Or.inl h2
      · rw [vAt_eq_getElem hi'] at h2
        exact Or.inr ⟨_, List.getElem_mem hi', h2⟩
    · rw [vAt_withAgent_ne m x hic, vAt_eq_getElem hi'] at h1
      exact Or.inr ⟨_, List.getElem_mem hi', h1⟩
  have hvT : ∀ k ∈ mT.categories, ∀ x ∈ k.values, -MAX_VALUE ≤ x ∧ (mT.numCategories : ℚ) * x < MAX_VALUE := by
    intro k hk x hx
    rw [hnT]
    rcases hmemx v k hk x hx with h | h
    · exact hval x (Or.inl h)
    · exact hval x (Or.inr (Or.inr h))
  have hvB : ∀ k ∈ mB.categories, ∀ x ∈ k.values, -MAX_VALUE ≤ x ∧ (mB.numCategories : ℚ) * x < MAX_VALUE := by
    intro k hk x hx
    rw [hnB]
    rcases hmemx b k hk x hx with h | h
    · exact hval x (Or.inr (Or.inl h))
    · exact hval x (Or.inr (Or.inr h))
  have hNT : mT.numAgents ≤ 2000000 := by rw [hmT]; have := numAgents_withAgent m c v; omega
  have hNB : mB.numAgents ≤ 2000000 := by rw [hmB]; have := numAgents_withAgent m c b; omega
  rw [← hnT] at hT
  rw [← hnB] at hB
  have hir := trade_reduction_individually_rational (r := List.replicate mT.numCategories 1)
    (by
      obtain ⟨h1, h2⟩ := tr_ok_inv hT
      refine ⟨1, ?_, by omega⟩
      have : 0 < mT.numCategories := List.length_pos_iff.2 h2
      simp; omega) (fun k hk x hx => (hvT k hk x hx).1) hT
  have hnonneg : 0 ≤ utility tT c v v := by
    unfold utility
    simp only
    split_ifs with hmem
    · obtain ⟨p, hp, hle⟩ := hir c v hmem
      rw [hp]
      refine mul_nonneg (div_nonneg ?_ ?_) (by simpa using hle)
      · exact_mod_cast Nat.zero_le _
      · exact_mod_cast Nat.zero_le _
    · exact le_refl _
  refine ⟨?_, hnonneg⟩
  by_cases hpos : utility tB c v b ≤ 0
  · exact le_trans hpos hnonneg
  apply le_of_eq
  rcases tr_ones hvB hNB hB with ⟨-, q, rfl⟩ | ⟨T, i, p, d, hO, rfl⟩
  · exfalso; apply hpos
    unfold utility
    simp only [getD_values, vAt_mkMarket, List.take_zero, List.not_mem_nil, if_false, le_refl]
  rw [hnB] at hpos ⊢
  rw [utility_outcome] at hpos ⊢
  by_cases hmem : b ∈ (vAt mB.sorted c).take (rank m.numCategories T c)
  swap
  · simp [hmem] at hpos
  rw [if_pos hmem] at hpos ⊢
  have hpv : p.getD c 0 < v := by
    by_contra hge
    refine hpos (mul_nonpos_of_nonneg_of_nonpos (div_nonneg ?_ ?_) (by linarith))
    · exact_mod_cast Nat.zero_le _
    · exact_mod_cast Nat.zero_le _
  have hc : c < m.numCategories := by
    by_contra hge
    rw [vAt_of_ge (by rw [mB.sorted_length]; omega)] at hmem
    simp at hmem
  obtain ⟨hOpos, hOlt, hOstep, hOsame, hOpass, hOfail, hOplen, hObal, hOprice, hOin, hOout, hOlen, hOdle, hOdmax⟩ := hO
  rw [hnB] at hOlt hOstep hOsame hOpass hOfail hOplen hObal hOprice hOin hOout hOlen hOdle hOdmax
  set n := m.numCategories with hn
  set s := rank n T with hs
  set X := vAt m.categories c with hX
  have hVB : vAt mB.sorted c = sortDesc (b :: X) := by rw [vAt_sorted, vAt_withAgent_eq m b hc]
  have hVT : vAt mT.sorted c = sortDesc (v :: X) := by rw [vAt_sorted, vAt_withAgent_eq m v hc]
  have hoth : ∀ j, j ≠ c → vAt mT.sorted j = vAt mB.sorted j := by
    intro j hj
    rw [vAt_sorted, vAt_sorted, vAt_withAgent_ne m v hj, vAt_withAgent_ne m b hj]
  have hsi : s c ≤ X.length + 1 := by have := hOlen c hc; rw [hVB] at this; simpa using this
  have hs0 : 0 < s c := by
    rcases Nat.eq_zero_or_pos (s c) with h0 | h0
    · rw [h0] at hmem; simp at hmem
    · exact h0
  have hmem' := hmem
  have hsep := hOout c hc
  rw [hVB] at hmem' hsep
  obtain ⟨hX1, hX2⟩ := drop_report hsi hmem'
  have hXdrop : (sortDesc X).drop (s c - 1) = (sortDesc (b :: X)).drop (s c) := by
    conv_lhs => rw [hX1]
    rw [List.drop_append_of_le_length (by omega), List.drop_of_length_le (by omega), List.nil_append]
  have hXtake : (sortDesc X).take (s c - 1) = ((sortDesc (b :: X)).take (s c)).erase b := by
    conv_lhs => rw [hX1]
    rw [List.take_append_of_le_length (by omega), List.take_of_length_le (by omega)]
  obtain ⟨hT1, hT2⟩ := add_report (v := v) hs0 hsi (fun x hx => by
    rw [hXdrop] at hx
    exact le_trans (hsep x hx) hpv.le)
  rw [hXdrop] at hT2
  have hdrop : ∀ j, (vAt mT.sorted j).drop (s j) = (vAt mB.sorted j).drop (s j) := by
    intro j
    by_cases hj : j = c
    · subst hj; rw [hVT, hVB, hT2]
    · rw [hoth j hj]
  have hsz : ∀ j, (vAt mT.sorted j).length = (vAt mB.sorted j).length := by
    intro j
    by_cases hj : j = c
    · subst hj; rw [hVT, hVB]; simp
    · rw [hoth j hj]
  have hclk : ∀ j, clock (vAt mT.sorted j) (s j) = clock (vAt mB.sorted j) (s j) :=
    fun j => clock_congr (hdrop j) (le_refl _)
  have hcsl : mT.sorted.length = mB.sorted.length := by rw [mT.sorted_length, mB.sorted_length, hnT, hnB]
  have hrl : (List.replicate n 1).length = mB.sorted.length := by rw [mB.sorted_length, hnB]; simp
  have hsumT : clockSum mT.sorted (List.replicate n 1) s = clockSum mB.sorted (List.replicate n 1) s :=
    clockSum_congr hrl hcsl (fun j _ => hclk j)
  have hsplitB : ∀ u, clockSum mB.sorted (List.replicate n 1) u = clock (vAt mB.sorted c) (u c) +
      ∑ l ∈ (Finset.range n).erase c, clock (vAt mB.sorted l) (u l) := by
    intro u; have := clockSum_split (m := mB) (s := u) (c := c) (by omega); rwa [hnB] at this
  have hsplitT : ∀ u, clockSum mT.sorted (List.replicate n 1) u = clock (vAt mT.sorted c) (u c) +
      ∑ l ∈ (Finset.range n).erase c, clock (vAt mB.sorted l) (u l) := by
    intro u
    have := clockSum_split (m := mT) (s := u) (c := c) (by omega)
    rw [hnT] at this
    rw [this]
    congr 1
    exact Finset.sum_congr rfl fun l hl => by rw [hoth l (Finset.ne_of_mem_erase hl)]
  -- the truthful run finds external competition at the same moment
  have hpassT : Pass z (clockSum mT.sorted (List.replicate n 1) (rank n (T - 1))) := by
    by_cases hci : c = i
    · subst hci
      have hpc : p.getD c 0 = -∑ l ∈ (Finset.range n).erase c, clock (vAt mB.sorted l) (rank n (T - 1) l) := by
        have := OnesTrade.pivot_price (m := mB) (z := z) (T := T) (i := c) (p := p) (d := d) (by
          constructor <;> (try rw [hnB]) <;> assumption)
        rw [hnB] at this
        rw [this]
        congr 1
        refine Finset.sum_congr rfl fun l hl => ?_
        rw [show rank n T l = _ from hOsame l (Finset.mem_range.1 (Finset.mem_of_mem_erase hl)) (Finset.ne_of_mem_erase hl)]
      have hs1 : rank n (T - 1) c = s c - 1 := by omega
      have hlt : s c - 1 < (vAt mT.sorted c).length := by rw [hVT]; simp; omega
      rw [hsplitT, hs1]
      rw [hsplitB, hs1] at hOpass
      have hmemT : clock (vAt mT.sorted c) (s c - 1) ∈ (vAt mT.sorted c).take (s c) := by
        rw [clock_of_lt hlt, List.mem_take_iff_getElem]; exact ⟨s c - 1, by omega, rfl⟩
      generalize clock (vAt mT.sorted c) (s c - 1) = y at hmemT ⊢
      rw [hVT, hT1, mem_sortDesc] at hmemT
      rcases List.mem_cons.1 hmemT with h1 | h1
      · rw [h1]; left; linarith
      · rw [hXtake] at h1
        have h2 := List.mem_of_mem_erase h1
        refine pass_mono hOpass ?_
        have : clock (vAt mB.sorted c) (s c - 1) ≤ y := by
          obtain ⟨q, hq, hqe⟩ := List.getElem_of_mem h2
          rw [clock_of_lt (by rw [← hsz]; exact hlt), ← hqe]
          simp only [hVB, List.getElem_take]
          simp only [List.length_take] at hq
          apply (sortDesc_sorted (b :: X)).getElem_ge; omega
        linarith
    · have : rank n (T - 1) c = s c := (hOsame c hc hci).symm
      rw [hsplitT, this, hclk]
      rw [hsplitB, this] at hOpass
      exact hOpass
  have hfailT : ¬ Pass z (clockSum mT.sorted (List.replicate n 1) (rank n T)) := by
    rw [show clockSum mT.sorted (List.replicate n 1) (rank n T) = _ from hsumT]; exact hOfail
  have hvT' : ∀ i < mT.sorted.length, ∀ x ∈ vAt mT.sorted i, -MAX_VALUE ≤ x := by
    intro i hi x hx
    have hi' : i < mT.categories.length := by rw [mT.sorted_length] at hi; exact hi
    rw [vAt_sorted, mem_sortDesc, vAt_eq_getElem hi'] at hx
    exact (hvT _ (List.getElem_mem hi') x hx).1
  rcases tr_ones hvT hNT hT with ⟨hno, -⟩ | ⟨T', i', p', d', hO', rfl⟩
  · exfalso
    rw [hnT] at hno
    refine hno (pass_mono hpassT ?_)
    exact clockSum_antitone (by rw [mT.sorted_length, hnT]; simp) hvT' (fun l _ => rank_mono _ _ (Nat.zero_le _))
  · have hTT : T' = T := by
      have hrT : (List.replicate n 1).length = mT.sorted.length := by rw [mT.sorted_length, hnT]; simp
      have hp' := hO'.pass
      have hf' := hO'.fail
      have hpos' := hO'.pos
      rw [hnT] at hp' hf'
      by_contra hne
      rcases Nat.lt_or_gt_of_ne hne with hlt | hlt
      · exact hf' (pass_mono hpassT (clockSum_antitone hrT hvT' (fun l _ => rank_mono _ _ (by omega))))
      · exact hfailT (pass_mono hp' (clockSum_antitone hrT hvT' (fun l _ => rank_mono _ _ (by omega))))
    subst hTT
    have hii : i' = i := by
      by_contra hne
      have h1 := hO'.same i (by rw [hnT]; exact hOlt) (Ne.symm hne)
      rw [hnT] at h1
      rw [hs] at hOstep
      omega
    subst hii
    have hdd : d = d' := by
      have h1 := hO'.dle
      have h2 := hO'.dmax
      rw [hnT] at h1 h2
      exact le_antisymm (h2 d hOdle) (hOdmax d' h1)
    subst hdd
    have hpp : p'.getD c 0 = p.getD c 0 := by
      by_cases hci : c = i'
      · subst hci
        have e1 := hO'.pivot_price
        have e2 := OnesTrade.pivot_price (m := mB) (z := z) (T := T') (i := c) (p := p) (d := d) (by
          constructor <;> (try rw [hnB]) <;> assumption)
        rw [hnT] at e1
        rw [hnB] at e2
        rw [e1, e2]
        congr 1
        exact Finset.sum_congr rfl fun l hl => by rw [hoth l (Finset.ne_of_mem_erase hl)]
      · have e1 := hO'.price c (by rw [hnT]; exact hc) hci
        rw [hnT] at e1
        rw [e1, hOprice c hc hci]
        exact hclk c
    rw [hnT, utility_outcome]
    have hvm : v ∈ (vAt mT.sorted c).take (rank n T' c) := by
      rw [hVT]; exact (show _ = _ from hT1) ▸ (mem_sortDesc.2 (by simp))
    rw [if_pos hvm, hpp, List.length_take, List.length_take, hsz]

/-- Non-vacuity of C45: a buyer with value 8 trades at a profit when truthful; it gets nothing from reporting 3. -/
example :
    let m : Market := ⟨[⟨"buyer", [9, 7, 4]⟩, ⟨"seller", [-1, -2, -3, -6]⟩]⟩
    ∃ tT tB, tradeReduction (withAgent m 0 8) (List.replicate m.numCategories 1) = .ok tT ∧
      tradeReduction (withAgent m 0 3) (List.replicate m.numCategories 1) = .ok tB ∧ 0 < utility tT 0 8 8 ∧ utility tB 0 8 3 = 0 ∧
      m.numAgents < 2000000 ∧ (m.numCategories : ℚ) * 9 < MAX_VALUE ∧ -MAX_VALUE ≤ -6 := by
  refine ⟨⟨[⟨"buyer", [9, 8, 7]⟩, ⟨"seller", [-1, -2, -3]⟩], [1, 1], some [6, -6], 3⟩,
    ⟨[⟨"buyer", [9, 7]⟩, ⟨"seller", [-1, -2, -3]⟩], [1, 1], some [4, -4], 2⟩, ?_⟩
  decide +kernel

end Auctions.Props
