import Verif.Props.CompareIterations

set_option autoImplicit false

/-!
# C79: what theory predicts for the comparison of several auctions
-/

namespace Auctions.Props

open Auctions Spec Experiment Ascending TradeReduction McAfee
open Auctions.CompareIterations (Setting Outcome Results AuctionColumns cut Origin MarketOf stockCategories Did Holds)

/-! ## The optimal trades -/

theorem optima {m : Market} {r : List ℕ} (h : r.length = m.numCategories) (hcat : m.categories ≠ []) (hpos : ∃ x ∈ r, 0 < x)
    (hag : m.numAgents ≤ 2000000) :
    ∃ opt rem opt0 rem0, m.optimalTrade r 10000000 false = .ok (opt, rem) ∧ m.optimalTrade r 10000000 true = .ok (opt0, rem0) ∧
      m.optimalTrade r = .ok (opt0, rem0) ∧ opt.numOfDeals ≤ opt0.numOfDeals ∧ opt.gainFromTrade = opt0.gainFromTrade ∧
      (0 < opt.numOfDeals → 0 < opt.gainFromTrade) ∧ (opt.numOfDeals = 0 → opt.gainFromTrade = 0) := by
  obtain ⟨k, hk, ek⟩ := optimalTrade_eq h hcat 10000000 false
  obtain ⟨K, hK, eK⟩ := optimalTrade_eq h hcat 10000000 true
  obtain ⟨K', hK', eK'⟩ := optimalTrade_eq h hcat 2000000 true
  have sK := hK.stopped h (by omega) hpos
  have sK' := hK'.stopped h hag hpos
  have sk := hk.stopped h (by omega) hpos
  have eq : K' = K := by
    rcases lt_trichotomy K K' with hlt | heq | hlt
    · have := hK'.taken K hlt
      rcases sK with h1 | h1
      · exact absurd this.1 h1
      · exact absurd this.2 h1
    · exact heq.symm
    · have := hK.taken K' hlt
      rcases sK' with h1 | h1
      · exact absurd this.1 h1
      · exact absurd this.2 h1
  subst eq
  have good : ∀ {g : ℚ}, Good false g → Good true g := by
    intro g hg
    unfold Good at *
    push Not at *
    exact ⟨hg.1, fun _ => by simp⟩
  have hle : k ≤ K' := by
    by_contra hlt
    push Not at hlt
    have := hk.taken K' hlt
    rcases sK with h1 | h1
    · exact h1 this.1
    · exact h1 (good this.2)
  have hnum : ∀ k, TradeWithMaterialBalance.numOfDeals ⟨((List.range k).map (blk m.sorted r)).reverse⟩ = k := by
    intro k; simp [TradeWithMaterialBalance.numOfDeals]
  refine ⟨_, _, _, _, ek, eK, eK', by rw [hnum, hnum]; exact hle, ?_, ?_, ?_⟩
  · rw [gain_blks, gain_blks]
    have h1 := (hK.sum_le h sK (n := k) (fun t ht => (hk.taken t ht).1)).1
    have h2 := (hk.sum_le h sk (n := K') (fun t ht => (hK.taken t ht).1)).1
    exact le_antisymm h1 h2
  · rw [hnum, gain_blks]
    intro h0
    refine Finset.sum_pos (fun j hj => ?_) ⟨0, Finset.mem_range.2 h0⟩
    have h3 := (hk.taken j (Finset.mem_range.1 hj)).2
    unfold Good at h3
    push Not at h3
    have h4 : (blk m.sorted r j).sum ≠ 0 := fun h => absurd rfl (h3.2 h)
    exact lt_of_le_of_ne h3.1 h4.symm
  · rw [hnum, gain_blks]
    rintro rfl
    simp

/-! ## One contest -/

/-- What is known of one contest. -/
structure ContestFine (n : ℕ) (x : Contest) : Prop where
  count_le : x.optimalDeals ≤ x.optimalDealsWithZero
  within : x.optimalDealsWithZero ≤ n
  gain_eq : x.optimalGain = x.optimalGainWithZero
  gain_pos : 0 < x.optimalDeals → 0 < x.optimalGain
  gain_zero : x.optimalDeals = 0 → x.optimalGain = 0
  each : ∀ y ∈ x.achieved, Fine n ⟨x.optimalDealsWithZero, y.deals, x.optimalGain, y.gain, y.marketGain⟩

theorem optimum_of_measured {A : AuctionFunction} {r : List ℕ} {m : Market} {x : Measurement} (h : Measured A r m x) {opt : TradeWithMaterialBalance} {rem : Market}
    (ho : m.optimalTrade r = .ok (opt, rem)) : x.optimalDeals = opt.numOfDeals ∧ x.optimalGain = opt.gainFromTrade ∧
      Did r m A ⟨x.deals, x.gain, x.marketGain⟩ := by
  obtain ⟨o, re, t, a1, a2, a3, a4, a5, a6, a7⟩ := h
  rw [ho] at a1
  obtain ⟨rfl, rfl⟩ := Prod.mk.inj (Except.ok.inj a1)
  exact ⟨a3, a5, t, a2, a4, a6, a7⟩

theorem predictable_fine {r : List ℕ} (hall : ∀ x ∈ r, 0 < x) (hr : r ≠ []) {n A : ℕ} {m : Market} (hm : Usable r n A m) (hA : A ≤ 2000000)
    {auction : AuctionFunction} (h : Predictable r A auction) : ∃ x, Measured auction r m x ∧ Fine n x := by
  cases h with
  | ascending fuel hf =>
    obtain ⟨x, h1, h2, -⟩ := ascending_fine hall hr hm hA hf
    exact ⟨x, h1, h2⟩
  | reduction =>
    obtain ⟨x, h1, h2, -⟩ := trade_reduction_fine hall hr hm hA
    exact ⟨x, h1, h2⟩
  | mcafee b hones hb =>
    rw [hones] at hm ⊢
    exact mcafee_fine (List.length_pos_iff.2 hr) hb hm

theorem balanced_fine {r : List ℕ} (hall : ∀ x ∈ r, 0 < x) (hr : r ≠ []) {n A : ℕ} {m : Market} (hm : Usable r n A m) (hA : A ≤ 2000000)
    {auction : AuctionFunction} (h : Balanced A auction) : ∃ x, Measured auction r m x ∧ x.marketGain = x.gain := by
  cases h with
  | ascending fuel hf =>
    obtain ⟨x, h1, -, h2⟩ := ascending_fine hall hr hm hA hf
    exact ⟨x, h1, h2⟩
  | reduction =>
    obtain ⟨x, h1, -, h2⟩ := trade_reduction_fine hall hr hm hA
    exact ⟨x, h1, h2⟩

theorem did_unique {r : List ℕ} {m : Market} {A : AuctionFunction} {y z : Achieved} (hy : Did r m A y) (hz : Did r m A z) : y = z := by
  obtain ⟨t, a1, a2, a3, a4⟩ := hy
  obtain ⟨t', b1, b2, b3, b4⟩ := hz
  rw [a1] at b1
  obtain rfl := Option.some.inj (Except.ok.inj b1)
  rw [a3] at b3
  rw [a4] at b4
  cases y; cases z
  simp only at *
  rw [a2, b2, Except.ok.inj b3, Except.ok.inj b4]

theorem forall₂_exists {α β : Type} {R : α → β → Prop} {l : List α} (h : ∀ a ∈ l, ∃ b, R a b) : ∃ l', List.Forall₂ R l l' := by
  induction l with
  | nil => exact ⟨[], .nil⟩
  | cons a l ih =>
    obtain ⟨b, hb⟩ := h a (by simp)
    obtain ⟨l', hl⟩ := ih (fun a ha => h a (by simp [ha]))
    exact ⟨b :: l', .cons hb hl⟩

theorem forall₂_mem_right {α β : Type} {R : α → β → Prop} {l : List α} {l' : List β} (h : List.Forall₂ R l l') {b : β} (hb : b ∈ l') :
    ∃ a ∈ l, R a b := by
  induction h with
  | nil => simp at hb
  | cons h _ ih =>
    rcases List.mem_cons.1 hb with rfl | hb
    · exact ⟨_, by simp, h⟩
    · obtain ⟨a, ha, hR⟩ := ih hb
      exact ⟨a, by simp [ha], hR⟩

/-- On a usable market there is a contest, and every contest on it is fine. -/
theorem contest_fine {auctions : List (Bool × AuctionFunction)} {r : List ℕ} (hall : ∀ x ∈ r, 0 < x) (hr : r ≠ []) {n A : ℕ} {m : Market}
    (hm : Usable r n A m) (hA : A ≤ 2000000) (hp : ∀ a ∈ auctions, Predictable r A a.2) :
    (∃ x, Contested auctions r m x) ∧ ∀ x, Contested auctions r m x → ContestFine n x := by
  have hcat : m.categories ≠ [] := by
    intro h0
    have := hm.length
    simp only [Market.numCategories, h0, List.length_nil] at this
    exact hr (List.length_eq_zero_iff.1 this)
  have hpos : ∃ x ∈ r, 0 < x := by
    obtain ⟨x, hx⟩ := List.exists_mem_of_ne_nil _ hr
    exact ⟨x, hx, hall x hx⟩
  obtain ⟨opt, rem, opt0, rem0, e1, e2, e3, e4, e5, e6, e7⟩ := optima hm.length hcat hpos (le_trans hm.agents hA)
  constructor
  · obtain ⟨ys, hys⟩ := forall₂_exists (R := fun (a : Bool × AuctionFunction) y => Did r m a.2 y) (l := auctions) (fun a ha => by
      obtain ⟨x, hx, -⟩ := predictable_fine hall hr hm hA (hp a ha)
      exact ⟨_, (optimum_of_measured hx e3).2.2⟩)
    exact ⟨⟨opt.numOfDeals, opt0.numOfDeals, opt.gainFromTrade, opt0.gainFromTrade, ys⟩, opt, rem, opt0, rem0, e1, e2, rfl, rfl, rfl, rfl, hys⟩
  · rintro x ⟨o, re, o0, re0, b1, b2, b3, b4, b5, b6, b7⟩
    rw [e1] at b1
    obtain ⟨rfl, rfl⟩ := Prod.mk.inj (Except.ok.inj b1)
    rw [e2] at b2
    obtain ⟨rfl, rfl⟩ := Prod.mk.inj (Except.ok.inj b2)
    have hfine : ∀ y ∈ x.achieved, Fine n ⟨x.optimalDealsWithZero, y.deals, x.optimalGain, y.gain, y.marketGain⟩ := by
      intro y hy
      obtain ⟨a, ha, hy⟩ := forall₂_mem_right b7 hy
      obtain ⟨z, hz, hf⟩ := predictable_fine hall hr hm hA (hp a ha)
      obtain ⟨c1, c2, c3⟩ := optimum_of_measured hz e3
      have := did_unique hy c3
      subst this
      rw [b4, ← c1, b5, e5, ← c2]
      exact hf
    have hw : x.optimalDealsWithZero ≤ n := by
      obtain ⟨K, hK, eK⟩ := optimalTrade_eq hm.length hcat 10000000 true
      rw [e2] at eK
      have := (Prod.mk.inj (Except.ok.inj eK)).1
      rw [b4, this]
      simpa [TradeWithMaterialBalance.numOfDeals] using optimal_within hm.size hK
    exact ⟨by rw [b3, b4]; exact e4, hw, by rw [b5, b6]; exact e5, by rw [b3, b5]; exact e6, by rw [b3, b5]; exact e7, hfine⟩

/-! ## Notes -/

theorem marked_mem {auctions : List (Bool × AuctionFunction)} {r : List ℕ} {m : Market} {x : Contest} (hx : Contested auctions r m x) {y : Achieved}
    (hy : y ∈ marked auctions x) : ∃ a ∈ auctions, a.1 = true ∧ Did r m a.2 y := by
  obtain ⟨_, _, _, _, _, _, _, _, _, _, h⟩ := hx
  unfold marked at hy
  generalize x.achieved = ys at h hy
  induction h with
  | nil => simp at hy
  | @cons a z as zs hd _ ih =>
    rw [List.zip_cons_cons, List.filter_cons] at hy
    by_cases ha : a.1 = true
    · rw [if_pos ha, List.map_cons, List.mem_cons] at hy
      rcases hy with rfl | hy
      · exact ⟨a, by simp, ha, hd⟩
      · obtain ⟨b, hb, h⟩ := ih hy
        exact ⟨b, by simp [hb], h⟩
    · rw [if_neg ha] at hy
      obtain ⟨b, hb, h⟩ := ih hy
      exact ⟨b, by simp [hb], h⟩

theorem balanced_same {r : List ℕ} (hall : ∀ x ∈ r, 0 < x) (hr : r ≠ []) {n A : ℕ} {m : Market} (hm : Usable r n A m) (hA : A ≤ 2000000)
    (hdvd : ∀ i (hi : i < m.categories.length), r.getD i 0 ∣ m.categories[i].size) {f g : AuctionFunction} (hf : Balanced A f) (hg : Balanced A g)
    {y z : Achieved} (hy : Did r m f y) (hz : Did r m g z) : y.deals = z.deals ∧ (OnesThen r → y.gain = z.gain) := by
  have key : ∀ {f : AuctionFunction} {y z : Achieved}, Balanced A f → Did r m f y → Did r m (fun m r => (tradeReduction m r).map some) z →
      y.deals = z.deals ∧ (OnesThen r → y.gain = z.gain) := by
    intro f y z hf hy hz
    cases hf with
    | reduction => rw [did_unique hy hz]; exact ⟨rfl, fun _ => rfl⟩
    | ascending fuel hlt =>
      obtain ⟨u, v, hu, hv, h1, h2, h3, h4⟩ := both_measured hall hr hm hdvd hA hlt
      obtain ⟨o, re, t, a1, a2, a3, a4, a5, a6, a7⟩ := hu
      obtain ⟨o', re', t', b1, b2, b3, b4, b5, b6, b7⟩ := hv
      have e1 := did_unique hz (z := ⟨u.deals, u.gain, u.marketGain⟩) ⟨t, a2, a4, a6, a7⟩
      have e2 := did_unique hy (z := ⟨v.deals, v.gain, v.marketGain⟩) ⟨t', b2, b4, b6, b7⟩
      rw [e1, e2]
      exact ⟨h3.symm, fun h => by rw [h4 h]⟩
  obtain ⟨u, hu, -⟩ := balanced_fine hall hr hm hA (Balanced.reduction (A := A))
  obtain ⟨o, re, t, a1, a2, a3, a4, a5, a6, a7⟩ := hu
  have hw : Did r m (fun m r => (tradeReduction m r).map some) ⟨u.deals, u.gain, u.marketGain⟩ := ⟨t, a2, a4, a6, a7⟩
  obtain ⟨h1, h2⟩ := key hf hy hw
  obtain ⟨h3, h4⟩ := key hg hz hw
  exact ⟨by rw [h1, h3], fun h => by rw [h2 h, h4 h]⟩

theorem notes_zero {b : Bool} {vs : List ℚ} (h : ∀ v ∈ vs, ∀ w ∈ vs, v = w) : notes b vs = 0 := by
  cases vs with
  | nil => rfl
  | cons v vs =>
    have e : ∀ w ∈ vs, w = v := fun w hw => h w (by simp [hw]) v (by simp)
    simp only [notes]
    rw [if_neg, if_neg]
    · rintro ⟨w, hw, hlt⟩
      rw [e w hw] at hlt
      exact lt_irrefl _ hlt
    · rintro ⟨-, w, hw, hne⟩
      exact hne (e w hw)

theorem no_notes {auctions : List (Bool × AuctionFunction)} {r : List ℕ} (hall : ∀ x ∈ r, 0 < x) (hr : r ≠ []) {n A : ℕ} {m : Market} (hm : Usable r n A m)
    (hA : A ≤ 2000000) (hdvd : ∀ i (hi : i < m.categories.length), r.getD i 0 ∣ m.categories[i].size)
    (hb : ∀ a ∈ auctions, a.1 = true → Balanced A a.2) {x : Contest} (hx : Contested auctions r m x) (b : Bool) :
    dealNotes b auctions x = 0 ∧ (OnesThen r → gainNotes b auctions x = 0) := by
  have key : ∀ y ∈ marked auctions x, ∀ z ∈ marked auctions x, y.deals = z.deals ∧ (OnesThen r → y.gain = z.gain) := by
    intro y hy z hz
    obtain ⟨f, hf, hf1, hy⟩ := marked_mem hx hy
    obtain ⟨g, hg, hg1, hz⟩ := marked_mem hx hz
    exact balanced_same hall hr hm hA hdvd (hb f hf hf1) (hb g hg hg1) hy hz
  constructor
  · refine notes_zero ?_
    intro v hv w hw
    obtain ⟨y, hy, rfl⟩ := List.mem_map.1 hv
    obtain ⟨z, hz, rfl⟩ := List.mem_map.1 hw
    exact_mod_cast (key y hy z hz).1
  · intro ho
    refine notes_zero ?_
    intro v hv w hw
    obtain ⟨y, hy, rfl⟩ := List.mem_map.1 hv
    obtain ⟨z, hz, rfl⟩ := List.mem_map.1 hw
    exact (key y hy z hz).2 ho

/-! ## The row -/

theorem fine_gain_nonneg {n : ℕ} {x : Contest} (hx : ContestFine n x) : 0 ≤ x.optimalGain := by
  rcases Nat.eq_zero_or_pos x.optimalDeals with h | h
  · rw [hx.gain_zero h]
  · exact (hx.gain_pos h).le

theorem percentage_nonneg {g a b : ℚ} (ha : 0 ≤ a) (hb : 0 ≤ b) : 0 ≤ percentage g a b := by
  unfold percentage
  split_ifs
  · exact le_refl _
  · positivity

theorem percentage_le {g a b : ℚ} (h : a ≤ b) (hb : g ≠ 0 → 0 < b) : percentage g a b ≤ 100 := by
  unfold percentage
  split_ifs with h0
  · norm_num
  · have := hb h0
    have : a / b ≤ 1 := (div_le_one this).2 h
    linarith

theorem percentage_mono {g a a' b : ℚ} (h : a ≤ a') (hb : 0 ≤ b) : percentage g a b ≤ percentage g a' b := by
  unfold percentage
  split_ifs
  · exact le_refl _
  · have := div_le_div_of_nonneg_right h hb
    linarith

theorem promised_nonneg (r : List ℕ) (k : ℕ) : 0 ≤ promised r k := by
  unfold promised
  split_ifs with h1 h2
  · exact le_refl _
  all_goals
    have : (1 : ℚ) ≤ k := by exact_mod_cast (show 1 ≤ k by omega)
    have h3 : (0 : ℚ) ≤ k - 1 := by linarith
    positivity

theorem promised_le_one (r : List ℕ) (k : ℕ) (hk : 0 < k) : promised r k ≤ (1 - 1 / (k : ℚ)) * 100 := by
  have hk' : (1 : ℚ) ≤ k := by exact_mod_cast hk
  have e : (1 - 1 / (k : ℚ)) = (k - 1) / k := by field_simp
  rw [e]
  unfold promised
  split_ifs with h1 h2
  · have : (0 : ℚ) ≤ (k - 1) / k := div_nonneg (by linarith) (by linarith)
    linarith
  · exact le_refl _
  · have : ((k : ℚ) - 1) / (k + 1) ≤ (k - 1) / k := div_le_div_of_nonneg_left (by linarith) (by linarith) (by linarith)
    linarith

theorem promised_le_100 (r : List ℕ) (k : ℕ) : promised r k ≤ 100 := by
  rcases Nat.eq_zero_or_pos k with rfl | hk
  · simp [promised]
  · have := promised_le_one r k hk
    have : (0 : ℚ) ≤ 1 / k := by positivity
    linarith

theorem promised_le {r : List ℕ} {n : ℕ} {x : Contest} (hx : ContestFine n x) {y : Achieved} (hy : y ∈ x.achieved) :
    promised r x.optimalDeals ≤ percentage x.optimalGain y.gain x.optimalGainWithZero := by
  have hf := hx.each y hy
  have hG := fine_gain_nonneg hx
  rw [← hx.gain_eq]
  rcases Nat.eq_zero_or_pos x.optimalDeals with h0 | h0
  · rw [h0]
    simp only [promised, Nat.zero_le, if_true]
    exact percentage_nonneg hf.gain_nonneg hG
  · have hp := hx.gain_pos h0
    refine (promised_le_one r _ h0).trans ?_
    rw [percentage, if_neg hp.ne']
    have hk : (0 : ℚ) < x.optimalDeals := by exact_mod_cast h0
    have hK : (x.optimalDeals : ℚ) ≤ x.optimalDealsWithZero := by exact_mod_cast hx.count_le
    have h1 : 1 / (x.optimalDealsWithZero : ℚ) ≤ 1 / x.optimalDeals := one_div_le_one_div_of_le hk hK
    have h2 := hf.gain_ge (lt_of_lt_of_le h0 hx.count_le)
    simp only at h2
    have h3 : (1 - 1 / (x.optimalDeals : ℚ)) ≤ y.gain / x.optimalGain := by
      rw [le_div_iff₀ hp]
      refine le_trans ?_ h2
      exact mul_le_mul_of_nonneg_right (by linarith) hp.le
    linarith

theorem mean_mono {D : ℕ} {f g : Contest → ℚ} {xs : List Contest} (h : ∀ x ∈ xs, f x ≤ g x) :
    CompareIterations.total f xs / D ≤ CompareIterations.total g xs / D :=
  div_le_div_of_nonneg_right (List.sum_le_sum h) (by positivity)

theorem mean_le {f : Contest → ℚ} {b : ℚ} {xs : List Contest} (hne : xs ≠ []) (h : ∀ x ∈ xs, f x ≤ b) :
    CompareIterations.total f xs / xs.length ≤ b := by
  have h1 := mean_mono (D := xs.length) (f := f) (g := fun _ => b) h
  have h2 : (0 : ℚ) < xs.length := by exact_mod_cast List.length_pos_iff.2 hne
  refine h1.trans_eq ?_
  simp only [CompareIterations.total, List.map_const', List.sum_replicate, nsmul_eq_mul]
  field_simp

theorem mean_nonneg {D : ℕ} {f : Contest → ℚ} {xs : List Contest} (h : ∀ x ∈ xs, 0 ≤ f x) : 0 ≤ CompareIterations.total f xs / D := by
  refine div_nonneg (List.sum_nonneg ?_) (by positivity)
  intro v hv
  obtain ⟨x, hx, rfl⟩ := List.mem_map.1 hv
  exact h x hx

theorem cut_nonneg {d : ℕ} {x : ℚ} (h : 0 ≤ x) : 0 ≤ cut d x := by
  have := cut_mono (d := d) h
  rwa [show cut d 0 = 0 by simpa using cut_int d 0] at this

theorem cut_le_nat {d : ℕ} {x : ℚ} {n : ℕ} (h : x ≤ n) : cut d x ≤ n := by
  have := cut_mono (d := d) h
  rwa [show cut d (n : ℚ) = n by simpa using cut_int d n] at this

theorem cut_add_one {d : ℕ} {x : ℚ} (h : 0 ≤ x) : cut d (x + 1) = cut d x + 1 := by
  unfold cut
  have h10 : (0 : ℚ) < 10 ^ d := by positivity
  have h1 : (0 : ℚ) ≤ x * 10 ^ d := by positivity
  have h2 : (0 : ℚ) ≤ (x + 1) * 10 ^ d := by positivity
  rw [pyInt, pyInt, if_pos h1, if_pos h2]
  have e : (x + 1) * 10 ^ d = x * 10 ^ d + ((10 ^ d : ℤ) : ℚ) := by push_cast; ring
  rw [e, Int.floor_add_intCast]
  push_cast
  field_simp

theorem row_predicted {name : String} {r : List ℕ} {n A : ℕ} {xs : List Contest} (hne : xs ≠ []) (hx : ∀ x ∈ xs, ContestFine n x)
    (hA : ∀ x ∈ xs, x.achieved.length = A) :
    ContestsAsPredicted ((CompareIterations.sumResults name r n A xs).average xs.length) := by
  refine ⟨⟨cut_nonneg (mean_nonneg fun x _ => by positivity), cut_mono (mean_mono fun x h => by exact_mod_cast (hx x h).count_le)⟩,
    cut_le_nat (mean_le hne fun x h => by exact_mod_cast (hx x h).within), ?_,
    ⟨cut_nonneg (mean_nonneg fun x _ => promised_nonneg _ _), ?_⟩, ?_⟩
  · show cut 2 _ = cut 2 _
    have : CompareIterations.total (fun x => x.optimalGain) xs = CompareIterations.total (fun x => x.optimalGainWithZero) xs := by
      unfold CompareIterations.total
      rw [List.map_congr_left fun x h => (hx x h).gain_eq]
    simp only [CompareIterations.sumResults, this]
  · exact_mod_cast cut_le_nat (n := 100) (mean_le hne fun x _ => by exact_mod_cast promised_le_100 _ _)
  · intro c hc
    simp only [Results.average, CompareIterations.sumResults, List.map_map, List.mem_map, List.mem_range, Function.comp] at hc
    obtain ⟨j, hj, rfl⟩ := hc
    have hn : ∀ x ∈ xs, CompareIterations.nth j x ∈ x.achieved := by
      intro x h
      have : j < x.achieved.length := by rw [hA x h]; exact hj
      rw [CompareIterations.nth, List.getD_eq_getElem?_getD, List.getElem?_eq_getElem this]
      exact List.getElem_mem _
    have hf := fun x h => (hx x h).each _ (hn x h)
    have hw : ∀ x ∈ xs, percentage x.optimalGain (CompareIterations.nth j x).gain x.optimalGain =
        percentage x.optimalGain (CompareIterations.nth j x).gain x.optimalGainWithZero := fun x h => by rw [(hx x h).gain_eq]
    refine ⟨?_, ?_, ⟨?_, ?_⟩, ⟨?_, ?_⟩, ?_, ?_, ?_, ⟨rfl, ?_, ?_⟩, ?_⟩
    · exact cut_mono (mean_mono fun x h => by exact_mod_cast (hf x h).deals_le)
    · have hnn : 0 ≤ CompareIterations.total (fun x => ((CompareIterations.nth j x).deals : ℚ)) xs / xs.length := mean_nonneg fun x _ => by positivity
      show cut 2 _ ≤ cut 2 _ + 1
      rw [← cut_add_one (x := (CompareIterations.sumColumns xs j).count / xs.length) hnn]
      refine cut_mono ?_
      have hpos : (0 : ℚ) < xs.length := by exact_mod_cast List.length_pos_iff.2 hne
      have e : CompareIterations.total (fun x => ((CompareIterations.nth j x).deals : ℚ) + 1) xs =
          CompareIterations.total (fun x => ((CompareIterations.nth j x).deals : ℚ)) xs + xs.length := by
        unfold CompareIterations.total
        rw [List.sum_map_add]
        simp
      have h1 := mean_mono (D := xs.length) (xs := xs) (f := fun x => (x.optimalDealsWithZero : ℚ))
        (g := fun x => ((CompareIterations.nth j x).deals : ℚ) + 1) (fun x h => by exact_mod_cast (hf x h).one)
      rw [e, add_div, div_self hpos.ne'] at h1
      exact h1
    · exact cut_nonneg (mean_nonneg fun x _ => percentage_nonneg (by positivity) (by positivity))
    · have : ∀ x ∈ xs, percentage x.optimalDeals (CompareIterations.nth j x).deals x.optimalDealsWithZero ≤ ((100 : ℕ) : ℚ) := fun x h => by
        refine (percentage_le (by exact_mod_cast (hf x h).deals_le) fun h0 => ?_).trans_eq (by norm_num)
        have h1 : x.optimalDeals ≠ 0 := by exact_mod_cast h0
        have h2 := (hx x h).count_le
        exact_mod_cast (show 0 < x.optimalDealsWithZero by omega)
      exact_mod_cast cut_le_nat (mean_le hne this)
    · exact cut_nonneg (mean_nonneg fun x h => (hf x h).gain_nonneg)
    · exact cut_mono (mean_mono fun x h => (hf x h).gain_le)
    · have : ∀ x ∈ xs, percentage x.optimalGain (CompareIterations.nth j x).gain x.optimalGainWithZero ≤ ((100 : ℕ) : ℚ) := fun x h => by
        rw [← (hx x h).gain_eq]
        exact (percentage_le (hf x h).gain_le fun h0 => lt_of_le_of_ne (fine_gain_nonneg (hx x h)) (Ne.symm h0)).trans_eq (by norm_num)
      exact_mod_cast cut_le_nat (mean_le hne this)
    · exact cut_mono (mean_mono fun x h => (hf x h).market_le)
    · exact cut_mono (mean_mono fun x h => percentage_mono (hf x h).market_le (by rw [← (hx x h).gain_eq]; exact fine_gain_nonneg (hx x h)))
    · show cut 3 _ = cut 3 _
      simp only [CompareIterations.sumColumns, CompareIterations.total]
      rw [List.map_congr_left hw]
    · refine cut_mono (mean_mono fun x h => ?_)
      unfold percentage
      split_ifs with h0
      · exact le_refl _
      · have h1 : x.optimalDeals ≠ 0 := by exact_mod_cast h0
        have hk : (0 : ℚ) < x.optimalDeals := by exact_mod_cast Nat.pos_of_ne_zero h1
        have hK : (x.optimalDeals : ℚ) ≤ x.optimalDealsWithZero := by exact_mod_cast (hx x h).count_le
        have := div_le_div_of_nonneg_left (show (0 : ℚ) ≤ (CompareIterations.nth j x).deals by positivity) hk hK
        linarith
    · exact cut_mono (mean_mono fun x h => promised_le (hx x h) (hn x h))

/-! ## The markets -/

theorem drawn_of_dealt {prices : List ℚ} {r used : List ℕ} {n : ℕ} {m : Market} {B : ℚ} (h0 : r.getD 0 0 ≠ 0) (hB : ∀ p ∈ prices, |p| ≤ B)
    (hne : prices ≠ []) (h : DealtFrom prices r used n m) : Drawn r n (List.replicate r.length (-(B * r.sum), B * r.sum)) m := by
  obtain ⟨e, order, h1, h2, -, h4, h5⟩ := h
  have hB0 : 0 ≤ B := by
    obtain ⟨p, hp⟩ := List.exists_mem_of_ne_nil _ hne
    exact (abs_nonneg p).trans (hB p hp)
  have hr1 : 1 ≤ r.sum := by
    cases r with
    | nil => simp at h0
    | cons a l => simp at h0 ⊢; omega
  have hr1' : (1 : ℚ) ≤ (r.sum : ℕ) := by exact_mod_cast hr1
  have hs : buyerSign r ≤ (r.sum : ℕ) := by
    unfold buyerSign
    have h6 : (1 : ℚ) ≤ (r.getD 0 0 : ℕ) := by exact_mod_cast Nat.one_le_iff_ne_zero.2 h0
    rw [div_le_iff₀ (by linarith)]
    nlinarith
  refine ⟨h4, fun j hj => ?_⟩
  have hjr : j < r.length := by unfold Market.numCategories at h4; omega
  have h6 := h5 j hjr
  have ev : m.valueLists.getD j [] = m.categories[j].values := by
    simp [Market.valueLists, List.getD_eq_getElem?_getD, hj]
  rw [ev] at h6
  have hle : (r.take j).sum + r.getD j 0 ≤ r.sum := by
    have h7 : (r.take j).sum + (r.drop j).sum = r.sum := List.sum_take_add_sum_drop r j
    rw [List.drop_eq_getElem_cons hjr, List.sum_cons] at h7
    rw [List.getD_eq_getElem?_getD, List.getElem?_eq_getElem hjr, Option.getD_some]
    omega
  refine ⟨?_, fun v hv => ?_⟩
  · show m.categories[j].values.length = _
    rw [h6.length_eq, List.length_map, List.length_take, List.length_drop]
    have : n * (r.take j).sum + n * r.getD j 0 ≤ n * r.sum := by
      rw [← Nat.mul_add]; exact Nat.mul_le_mul_left _ hle
    omega
  · obtain ⟨p, hp, rfl⟩ := List.mem_map.1 (h6.mem_iff.1 hv)
    have hp1 : p ∈ prices := by
      have := h1.mem_iff.1 (List.mem_of_mem_drop (List.mem_of_mem_take hp))
      obtain ⟨l, hl, hpl⟩ := List.mem_flatten.1 this
      rw [List.eq_of_mem_replicate hl] at hpl
      exact hpl
    have hpB := hB p hp1
    set s : ℚ := if j = 0 then ((r.sum : ℚ) - r.getD 0 0) / r.getD 0 0 else -1 with hsdef
    have hsabs : |s| ≤ (r.sum : ℕ) := by
      rw [hsdef]
      split_ifs
      · rw [abs_of_nonneg (show 0 ≤ ((r.sum : ℚ) - r.getD 0 0) / r.getD 0 0 from buyerSign_nonneg)]; exact hs
      · simpa using hr1'
    have hv1 : |(pyInt (p * s) : ℚ)| ≤ B * r.sum := by
      refine (pyInt_spec (p * s)).2.1.trans ?_
      rw [abs_mul]
      exact mul_le_mul hpB hsabs (abs_nonneg _) hB0
    have e1 : (List.replicate r.length (-(B * (r.sum : ℚ)), B * (r.sum : ℚ))).getD j 0 = (-(B * (r.sum : ℚ)), B * (r.sum : ℚ)) := by
      simp [List.getD_eq_getElem?_getD, hjr]
    rw [e1]
    have h8 := abs_le.1 hv1
    exact ⟨⟨_, rfl⟩, by linarith [h8.1], by linarith [h8.2]⟩

section

variable {auctions : List (Bool × AuctionFunction)} {r : List ℕ} {ns : List ℕ} {prices : List (List ℚ)} {names : List String} {N : ℕ}
  {stockMode asked : Bool} {shuffle : ℕ → ℕ → ℕ → List ℚ → List ℚ} {random : ℕ → ℕ → ℕ → ℕ → ℕ → ℚ} {out : Outcome}

theorem first_pos (hs : SensibleContests r ns prices names stockMode shuffle random) : r.getD 0 0 ≠ 0 := by
  have hlen : 0 < r.length := List.length_pos_iff.2 hs.recipe
  rw [List.getD_eq_getElem?_getD, List.getElem?_eq_getElem hlen]
  exact (hs.positive _ (List.getElem_mem _)).ne'

/-- The markets of sensible comparisons are usable. -/
theorem usable_contest (hs : SensibleContests r ns prices names stockMode shuffle random) {original : List ℚ} (ho : original ∈ prices) {used : List ℕ} {n : ℕ}
    (hn : n ∈ ns) {rand : ℕ → ℕ → ℚ} (hrand : ∀ i a, 0 ≤ rand i a ∧ rand i a ≤ 1) {m : Market}
    (h : Origin ⟨auctions, r, buyerSign r, names, N, stockMode, asked⟩ original used n rand m) :
    Usable r n 2000000 m ∧ ∀ i (hi : i < m.categories.length), r.getD i 0 ∣ m.categories[i].size := by
  have h0 := first_pos hs
  have hr1 : (1 : ℚ) ≤ (r.sum : ℕ) := by
    have : 1 ≤ r.sum := by
      cases hr : r with
      | nil => exact absurd hr hs.recipe
      | cons a l => rw [hr] at h0; simp at h0 ⊢; omega
    exact_mod_cast this
  have key : ∀ {rg : List (ℚ × ℚ)}, r.length ≤ rg.length →
      (∀ x ∈ rg, 1 / 2 - MAX_VALUE ≤ x.1 ∧ x.1 ≤ x.2 ∧ (r.sum : ℚ) * (x.2 + 1 / 2) < MAX_VALUE) → Drawn r n rg m →
      Usable r n 2000000 m ∧ ∀ i (hi : i < m.categories.length), r.getD i 0 ∣ m.categories[i].size := by
    intro rg h1 h2 h3
    have hu := usable_of_drawn hs.positive hs.recipe h1 h2 h3
    exact ⟨⟨hu.length, hu.size, hu.low, hu.high, hu.agents.trans (hs.agents n hn)⟩, dvd_of_drawn h3⟩
  cases hc : stockMode with
  | true =>
    subst hc
    obtain ⟨B, hB, hlt⟩ := hs.prices rfl
    have hd := (dealt_of_origin (c := ⟨auctions, r, buyerSign r, names, N, true, asked⟩) rfl h0 rfl h).1
    have hB0 : 0 ≤ B := by
      obtain ⟨p, hp⟩ := List.exists_mem_of_ne_nil _ (hB original ho).1
      exact (abs_nonneg p).trans ((hB original ho).2 p hp)
    refine key (by simp) ?_ (drawn_of_dealt h0 (hB original ho).2 (hB original ho).1 hd)
    intro x hx
    obtain rfl := List.eq_of_mem_replicate hx
    have h1 : 0 ≤ B * (r.sum : ℚ) := by positivity
    simp only
    refine ⟨?_, by linarith, hlt⟩
    nlinarith
  | false =>
    subst hc
    have hd := (drawn_of_origin (c := ⟨auctions, r, buyerSign r, names, N, false, asked⟩) rfl hrand rfl h).1
    refine key (rg := ranges r) ?_ ?_ hd
    · have := List.length_pos_iff.2 hs.recipe
      simp [ranges]; omega
    · have h31 : (r.sum : ℚ) ≤ 31 := by exact_mod_cast hs.drawn rfl
      have hb0 := buyerSign_nonneg (r := r)
      have hb1 : buyerSign r ≤ 30 := by
        have h6 : (1 : ℚ) ≤ (r.getD 0 0 : ℕ) := by exact_mod_cast Nat.one_le_iff_ne_zero.2 h0
        unfold buyerSign
        rw [div_le_iff₀ (by linarith)]
        linarith
      intro x hx
      simp only [ranges, List.mem_cons] at hx
      rcases hx with rfl | hx
      · change 1 / 2 - MAX_VALUE ≤ buyerSign r ∧ buyerSign r ≤ 100000 * buyerSign r ∧ (r.sum : ℚ) * (100000 * buyerSign r + 1 / 2) < MAX_VALUE
        unfold MAX_VALUE
        refine ⟨by linarith, by linarith, ?_⟩
        have : (r.sum : ℚ) * (100000 * buyerSign r + 1 / 2) ≤ 31 * (100000 * 30 + 1 / 2) :=
          mul_le_mul h31 (by linarith) (by linarith) (by norm_num)
        linarith
      · obtain rfl := List.eq_of_mem_replicate hx
        unfold MAX_VALUE
        simp only
        refine ⟨by norm_num, by norm_num, ?_⟩
        linarith

/-! ## The experiment returns -/

theorem marketOf_defined {c : Setting} (hr : c.recipe ≠ []) (n : ℕ) (p : List ℚ) (rand : ℕ → ℕ → ℚ) : ∃ m, MarketOf c n p rand m := by
  unfold MarketOf
  cases hrec : c.recipe with
  | nil => exact absurd hrec hr
  | cons a l =>
    split_ifs
    · exact ⟨_, rfl⟩
    · exact ⟨_, rfl⟩

theorem iterations_defined {c : Setting} (hr : c.recipe ≠ []) {i n : ℕ} (hi : i < c.stockNames.length) {sh : ℕ → List ℚ → List ℚ} {rand : ℕ → ℕ → ℕ → ℚ}
    (hsh : ∀ it l, (sh it l).Perm l) {original : List ℚ} (ho : c.runWithStockPrices = true → original ≠ []) {used : List ℕ} (hn : n ∈ used)
    (hm : ∀ it m, Origin c original used n (rand it) m → ∃ x, Contested c.auctions c.recipe m x ∧ ContestFine n x) (left it : ℕ) {p : List ℚ}
    (hl : CompareIterations.ListOf original (fun n => n * c.recipe.sum) used p) (s : CompareIterations.State) :
    ∃ q, CompareIterations.iterations c i n sh rand left it p s = .ok (some q) := by
  induction left generalizing it p s with
  | zero => exact ⟨_, rfl⟩
  | succ left ih =>
    have hp : ∃ p', (if c.runWithStockPrices then (CompareIterations.doubled (n * c.recipe.sum) p).map (sh it) else some p) = some p' ∧
        CompareIterations.ListOf original (fun n => n * c.recipe.sum) used p' ∧ (c.runWithStockPrices = true → n * c.recipe.sum ≤ p'.length) := by
      by_cases hc : c.runWithStockPrices = true
      · have hpne : p ≠ [] := by
          obtain ⟨e, h1, -⟩ := hl
          intro hnil
          rw [hnil] at h1
          have := h1.symm.eq_nil
          simp [ho hc] at this
        obtain ⟨d, hd⟩ := CompareIterations.doubledLoop_defined (target := n * c.recipe.sum) (n * c.recipe.sum) (prices := p) (by omega) (.inl hpne)
        have := hl.step hn hd (hsh it d)
        rw [if_pos hc]
        exact ⟨sh it d, by rw [CompareIterations.doubled, hd]; rfl, this.1, fun _ => this.2⟩
      · rw [if_neg hc]
        exact ⟨p, rfl, hl, fun h => absurd h hc⟩
    obtain ⟨p', h1, h2, h3⟩ := hp
    obtain ⟨m, hmk⟩ := marketOf_defined hr n p' (rand it)
    obtain ⟨x, hx, hf⟩ := hm it m ⟨p', hmk, fun hc => ⟨h2, h3 hc⟩⟩
    have hk : x.optimalDeals ≠ 0 → x.optimalDealsWithZero ≠ 0 := fun h => by have := hf.count_le; omega
    obtain ⟨s', hs'⟩ := CompareIterations.addMarket_defined (b := c.reportDiff) (n := n) (s := s) hx hk (by rw [hf.gain_eq]; exact id) hi
    obtain ⟨q, hq⟩ := ih (it + 1) h2 s'
    refine ⟨q, ?_⟩
    rw [CompareIterations.iterations, h1]
    unfold MarketOf at hmk
    simp only [hmk, hs', hq, bind, Except.bind]

theorem sizes_defined {c : Setting} (hr : c.recipe ≠ []) {i : ℕ} (hi : i < c.stockNames.length) {sh : ℕ → ℕ → List ℚ → List ℚ} {rand : ℕ → ℕ → ℕ → ℕ → ℚ}
    (hsh : ∀ j it l, (sh j it l).Perm l) {original : List ℚ} (ho : c.runWithStockPrices = true → original ≠ []) (before nums : List ℕ)
    (hm : ∀ j used, ∀ n ∈ nums, ∀ it m, Origin c original used n (rand j it) m → ∃ x, Contested c.auctions c.recipe m x ∧ ContestFine n x) (j : ℕ) {p : List ℚ}
    (hl : CompareIterations.ListOf original (fun n => n * c.recipe.sum) before p) (s : CompareIterations.State) :
    ∃ q, CompareIterations.sizes c i sh rand j nums p s = .ok (some q) := by
  induction nums generalizing before j p s with
  | nil => exact ⟨_, rfl⟩
  | cons n ns ih =>
    obtain ⟨⟨p', s'⟩, hq⟩ := iterations_defined hr hi (hsh j) ho (used := before ++ [n]) (n := n) (by simp)
      (fun it m => hm j _ n (by simp) it m) c.numOfIterations 0 (hl.mono (by simp +contextual)) s
    have hl' := (CompareIterations.iterations_some (hsh j) (used := before ++ [n]) (by simp) c.numOfIterations 0 (hl.mono (by simp +contextual)) hq).1
    obtain ⟨q, hq'⟩ := ih (before ++ [n]) (fun j used n hn => hm j used n (by simp [hn])) (j + 1) hl' s'
    exact ⟨q, by simp only [CompareIterations.sizes, hq, hq', bind, Except.bind]⟩

theorem stocks_defined {c : Setting} (hr : c.recipe ≠ []) {nums : List ℕ} {sh : ℕ → ℕ → ℕ → List ℚ → List ℚ} {rand : ℕ → ℕ → ℕ → ℕ → ℕ → ℚ}
    (hsh : ∀ a j it l, (sh a j it l).Perm l) (i : ℕ) (prices : List (List ℚ)) (hi : i + prices.length ≤ c.stockNames.length)
    (ho : c.runWithStockPrices = true → ∀ p ∈ prices, p ≠ [])
    (hm : ∀ a, ∀ p ∈ prices, ∀ j used, ∀ n ∈ nums, ∀ it m, Origin c p used n (rand a j it) m → ∃ x, Contested c.auctions c.recipe m x ∧ ContestFine n x)
    (s : CompareIterations.State) : ∃ q, CompareIterations.stocks c nums sh rand i prices s = .ok (some q) := by
  induction prices generalizing i s with
  | nil => exact ⟨_, rfl⟩
  | cons p ps ih =>
    rw [List.length_cons] at hi
    obtain ⟨s', hq⟩ := sizes_defined hr (i := i) (by omega) (hsh i) (original := p) (fun h => ho h p (by simp)) [] nums
      (fun j used n hn => hm i p (by simp) j used n hn) 0 (p := p) ⟨0, by simp, by simp⟩ s
    obtain ⟨q, hq'⟩ := ih (i + 1) (by omega) (fun h p hp => ho h p (by simp [hp])) (fun a p hp => hm a p (by simp [hp])) s'
    have hg : pyGet c.stockNames i = .ok c.stockNames[i] := by simp [pyGet, show i < c.stockNames.length by omega]
    exact ⟨q, by simp only [CompareIterations.stocks, hq, hg, hq', bind, Except.bind]⟩

/-- **C79**. For sensible arguments and the auctions for which theory makes predictions, `experiment` returns, and every row is as theory predicts; in particular the column
`gftratioformula` never exceeds a column `totalgftratio`. If all marked auctions (the `SBB` ones) are strongly budget balanced, nothing is ever written to
`diff_in_sbbs_k.txt`; and if all counts of the recipe but the last are 1, nothing is written to `diff_in_sbbs_gft.txt`, either. -/
theorem compare_as_predicted (hs : SensibleContests r ns prices names stockMode shuffle random) (hp : ∀ a ∈ auctions, Predictable r 2000000 a.2) :
    ∃ out, CompareIterations.experiment auctions r ns prices names N stockMode asked shuffle random = .ok (some out) ∧
      out.table.length = ns.length ∧
      (∀ o ∈ out.table, if N * prices.length = 0 then o = none else ∃ row, o = some row ∧ ContestsAsPredicted row) ∧
      ((∀ a ∈ auctions, a.1 = true → Balanced 2000000 a.2) → out.kWrites = 0 ∧ (OnesThen r → out.gftWrites = 0)) := by
  have h0 := first_pos hs
  have hcontest : ∀ a i l, ∀ p ∈ prices, ∀ used, ∀ n ∈ ns, ∀ m, Origin ⟨auctions, r, buyerSign r, names, N, stockMode, asked⟩ p used n (random a i l) m →
      (∃ x, Contested auctions r m x) ∧ ∀ x, Contested auctions r m x → ContestFine n x := fun a i l p hp' used n hn m hm =>
    contest_fine hs.positive hs.recipe (usable_contest hs hp' hn (hs.unit a i l) hm).1 (le_refl _) hp
  obtain ⟨s, hst⟩ := stocks_defined (c := ⟨auctions, r, buyerSign r, names, N, stockMode, asked⟩) (nums := ns) (rand := random) hs.recipe hs.shuffle 0 prices
    (by simpa using hs.names) (fun hc p hp' => by
      obtain ⟨B, hB, -⟩ := hs.prices hc
      exact (hB p hp').1)
    (fun a p hp' j used n hn it m hm => by
      obtain ⟨⟨x, hx⟩, hf⟩ := hcontest a j it p hp' used n hn m hm
      exact ⟨x, hx, hf x hx⟩) ⟨fun _ => none, 0, 0⟩
  obtain ⟨table, htab⟩ := CompareIterations.rows_defined (division := N * prices.length) (results := s.results) [] ns hs.sizes (by simp)
  have hget : pyGet r 0 = .ok (r.getD 0 0) := TreeExperiment.pyGet_getD 0 (List.length_pos_iff.2 hs.recipe)
  have hdiv : pyDiv ((r.sum : ℚ) - (r.getD 0 0 : ℕ)) (r.getD 0 0 : ℕ) = .ok (buyerSign r) := by
    have : ((r.getD 0 0 : ℕ) : ℚ) ≠ 0 := by exact_mod_cast h0
    rw [pyDiv, if_neg this]
    rfl
  have hexp : CompareIterations.experiment auctions r ns prices names N stockMode asked shuffle random = .ok (some ⟨table, s.gftWrites, s.kWrites⟩) := by
    simp only [CompareIterations.experiment, hget, hdiv, hst, htab, bind, Except.bind]
  obtain ⟨X, a1, a2, a3, a4⟩ := CompareIterations.stocks_some hs.sizes hs.shuffle 0 prices hst
  obtain ⟨b1, -⟩ := CompareIterations.rows_some [] ns htab
  refine ⟨_, hexp, by simp [b1], ?_, ?_⟩
  · intro o ho
    simp only [b1, List.mem_map] at ho
    obtain ⟨n, hn, rfl⟩ := ho
    obtain ⟨i, hi, rfl⟩ := List.getElem_of_mem hn
    have hh := a2 i hi [] (Or.inl ⟨rfl, rfl⟩)
    rw [List.nil_append] at hh
    have hlen := contestsOf_length (S := prices.length) (N := N) (i := i) (X := X)
    rcases hh with ⟨hx, hnone⟩ | ⟨hx, name, hsome⟩
    · rw [hnone, if_pos (by rw [← hlen]; unfold contestsOf; rw [hx]; rfl)]
      rfl
    · rw [hsome, if_neg (by rw [← hlen]; exact fun h => hx (List.length_eq_zero_iff.1 h))]
      refine ⟨_, rfl, ?_⟩
      have := row_predicted (name := name) (r := r) (n := ns[i]) (A := auctions.length) (xs := contestsOf prices.length N i X) hx ?_ ?_
      · rw [hlen] at this
        exact this
      · intro x hx
        obtain ⟨a, ha, l, hl, rfl⟩ := mem_contestsOf.1 hx
        obtain ⟨m, m1, m2⟩ := a1 a ha i hi l hl
        exact (hcontest _ _ _ prices[a] (List.getElem_mem ha) _ _ (List.getElem_mem hi) m m1).2 _ m2
      · intro x hx
        obtain ⟨a, ha, l, hl, rfl⟩ := mem_contestsOf.1 hx
        obtain ⟨m, m1, m2⟩ := a1 a ha i hi l hl
        exact CompareIterations.Contested.length m2
  · intro hb
    have hz : ∀ a < prices.length, ∀ i < ns.length, ∀ l < N, dealNotes asked auctions (X a i l) = 0 ∧
        (OnesThen r → CompareIterations.gftNotes ⟨auctions, r, buyerSign r, names, N, stockMode, asked⟩ (X a i l) = 0) := by
      intro a ha i hi l hl
      obtain ⟨m, m1, m2⟩ := a1 a ha i hi l hl
      obtain ⟨u1, u2⟩ := usable_contest hs (List.getElem_mem ha) (List.getElem_mem hi) (hs.unit _ _ _) m1
      obtain ⟨n1, n2⟩ := no_notes hs.positive hs.recipe u1 (le_refl _) u2 hb m2 asked
      refine ⟨n1, fun ho => ?_⟩
      have hf := (hcontest _ _ _ prices[a] (List.getElem_mem ha) _ _ (List.getElem_mem hi) m m1).2 _ m2
      rw [CompareIterations.gftNotes, CompareIterations.gftWrites_eq]
      · exact n2 ho
      · intro y hy
        have hy' : y ∈ (X a i l).achieved := by
          unfold marked at hy
          obtain ⟨z, hz, rfl⟩ := List.mem_map.1 hy
          exact (List.of_mem_zip (List.mem_filter.1 hz).1).2
        exact (hf.each y hy').gain_nonneg
    constructor
    · show s.kWrites = 0
      rw [a4, Nat.zero_add]
      refine List.sum_eq_zero fun v hv => ?_
      simp only [List.mem_flatMap, List.mem_map, List.mem_range] at hv
      obtain ⟨a, ha, i, hi, l, hl, rfl⟩ := hv
      exact (hz a ha i hi l hl).1
    · intro ho
      show s.gftWrites = 0
      rw [a3, Nat.zero_add]
      refine List.sum_eq_zero fun v hv => ?_
      simp only [List.mem_flatMap, List.mem_map, List.mem_range] at hv
      obtain ⟨a, ha, i, hi, l, hl, rfl⟩ := hv
      exact (hz a ha i hi l hl).2 ho

/-! ## When it does not return -/

theorem add_some {s : CompareIterations.State} {n : ℕ} {x : Results} {g k : ℕ} :
    (s.add n x g k).results n ≠ none ∧ ∀ j, s.results j ≠ none → (s.add n x g k).results j ≠ none := by
  have h : (s.add n x g k).results n ≠ none := by
    simp only [CompareIterations.State.add, if_true]
    cases s.results n <;> simp
  refine ⟨h, fun j hj => ?_⟩
  by_cases hjn : j = n
  · rw [hjn]; exact h
  · rw [CompareIterations.add_ne hjn]; exact hj

theorem iterations_grow {c : Setting} {i n : ℕ} {sh : ℕ → List ℚ → List ℚ} {rand : ℕ → ℕ → ℕ → ℚ} (left it : ℕ) {p p' : List ℚ}
    {s s' : CompareIterations.State} (h : CompareIterations.iterations c i n sh rand left it p s = .ok (some (p', s'))) :
    (0 < left → s'.results n ≠ none) ∧ ∀ j, s.results j ≠ none → s'.results j ≠ none := by
  induction left generalizing it p s with
  | zero =>
    simp only [CompareIterations.iterations, Except.ok.injEq, Option.some.injEq, Prod.mk.injEq] at h
    obtain ⟨rfl, rfl⟩ := h
    exact ⟨by simp, fun _ h => h⟩
  | succ left ih =>
    rw [CompareIterations.iterations] at h
    split at h
    · simp at h
    · obtain ⟨m, hm, h⟩ := bind_ok_iff.1 h
      obtain ⟨o, ha, h⟩ := bind_ok_iff.1 h
      cases o with
      | none => simp at h
      | some s1 =>
        obtain ⟨x, name, hx, rfl⟩ := CompareIterations.addMarket_some ha
        have := (ih (it + 1) h).2
        exact ⟨fun _ => this n add_some.1, fun j hj => this j (add_some.2 j hj)⟩

theorem sizes_grow {c : Setting} {i : ℕ} {sh : ℕ → ℕ → List ℚ → List ℚ} {rand : ℕ → ℕ → ℕ → ℕ → ℚ} (hN : 0 < c.numOfIterations) (nums : List ℕ) (j : ℕ) {p : List ℚ}
    {s s' : CompareIterations.State} (h : CompareIterations.sizes c i sh rand j nums p s = .ok (some s')) :
    (∀ n ∈ nums, s'.results n ≠ none) ∧ ∀ j, s.results j ≠ none → s'.results j ≠ none := by
  induction nums generalizing j p s with
  | nil =>
    simp only [CompareIterations.sizes, Except.ok.injEq, Option.some.injEq] at h
    subst h
    exact ⟨by simp, fun _ h => h⟩
  | cons n ns ih =>
    rw [CompareIterations.sizes] at h
    obtain ⟨o, hi, h⟩ := bind_ok_iff.1 h
    cases o with
    | none => simp at h
    | some q =>
      obtain ⟨p1, s1⟩ := q
      obtain ⟨a1, a2⟩ := iterations_grow _ _ hi
      obtain ⟨b1, b2⟩ := ih (j + 1) h
      refine ⟨fun k hk => ?_, fun k hk => b2 k (a2 k hk)⟩
      rcases List.mem_cons.1 hk with rfl | hk
      · exact b2 k (a1 hN)
      · exact b1 k hk

theorem stocks_grow {c : Setting} {nums : List ℕ} {sh : ℕ → ℕ → ℕ → List ℚ → List ℚ} {rand : ℕ → ℕ → ℕ → ℕ → ℕ → ℚ} (hN : 0 < c.numOfIterations)
    (prices : List (List ℚ)) (i : ℕ) {s s' : CompareIterations.State} (h : CompareIterations.stocks c nums sh rand i prices s = .ok (some s')) :
    (prices ≠ [] → ∀ n ∈ nums, s'.results n ≠ none) ∧ ∀ j, s.results j ≠ none → s'.results j ≠ none := by
  induction prices generalizing i s with
  | nil =>
    simp only [CompareIterations.stocks, Except.ok.injEq, Option.some.injEq] at h
    subst h
    exact ⟨by simp, fun _ h => h⟩
  | cons p ps ih =>
    rw [CompareIterations.stocks] at h
    obtain ⟨o, hi, h⟩ := bind_ok_iff.1 h
    cases o with
    | none => simp at h
    | some s1 =>
      obtain ⟨name, -, h⟩ := bind_ok_iff.1 h
      obtain ⟨a1, a2⟩ := sizes_grow hN _ _ hi
      obtain ⟨-, b2⟩ := ih (i + 1) h
      exact ⟨fun _ n hn => b2 n (a1 n hn), fun j hj => b2 j (a2 j hj)⟩

/-- **C79**. Whatever the arguments: if `experiment` returns although there are stocks and iterations, no size occurs twice. (Otherwise an exception is raised after all
contests have been held, and only a part of the table is written.) -/
theorem compare_returns_nodup (hN : 0 < N) (hp : prices ≠ [])
    (h : CompareIterations.experiment auctions r ns prices names N stockMode asked shuffle random = .ok (some out)) : ns.Nodup := by
  obtain ⟨-, s, h1, h2, -, -⟩ := experiment_sign h
  have hsome := (stocks_grow (c := ⟨auctions, r, buyerSign r, names, N, stockMode, asked⟩) hN prices 0 h1).1 hp
  obtain ⟨-, h3⟩ := CompareIterations.rows_some [] ns h2
  exact List.nodup_iff_count_le_one.2 fun n => by
    by_cases hn : n ∈ ns
    · exact (h3 n hn (hsome n hn)).1.le
    · rw [List.count_eq_zero_of_not_mem hn]; omega

/-- **C79**. A stock without prices makes `experiment` run forever (here: the first stock; all sizes positive). -/
theorem compare_empty_stock {a : ℕ} {l : List ℕ} {n : ℕ} {ns' : List ℕ} {rest : List (List ℚ)} (ha : 0 < a) (hn : 0 < n) (hN : 0 < N) :
    CompareIterations.experiment auctions (a :: l) (n :: ns') ([] :: rest) names N true asked shuffle random = .ok none := by
  obtain ⟨N', rfl⟩ : ∃ N', N = N' + 1 := ⟨N - 1, by omega⟩
  have ha' : ((a : ℕ) : ℚ) ≠ 0 := by exact_mod_cast ha.ne'
  have hd : CompareIterations.doubled (n * (a :: l).sum) [] = none :=
    CompareIterations.doubledLoop_nil (Nat.mul_pos hn (by simp; omega)) _
  have h1 : pyGet (a :: l) 0 = .ok a := rfl
  simp only [CompareIterations.experiment, h1, bind, Except.bind, pyDiv, ha', if_false, CompareIterations.stocks, CompareIterations.sizes,
    CompareIterations.iterations, if_true, hd, Option.map_none]

end

/-! ## Examples -/

set_option synthInstance.maxHeartbeats 200000
set_option synthInstance.maxSize 1000

/-- The auctions of `stock/experiment_comparing_mcafee_to_sbb_stock.py`. -/
def fourAuctions : List (Bool × AuctionFunction) :=
  [(false, fun m r => (mcafeeTradeReduction m r true).map some), (false, fun m r => (mcafeeTradeReduction m r false).map some),
    (true, fun m r => (tradeReduction m r).map some), (true, fun m r => auction m r 2000001)]

/-- The hypotheses of `compare_as_predicted` and `compare_columns` are met: two stocks with three and five prices, sizes 2 and 3. -/
example : SensibleContests [1, 1] [2, 3] [[3, 1, 5], [7, 2, 4, 4, 1]] ["A", "B"] true (fun _ _ _ l => l.reverse) (fun _ _ _ _ _ => 1 / 2) where
  recipe := by decide
  positive := by decide
  names := by decide
  sizes := by decide
  agents := by decide
  prices := fun _ => ⟨7, by decide +kernel, by unfold MAX_VALUE; norm_num⟩
  drawn := by simp
  shuffle := fun _ _ _ _ => List.reverse_perm _
  unit := fun _ _ _ _ _ => by norm_num

example : ∀ a ∈ fourAuctions, Predictable [1, 1] 2000000 a.2 := by
  simp only [fourAuctions, List.mem_cons, List.not_mem_nil, or_false, forall_eq_or_imp, forall_eq]
  exact ⟨.mcafee true rfl (.inr rfl), .mcafee false rfl (.inl rfl), .reduction, .ascending _ (by norm_num)⟩

example : ∀ a ∈ fourAuctions, a.1 = true → Balanced 2000000 a.2 := by
  simp only [fourAuctions, List.mem_cons, List.not_mem_nil, or_false, forall_eq_or_imp, forall_eq]
  exact ⟨by simp, by simp, fun _ => .reduction, fun _ => .ascending _ (by norm_num)⟩

/-- A column of the row for each auction, and the numbers of notes. -/
def shownOf (auctions : List (Bool × AuctionFunction)) (r ns : List ℕ) (prices : List (List ℚ)) (N : ℕ) (asked : Bool)
    (f : Results → AuctionColumns → List ℚ) : Py (Option (List (Option (List (List ℚ))) × ℕ × ℕ)) :=
  (CompareIterations.experiment auctions r ns prices ["A", "B"] N true asked (fun _ _ _ l => l.reverse) (fun _ _ _ _ _ => 1 / 2)).map fun o =>
    o.map fun out => (out.table.map fun o => o.map fun row => row.auctions.map (f row), out.gftWrites, out.kWrites)

/-- A run on two stocks: the bound and the share of the gain that each auction reaches, for both sizes. The auction with the largest share on the larger markets is
McAfee's with the heuristic. -/
example : shownOf fourAuctions [1, 1] [2, 3] [[3, 1, 5], [7, 2, 4, 4, 1]] 2 true (fun row c => [row.gftRatioFormula, c.totalGftRatio]) =
    .ok (some ([some [[0, 50], [0, 0], [0, 75], [0, 75]], some [[25 / 2, 100], [25 / 2, 90], [25 / 2, 275 / 4], [25 / 2, 275 / 4]]], 0, 0)) := by
  decide +kernel

/-- Recipes with other counts may lead to notes on the gains: one, or two if they are asked for. -/
theorem compare_gains_differ :
    (shownOf (fourAuctions.drop 2) [2, 1] [2] [[8, 4, 2, 12, 18, 20]] 1 false (fun _ c => [c.totalGft])) = .ok (some ([some [[13], [633 / 50]]], 1, 0)) ∧
    (shownOf (fourAuctions.drop 2) [2, 1] [2] [[8, 4, 2, 12, 18, 20]] 1 true (fun _ c => [c.totalGft])) = .ok (some ([some [[13], [633 / 50]]], 2, 0)) := by
  decide +kernel

/-- The columns `withoutgftzerocountratio` can exceed 100: the optimal trade that is compared with leaves out the sets that gain nothing, and the auctions do not. -/
theorem compare_without_zero_exceeds_100 :
    shownOf fourAuctions [1, 1] [3] [[3, 3, 1, 3, 3, 5]] 1 false (fun _ c => [c.countRatio, c.withoutZeroCountRatio]) =
      .ok (some ([some [[3333 / 50, 200], [3333 / 50, 200], [3333 / 50, 200], [3333 / 50, 200]]], 0, 0)) := by
  decide +kernel

/-- The columns `marketgftratio` of McAfee's auction can be below `gftratioformula`, against the comment in lines 28-31 of the script. -/
theorem compare_market_ratio_fails :
    shownOf fourAuctions [1, 1] [2] [[3, 1, 8, 10]] 1 false (fun row c => [row.gftRatioFormula, c.marketGftRatio]) =
      .ok (some ([some [[50, 28571 / 1000], [50, 28571 / 1000], [50, 28571 / 500], [50, 28571 / 500]]], 0, 0)) := by
  decide +kernel

/-- A size that occurs twice raises `TypeError`. -/
example : (CompareIterations.experiment fourAuctions [1, 1] [1, 1] [[2, 1]] ["A"] 1 true false (fun _ _ _ l => l) (fun _ _ _ _ _ => 0)).map (fun _ => ()) =
    .error .typeError := by decide +kernel

end Auctions.Props
