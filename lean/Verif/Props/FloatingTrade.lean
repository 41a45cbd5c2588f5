import Verif.Model.FloatingTrade
import Verif.Spec.FloatingTrade
import Verif.Proofs.FloatingExact
import Verif.Proofs.FloatingOptimal
import Verif.Props.FloatingDecimals

set_option autoImplicit false

/-!
# C113: the gain from trade computed with floating-point arithmetic
-/

namespace Auctions.Floating

open Auctions Auctions.Spec

theorem abs_sum_le' {M : ℚ} {l : List ℚ} (h : ∀ v ∈ l, |v| ≤ M) : |l.sum| ≤ l.length * M := by
  induction l with
  | nil => simp
  | cons a l ih =>
    have h1 := ih fun v hv => h v (by simp [hv])
    have h2 := h a (by simp)
    rw [List.sum_cons, List.length_cons]
    push_cast
    refine (abs_add_le _ _).trans ?_
    linarith

/-- One iteration adds a small error. -/
theorem gftStep_near {fl : ℚ → ℚ} (hf : Rounding fl) {A u M : ℚ} (hu : 0 ≤ u) (hM : 0 ≤ M) (hn : NearTo fl A u) (hA1 : 1 ≤ A) (hA : A / 2 ^ 53 ≤ u)
    {t : TradeWithSinglePrice} {z : Bool} {i : ℕ} {c : AgentCategory} (hv : ∀ v ∈ c.values, |v| ≤ M) (hp : ∀ ps, t.prices = some ps → ∀ p ∈ ps, |p| ≤ M)
    (ht : ∀ n, t.psRecipe[i]? = some n → n * t.numOfDealsCache ≤ c.values.length) {x g g' G E : ℚ} (hx : t.gftStep z i c = .ok x) (hg : |g| ≤ G) (hg' : |g' - g| ≤ E)
    (hsize : G + 2 * (c.values.length * M) + E + (c.values.length + 5) * u ≤ A) :
    ∃ y, gftStep fl t z i c g' = .ok y ∧ |y - (g + x)| ≤ E + (c.values.length + 5) * u ∧ |g + x| ≤ G + 2 * (c.values.length * M) := by
  unfold TradeWithSinglePrice.gftStep at hx
  obtain ⟨n, hn1, hx⟩ := bind_ok_iff.1 hx
  obtain ⟨p, hp1, hx⟩ := bind_ok_iff.1 hx
  obtain ⟨q, hq, hxq⟩ : ∃ q, (match t.prices with | none => Except.error PyErr.typeError | some ps => pyGet ps i) = Except.ok q ∧
      (if z = true then c.values.sum * p else c.values.sum * p - q * ((n * t.numOfDealsCache : ℕ) : ℚ)) = x := by
    cases hps : t.prices with
    | none => rw [hps] at hx; simp [bind, Except.bind] at hx
    | some ps =>
      rw [hps] at hx
      simp only at hx
      obtain ⟨q, hq, hx⟩ := bind_ok_iff.1 hx
      exact ⟨q, hq, by simpa using hx⟩
  have hn2 : t.psRecipe[i]? = some n := by
    unfold pyGet at hn1
    split at hn1
    · rename_i a ha; simp only [Except.ok.injEq] at hn1; rw [ha, hn1]
    · simp at hn1
  have hle := ht n hn2
  have hq2 : |q| ≤ M := by
    cases hps : t.prices with
    | none => rw [hps] at hq; simp at hq
    | some ps =>
      rw [hps] at hq
      refine hp ps hps q ?_
      simp only [pyGet] at hq
      split at hq
      · rename_i a ha; simp only [Except.ok.injEq] at hq; subst hq; exact List.mem_of_getElem? ha
      · simp at hq
  simp only [pyDiv] at hp1
  split at hp1
  · simp at hp1
  rename_i h0
  simp only [Except.ok.injEq] at hp1
  set L : ℚ := (c.values.length : ℚ) with hL
  set a : ℚ := ((n * t.numOfDealsCache : ℕ) : ℚ) with ha
  have hL0 : 0 < L := by
    rcases (Nat.cast_nonneg (α := ℚ) c.values.length).lt_or_eq with h | h
    · exact h
    · exact absurd h.symm h0
  have ha0 : 0 ≤ a := by positivity
  have haL : a ≤ L := Nat.cast_le.2 hle
  have hG := (abs_nonneg g).trans hg
  have hE := (abs_nonneg _).trans hg'
  have hLM : 0 ≤ L * M := by positivity
  have hLu : 0 ≤ L * u := by positivity
  -- the sum
  have hS := abs_sum_le' hv
  have hS' : |flSum fl c.values - c.values.sum| ≤ L * u := by
    have := flSum_near (fl := fl) (A := A) (u := u) (δ := 0) (B := M) hu le_rfl hM hn (l := c.values) (e := c.values)
      (List.forall₂_same.2 fun y hy => ⟨by rw [sub_self, abs_zero], hv y hy⟩) (s := 0) (s' := 0) (E := 0) (C := 0) (by simp) (by simp) (by linarith)
    simpa [flSum] using this
  -- the probability
  have hp0 : 0 ≤ p := by rw [← hp1]; positivity
  have hpl : p ≤ 1 := by rw [← hp1]; exact div_le_one_of_le₀ haL hL0.le
  have hone : fl 1 = 1 := by
    refine hf.exact _ ⟨1, 0, by norm_num, by norm_num, by norm_num, by norm_num⟩
  have hzero : fl 0 = 0 := hf.exact _ ⟨0, 0, by norm_num, by norm_num, by norm_num, by norm_num⟩
  have hp'0 := hf.monotone 0 p hp0
  have hp'1 := hf.monotone p 1 hpl
  rw [hone] at hp'1
  rw [hzero] at hp'0
  have hp' : |fl p - p| ≤ 1 / 2 ^ 53 := (Props.float_near (A := 1) (k := 53) hf (by rw [abs_of_nonneg hp0]; exact_mod_cast hpl) (by norm_num) (by norm_num)).le
  set S := c.values.sum
  set S' := flSum fl c.values
  have hprod : |S' * fl p - S * p| ≤ L * u + u := by
    have e : S' * fl p - S * p = (S' - S) * fl p + S * (fl p - p) := by ring
    rw [e]
    refine (abs_add_le _ _).trans (add_le_add ?_ ?_)
    · rw [abs_mul, abs_of_nonneg hp'0]
      exact (mul_le_of_le_one_right (abs_nonneg _) hp'1).trans hS'
    · rw [abs_mul]
      refine (mul_le_mul hS hp' (abs_nonneg _) hLM).trans ?_
      rw [mul_one_div]
      refine le_trans (div_le_div_of_nonneg_right ?_ (by positivity)) hA
      linarith
  have hSp : |S * p| ≤ L * M := by
    rw [abs_mul, abs_of_nonneg hp0]
    exact (mul_le_of_le_one_right (abs_nonneg _) hpl).trans hS
  have hb1 : |S' * fl p| ≤ A := by
    have e : S' * fl p = (S' * fl p - S * p) + S * p := by ring
    rw [e]
    refine (abs_add_le _ _).trans ?_
    linarith
  have hx1 : |fl (S' * fl p) - S * p| ≤ L * u + 2 * u := by
    have h1 := hn _ hb1
    have e : fl (S' * fl p) - S * p = (fl (S' * fl p) - S' * fl p) + (S' * fl p - S * p) := by ring
    rw [e]
    refine (abs_add_le _ _).trans ?_
    linarith
  have hgS : |g + S * p| ≤ G + L * M := (abs_add_le _ _).trans (add_le_add hg hSp)
  have hx2 : |g' + fl (S' * fl p) - (g + S * p)| ≤ E + (L * u + 2 * u) := by
    have e : g' + fl (S' * fl p) - (g + S * p) = (g' - g) + (fl (S' * fl p) - S * p) := by ring
    rw [e]
    exact (abs_add_le _ _).trans (add_le_add hg' hx1)
  have hb2 : |g' + fl (S' * fl p)| ≤ A := by
    have e : g' + fl (S' * fl p) = (g' + fl (S' * fl p) - (g + S * p)) + (g + S * p) := by ring
    rw [e]
    refine (abs_add_le _ _).trans ?_
    linarith
  have hx3 : |fl (g' + fl (S' * fl p)) - (g + S * p)| ≤ E + (L * u + 3 * u) := by
    have h1 := hn _ hb2
    have e : fl (g' + fl (S' * fl p)) - (g + S * p) = (fl (g' + fl (S' * fl p)) - (g' + fl (S' * fl p))) + (g' + fl (S' * fl p) - (g + S * p)) := by ring
    rw [e]
    refine (abs_add_le _ _).trans ?_
    linarith
  have hstep : gftStep fl t z i c g' = .ok (if z then fl (g' + fl (S' * fl p)) else fl (fl (g' + fl (S' * fl p)) - fl (q * a))) := by
    unfold gftStep
    simp only [bind, Except.bind, hn1, flDiv]
    rw [if_neg h0, ← hp1]
    simp only
    cases hps : t.prices with
    | none => rw [hps] at hq; simp at hq
    | some ps =>
      rw [hps] at hq
      simp only at hq
      simp only [hq]
      rfl
  refine ⟨_, hstep, ?_⟩
  cases z with
  | true =>
    simp only [if_true] at hxq ⊢
    rw [← hxq]
    exact ⟨by linarith, by linarith⟩
  | false =>
    simp only [Bool.false_eq_true, if_false] at hxq ⊢
    rw [← hxq]
    have hqa : |q * a| ≤ L * M := by
      rw [abs_mul, abs_of_nonneg ha0, mul_comm]
      exact mul_le_mul haL hq2 (abs_nonneg _) hL0.le
    have h1 := hn (q * a) (by linarith)
    have hd : |fl (g' + fl (S' * fl p)) - fl (q * a) - (g + (S * p - q * a))| ≤ E + (L * u + 4 * u) := by
      have e : fl (g' + fl (S' * fl p)) - fl (q * a) - (g + (S * p - q * a)) = (fl (g' + fl (S' * fl p)) - (g + S * p)) - (fl (q * a) - q * a) := by ring
      rw [e]
      refine (abs_sub _ _).trans ?_
      linarith
    have hgx : |g + (S * p - q * a)| ≤ G + 2 * (L * M) := by
      have e : g + (S * p - q * a) = (g + S * p) - q * a := by ring
      rw [e]
      refine (abs_sub _ _).trans ?_
      linarith
    have hb3 : |fl (g' + fl (S' * fl p)) - fl (q * a)| ≤ A := by
      have e : fl (g' + fl (S' * fl p)) - fl (q * a) = (fl (g' + fl (S' * fl p)) - fl (q * a) - (g + (S * p - q * a))) + (g + (S * p - q * a)) := by ring
      rw [e]
      refine (abs_add_le _ _).trans ?_
      linarith
    have h2 := hn _ hb3
    refine ⟨?_, hgx⟩
    have e : fl (fl (g' + fl (S' * fl p)) - fl (q * a)) - (g + (S * p - q * a))
        = (fl (fl (g' + fl (S' * fl p)) - fl (q * a)) - (fl (g' + fl (S' * fl p)) - fl (q * a))) + (fl (g' + fl (S' * fl p)) - fl (q * a) - (g + (S * p - q * a))) := by ring
    rw [e]
    refine (abs_add_le _ _).trans ?_
    linarith

theorem gftLoop_near {fl : ℚ → ℚ} (hf : Rounding fl) {A u M : ℚ} (hu : 0 ≤ u) (hM : 0 ≤ M) (hn : NearTo fl A u) (hA1 : 1 ≤ A) (hA : A / 2 ^ 53 ≤ u)
    {t : TradeWithSinglePrice} {z : Bool} (hp : ∀ ps, t.prices = some ps → ∀ p ∈ ps, |p| ≤ M) {cs : List AgentCategory} {i : ℕ} (hv : ∀ c ∈ cs, ∀ v ∈ c.values, |v| ≤ M)
    (ht : ∀ j n c, t.psRecipe[i + j]? = some n → cs[j]? = some c → n * t.numOfDealsCache ≤ c.values.length) {x g g' G E : ℚ} (hx : t.gftLoop z i cs = .ok x) (hg : |g| ≤ G) (hg' : |g' - g| ≤ E)
    (hsize : G + 2 * (((cs.map (fun c => c.values.length)).sum : ℕ) * M) + E + (((cs.map (fun c => c.values.length)).sum : ℕ) + 5 * cs.length) * u ≤ A) :
    ∃ y, gftLoop fl t z i cs g' = .ok y ∧ |y - (g + x)| ≤ E + (((cs.map (fun c => c.values.length)).sum : ℕ) + 5 * cs.length) * u := by
  induction cs generalizing i x g g' G E with
  | nil =>
    simp only [TradeWithSinglePrice.gftLoop, Except.ok.injEq] at hx
    subst hx
    exact ⟨g', rfl, by simpa using hg'⟩
  | cons c cs ih =>
    simp only [TradeWithSinglePrice.gftLoop] at hx
    obtain ⟨x1, hx1, hx⟩ := bind_ok_iff.1 hx
    obtain ⟨x2, hx2, hx⟩ := bind_ok_iff.1 hx
    simp only [Except.ok.injEq] at hx
    simp only [List.map_cons, List.sum_cons, List.length_cons, Nat.cast_add, Nat.cast_one] at hsize ⊢
    have hs0 : (0 : ℚ) ≤ ((cs.map (fun c => c.values.length)).sum : ℕ) := Nat.cast_nonneg _
    generalize hs : (((cs.map (fun c => c.values.length)).sum : ℕ) : ℚ) = s at hsize hs0 ⊢
    have hm0 : 0 ≤ s * M := by positivity
    have hc0 : (0 : ℚ) ≤ (cs.length : ℚ) * u := by positivity
    have hsu : 0 ≤ s * u := by positivity
    obtain ⟨y1, h1, h2, h3⟩ := gftStep_near hf hu hM hn hA1 hA (t := t) (z := z) (i := i) (c := c) (hv c (by simp)) hp (fun n hn => ht 0 n c (by simpa using hn) (by simp)) hx1 hg hg' (by linarith)
    obtain ⟨y, h4, h5⟩ := ih (i := i + 1) (fun c' hc' => hv c' (by simp [hc'])) (fun j n c' hj hc' => ht (j + 1) n c' (by rw [← hj]; congr 1; omega) (by simpa using hc')) hx2 h3 h2 (by rw [hs]; linarith)
    refine ⟨y, ?_, ?_⟩
    · simp only [gftLoop, bind, Except.bind, h1]
      exact h4
    · rw [hs] at h5
      rw [← hx, ← add_assoc]
      refine h5.trans (le_of_eq ?_)
      ring

theorem gftLoop_id (t : TradeWithSinglePrice) (z : Bool) (cs : List AgentCategory) (i : ℕ) (g : ℚ) :
    gftLoop id t z i cs g = (t.gftLoop z i cs).map (g + ·) := by
  induction cs generalizing i g with
  | nil => simp [gftLoop, TradeWithSinglePrice.gftLoop, Except.map]
  | cons c cs ih =>
    have hstep : gftStep id t z i c g = (t.gftStep z i c).map (g + ·) := by
      unfold gftStep TradeWithSinglePrice.gftStep
      simp only [flDiv_id, flSum_id]
      simp only [id]
      cases pyGet t.psRecipe i with
      | error e => rfl
      | ok n =>
        simp only [bind, Except.bind]
        cases pyDiv ((n * t.numOfDealsCache : ℕ) : ℚ) c.values.length with
        | error e => rfl
        | ok p =>
          simp only
          cases t.prices with
          | none => rfl
          | some ps =>
            simp only
            cases pyGet ps i with
            | error e => rfl
            | ok q =>
              cases z
              · simp only [Except.map, Bool.false_eq_true, if_false, Except.ok.injEq]; ring
              · simp only [Except.map, if_true]
    simp only [gftLoop, TradeWithSinglePrice.gftLoop, hstep]
    cases t.gftStep z i c with
    | error e => rfl
    | ok x =>
      simp only [Except.map, bind, Except.bind]
      rw [ih]
      cases t.gftLoop z (i + 1) cs with
      | error e => rfl
      | ok y => simp only [Except.map, Except.ok.injEq]; ring

end Auctions.Floating

namespace Auctions.Props

open Auctions Auctions.Spec Auctions.Floating

/-- Without rounding it is the function `gain_from_trade` of the exact model. -/
theorem float_gain_id (t : TradeWithSinglePrice) (z : Bool) : Floating.gainFromTrade id t z = t.gainFromTrade z := by
  unfold Floating.gainFromTrade TradeWithSinglePrice.gainFromTrade
  split_ifs
  · rfl
  · rw [gftLoop_id]
    cases t.gftLoop z 0 t.categories with
    | error e => rfl
    | ok x => simp [Except.map]

/-- The computed gain from trade is exact up to a small amount. -/
theorem float_gain_near {fl : ℚ → ℚ} (hf : Rounding fl) {t : TradeWithSinglePrice} {M N k : ℕ} (h : FloatTrade t M N k) {z : Bool} {x : ℚ} (hx : t.gainFromTrade z = .ok x) :
    ∃ y, Floating.gainFromTrade fl t z = .ok y ∧ |y - x| ≤ (N + 5 * t.categories.length) / 2 ^ k := by
  unfold TradeWithSinglePrice.gainFromTrade at hx
  unfold Floating.gainFromTrade
  split_ifs at hx ⊢ with h0
  · simp only [Except.ok.injEq] at hx
    subst hx
    refine ⟨0, rfl, ?_⟩
    rw [sub_self, abs_zero]
    positivity
  · have h2k : (0 : ℚ) < 2 ^ k := by positivity
    have hA0 : 1 ≤ 2 * M * N + 1 := by omega
    have hk : k ≤ 1074 := by
      have h1 : 2 ^ k ≤ 2 ^ 53 := (Nat.le_mul_of_pos_left _ hA0).trans h.digits
      have := (Nat.pow_le_pow_iff_right (by norm_num : 1 < 2)).1 h1
      omega
    have hnear : NearTo fl ((2 * M * N + 1 : ℕ) : ℚ) (1 / 2 ^ k) := fun q hq => (Props.float_near hf hq h.digits hk).le
    have hdig : ((2 * M * N + 1 : ℕ) : ℚ) * 2 ^ k ≤ 2 ^ 53 := by exact_mod_cast h.digits
    have hag : (((t.categories.map (fun c => c.values.length)).sum : ℕ) : ℚ) ≤ N := by exact_mod_cast h.agents
    have hag0 : (0 : ℚ) ≤ (((t.categories.map (fun c => c.values.length)).sum : ℕ) : ℚ) := Nat.cast_nonneg _
    have hsz : (N : ℚ) + 5 * t.categories.length ≤ 2 ^ k := by exact_mod_cast h.size
    have hM : (0 : ℚ) ≤ M := by positivity
    have hbound : ((((t.categories.map (fun c => c.values.length)).sum : ℕ) : ℚ) + 5 * t.categories.length) * (1 / 2 ^ k) ≤ (N + 5 * t.categories.length) / 2 ^ k := by
      rw [mul_one_div]
      exact div_le_div_of_nonneg_right (by linarith) h2k.le
    obtain ⟨y, h1, h2⟩ := gftLoop_near hf (A := ((2 * M * N + 1 : ℕ) : ℚ)) (u := 1 / 2 ^ k) (M := M) (by positivity) hM hnear (by exact_mod_cast hA0)
      (by rw [div_le_div_iff₀ (by positivity) h2k]; linarith) h.prices h.reports (fun j n c hj hc => h.trading j n c (by simpa using hj) hc) hx (g := 0) (g' := 0) (G := 0) (E := 0) (by simp) (by simp)
      (by
        have h3 : (N + 5 * t.categories.length : ℚ) / 2 ^ k ≤ 1 := (div_le_one h2k).2 hsz
        have h4 := mul_le_mul_of_nonneg_right hag hM
        simp only [Nat.cast_add, Nat.cast_mul, Nat.cast_ofNat, Nat.cast_one]
        linarith)
    refine ⟨y, h1, ?_⟩
    rw [zero_add, zero_add] at h2
    exact h2.trans hbound

/-! ### Examples -/

/-- The trade that the auction with floating-point arithmetic returns for `decimalMarket`. -/
def decimalTrade : TradeWithSinglePrice :=
  ⟨[⟨"buyer", [tenths 1401]⟩, ⟨"seller", [tenths (-907), tenths (-1003)]⟩], [1, 1], some [tenths 1359, -4560047309 / 2 ^ 25], 1⟩

example : Floating.ascendingAuction nearestFloat decimalMarket [1, 1] 9 = .ok (some decimalTrade) := by decide +kernel

theorem decimalTrade_float : FloatTrade decimalTrade 1000 3 40 where
  reports := by decide +kernel
  prices := by
    intro ps h
    simp only [decimalTrade, Option.some.injEq] at h
    subst h
    decide +kernel
  trading := by
    intro i n c h1 h2
    match i with
    | 0 => simp [decimalTrade] at h1 h2 ⊢; subst h1 h2; simp
    | 1 => simp [decimalTrade] at h1 h2 ⊢; subst h1 h2; simp
    | i + 2 => simp [decimalTrade] at h1
  agents := by decide
  digits := by norm_num
  size := by norm_num [decimalTrade]

/-- The buyers 0.3 and 0.2, the sellers -0.1 and -0.2, the prices 0.2 and -0.2. -/
def tenthsTrade : TradeWithSinglePrice := ⟨[⟨"buyer", [tenths 3, tenths 2]⟩, ⟨"seller", [tenths (-1), tenths (-2)]⟩], [1, 1], some [tenths 2, tenths (-2)], 2⟩

theorem tenthsTrade_float : FloatTrade tenthsTrade 1000 4 39 where
  reports := by decide +kernel
  prices := by
    intro ps h
    simp only [tenthsTrade, Option.some.injEq] at h
    subst h
    decide +kernel
  trading := by
    intro i n c h1 h2
    match i with
    | 0 => simp [tenthsTrade] at h1 h2 ⊢; subst h1 h2; simp
    | 1 => simp [tenthsTrade] at h1 h2 ⊢; subst h1 h2; simp
    | i + 2 => simp [tenthsTrade] at h1
  agents := by decide
  digits := by norm_num
  size := by norm_num [tenthsTrade]

/-- The computed gain is not exact: for this trade, Python's gain (0.19999999999999996) differs from the gain of exact arithmetic on the same floats. -/
theorem float_gain_inexact : ∃ (t : TradeWithSinglePrice) (x y : ℚ), FloatTrade t 1000 4 39 ∧ t.gainFromTrade true = .ok x ∧ Floating.gainFromTrade nearestFloat t true = .ok y ∧ x ≠ y := by
  have h : (match tenthsTrade.gainFromTrade true, Floating.gainFromTrade nearestFloat tenthsTrade true with
      | .ok x, .ok y => decide (x ≠ y)
      | _, _ => false) = true := by decide +kernel
  split at h
  · rename_i x y hx hy
    exact ⟨tenthsTrade, x, y, tenthsTrade_float, hx, hy, of_decide_eq_true h⟩
  · simp at h

/-- The theorem above, for this trade: the gain of the deal is about 44.6, and the error is less than 10^-10. -/
example : ∃ x y, decimalTrade.gainFromTrade true = .ok x ∧ 44 < x ∧ Floating.gainFromTrade nearestFloat decimalTrade true = .ok y ∧ |y - x| ≤ 13 / 2 ^ 40 := by
  have h : (match decimalTrade.gainFromTrade true with | .ok x => decide (44 < x) | _ => false) = true := by decide +kernel
  split at h
  · rename_i x hx
    obtain ⟨y, hy, hxy⟩ := float_gain_near python_rounding.1 decimalTrade_float hx
    refine ⟨x, y, hx, of_decide_eq_true h, hy, ?_⟩
    have e : ((3 : ℕ) + 5 * (decimalTrade.categories.length : ℚ)) = 13 := by norm_num [decimalTrade]
    rw [e] at hxy
    exact hxy
  · simp at h

end Auctions.Props
