import Verif.Model.Floating
import Verif.Spec.Floating
import Verif.Proofs.Ascending
import Mathlib.Data.Int.Log
import Mathlib.Data.Nat.Log
import Mathlib.Tactic.Linarith
import Mathlib.Tactic.Positivity
import Mathlib.Tactic.FieldSimp
import Mathlib.Tactic.Ring

set_option autoImplicit false

/-! # Helper lemmas: rounding does nothing to whole numbers of moderate size, and keeps quotients apart -/

namespace Auctions.Floating

open Auctions.Spec

/-- A whole number of absolute value at most `N`. -/
def Small (N : ℕ) (q : ℚ) : Prop := ∃ z : ℤ, q = z ∧ |z| ≤ N

namespace Small

variable {a b : ℕ} {x y : ℚ}

theorem mono (h : Small a x) (hab : a ≤ b) : Small b x := by
  obtain ⟨z, rfl, hz⟩ := h
  exact ⟨z, rfl, hz.trans (by exact_mod_cast hab)⟩

theorem add (hx : Small a x) (hy : Small b y) : Small (a + b) (x + y) := by
  obtain ⟨z, rfl, hz⟩ := hx
  obtain ⟨w, rfl, hw⟩ := hy
  refine ⟨z + w, by push_cast; rfl, (abs_add_le z w).trans ?_⟩
  push_cast; omega

theorem neg (hx : Small a x) : Small a (-x) := by
  obtain ⟨z, rfl, hz⟩ := hx
  exact ⟨-z, by push_cast; rfl, by rwa [abs_neg]⟩

theorem sub (hx : Small a x) (hy : Small b y) : Small (a + b) (x - y) := by
  rw [sub_eq_add_neg]; exact hx.add hy.neg

theorem mulNat (hx : Small a x) (n : ℕ) : Small (a * n) (x * n) := by
  obtain ⟨z, rfl, hz⟩ := hx
  refine ⟨z * n, by push_cast; rfl, ?_⟩
  rw [abs_mul, Nat.abs_cast]
  push_cast
  exact mul_le_mul_of_nonneg_right hz (by positivity)

theorem zero : Small a 0 := ⟨0, by simp, by simp⟩

theorem abs (hx : Small a x) : Small a |x| := by
  obtain ⟨z, rfl, hz⟩ := hx
  exact ⟨|z|, by push_cast; rfl, by rwa [abs_abs]⟩

theorem abs_le (hx : Small a x) : |x| ≤ a := by
  obtain ⟨z, rfl, hz⟩ := hx
  exact_mod_cast hz

end Small

theorem small_nat (n : ℕ) : Small n n := ⟨n, by push_cast; rfl, by simp⟩

/-- Whole numbers up to `2 ^ 53` are floats, also after division by a power of 2. -/
theorem double_grid {z : ℤ} {k : ℕ} (hk : k ≤ 1074) (h : |z| ≤ 2 ^ 53) : Double ((z : ℚ) / 2 ^ k) := by
  rcases lt_or_eq_of_le h with h | h
  · refine ⟨z, -k, h, by omega, by omega, ?_⟩
    rw [zpow_neg, zpow_natCast, div_eq_mul_inv]
  · rcases abs_choice z with h' | h'
    · refine ⟨2 ^ 52, 1 - k, by norm_num, by omega, by omega, ?_⟩
      have : z = 2 ^ 53 := by rw [← h', h]
      rw [this, zpow_sub₀ (by norm_num), zpow_natCast]; push_cast; ring
    · refine ⟨-2 ^ 52, 1 - k, by norm_num, by omega, by omega, ?_⟩
      have : z = -2 ^ 53 := by rw [h'] at h; omega
      rw [this, zpow_sub₀ (by norm_num), zpow_natCast]; push_cast; ring

theorem Small.double {a : ℕ} {x : ℚ} (h : Small a x) (ha : a ≤ 2 ^ 53) : Double x := by
  obtain ⟨z, rfl, hz⟩ := h
  have h1 := double_grid (z := z) (k := 0) (by omega) (by
    have : (a : ℤ) ≤ 2 ^ 53 := by exact_mod_cast ha
    omega)
  simpa using h1

/-- A whole number divided by a power of two. -/
theorem Small.quotient {a n : ℕ} {x : ℚ} (h : Small a x) (ha : a ≤ 2 ^ 53) (hn : BinaryNumber n) (h0 : n ≠ 0) (hb : n ≤ 2 ^ 53) : Double (x / n) := by
  obtain ⟨z, rfl, hz⟩ := h
  obtain ⟨k, rfl⟩ := hn.resolve_left h0
  have hk : k ≤ 53 := (Nat.pow_le_pow_iff_right (by omega)).1 hb
  have h1 := double_grid (z := z) (k := k) (by omega) (by
    have : (a : ℤ) ≤ 2 ^ 53 := by exact_mod_cast ha
    omega)
  push_cast
  exact h1

theorem Small.fl {f : ℚ → ℚ} (hf : Rounding f) {a : ℕ} {x : ℚ} (h : Small a x) (ha : a ≤ 2 ^ 53) : f x = x := by
  obtain ⟨z, rfl, hz⟩ := h
  apply hf.exact
  have := double_grid (z := z) (k := 0) (by norm_num) (hz.trans (by exact_mod_cast ha))
  simpa using this

/-- Numbers that are not too close together are still different after rounding. -/
theorem fl_lt {f : ℚ → ℚ} (hf : Rounding f) {x y : ℚ} {A D : ℕ} (hx : |x| ≤ A) (hy : |y| ≤ A) (hD : 0 < D) (hxy : 1 / (D : ℚ) ≤ y - x) (hAD : 4 * A * D ≤ 2 ^ 53)
    (hD' : D ≤ 2 ^ 53) : f x < f y := by
  -- the grid `2 ^ -k` with `2 * D ≤ 2 ^ k < 4 * D`
  set k := Nat.clog 2 (2 * D) with hk
  have h1 : 2 * D ≤ 2 ^ k := Nat.le_pow_clog (by norm_num) _
  have h2 : 2 ^ k ≤ 4 * D := by
    have h3 : 1 < 2 * D := by omega
    have h4 : 2 ^ (k - 1) < 2 * D := Nat.pow_pred_clog_lt_self (by norm_num) h3
    have h5 : 0 < k := Nat.clog_pos (by norm_num) (by omega)
    have h6 : 2 ^ k = 2 * 2 ^ (k - 1) := by rw [← pow_succ']; congr 1; omega
    omega
  have hk' : k ≤ 1074 := by
    by_contra hc
    have : 2 ^ 56 ≤ 2 ^ k := Nat.pow_le_pow_right (by norm_num) (by omega)
    omega
  have hg : (0 : ℚ) < 2 ^ k := by positivity
  have hDq : (0 : ℚ) < D := by exact_mod_cast hD
  have h1q : 2 * (D : ℚ) ≤ 2 ^ k := by exact_mod_cast h1
  have h2q : (2 : ℚ) ^ k ≤ 4 * D := by exact_mod_cast h2
  have hADq : 4 * (A : ℚ) * D ≤ 2 ^ 53 := by exact_mod_cast hAD
  have hA0 : (0 : ℚ) ≤ A := by positivity
  have hAg : (A : ℚ) * 2 ^ k ≤ 2 ^ 53 := by nlinarith
  have hgap : 2 ≤ (y - x) * 2 ^ k := by
    have : 1 ≤ (y - x) * D := by
      rw [div_le_iff₀ hDq] at hxy; exact hxy
    have h0 : 0 < y - x := lt_of_lt_of_le (by positivity) hxy
    nlinarith
  -- two numbers of the grid between `x` and `y`
  set c := ⌈x * 2 ^ k⌉ with hc
  have hc1 : x * 2 ^ k ≤ c := Int.le_ceil _
  have hc2 : (c : ℚ) < x * 2 ^ k + 1 := Int.ceil_lt_add_one _
  have hc3 : (c : ℚ) + 1 ≤ y * 2 ^ k := by nlinarith
  have hxA := abs_le.1 hx
  have hyA := abs_le.1 hy
  have hb1 : -(2 ^ 53 : ℚ) ≤ c := by nlinarith
  have hb2 : (c : ℚ) + 1 ≤ 2 ^ 53 := by nlinarith
  have hb1' : -(2 ^ 53) ≤ c := by exact_mod_cast hb1
  have hb2' : c + 1 ≤ 2 ^ 53 := by exact_mod_cast hb2
  have d1 := hf.exact _ (double_grid (z := c) hk' (abs_le.2 ⟨hb1', by omega⟩))
  have d2 := hf.exact _ (double_grid (z := c + 1) hk' (abs_le.2 ⟨by omega, hb2'⟩))
  have m1 := hf.monotone x ((c : ℚ) / 2 ^ k) (by rw [le_div_iff₀ hg]; exact hc1)
  have m2 := hf.monotone (((c + 1 : ℤ) : ℚ) / 2 ^ k) y (by rw [div_le_iff₀ hg]; push_cast; exact hc3)
  rw [d1] at m1
  rw [d2] at m2
  have : (c : ℚ) / 2 ^ k < ((c + 1 : ℤ) : ℚ) / 2 ^ k := by
    apply div_lt_div_of_pos_right _ hg
    push_cast; linarith
  linarith

/-- Rounding keeps the order of such numbers. -/
theorem fl_lt_iff {f : ℚ → ℚ} (hf : Rounding f) {x y : ℚ} {A D : ℕ} (hx : |x| ≤ A) (hy : |y| ≤ A) (hD : 0 < D) (hxy : x < y → 1 / (D : ℚ) ≤ y - x) (hAD : 4 * A * D ≤ 2 ^ 53)
    (hD' : D ≤ 2 ^ 53) : f x < f y ↔ x < y := by
  constructor
  · intro h
    by_contra hc
    exact absurd (hf.monotone y x (not_lt.1 hc)) (not_le.2 h)
  · intro h
    exact fl_lt hf hx hy hD (hxy h) hAD hD'

theorem foldl_exact {f : ℚ → ℚ} (hf : Rounding f) {l : List ℚ} {bs : List ℕ} (h : List.Forall₂ (fun x b => Small b x) l bs) {a : ℕ} {s : ℚ} (hs : Small a s)
    (hb : a + bs.sum ≤ 2 ^ 53) : l.foldl (fun s x => f (s + x)) s = s + l.sum ∧ Small (a + bs.sum) (s + l.sum) := by
  induction h generalizing a s with
  | nil => simpa using hs
  | @cons x b l bs hx _ ih =>
    have h1 := hs.add hx
    rw [List.sum_cons] at hb
    have h2 := ih h1 (by omega)
    rw [List.foldl_cons, h1.fl hf (by omega), List.sum_cons, List.sum_cons, ← add_assoc, ← add_assoc]
    exact h2

theorem flSum_forall₂ {f : ℚ → ℚ} (hf : Rounding f) {l : List ℚ} {bs : List ℕ} (h : List.Forall₂ (fun x b => Small b x) l bs) (hb : bs.sum ≤ 2 ^ 53) :
    flSum f l = l.sum ∧ Small bs.sum l.sum := by
  have := foldl_exact hf h (a := 0) Small.zero (by omega)
  simpa [flSum] using this

theorem flSum_eq {f : ℚ → ℚ} (hf : Rounding f) {l : List ℚ} {B : ℕ} (h : ∀ x ∈ l, Small B x) (hb : B * l.length ≤ 2 ^ 53) :
    flSum f l = l.sum ∧ Small (B * l.length) l.sum := by
  have h1 : List.Forall₂ (fun x b => Small b x) l (List.replicate l.length B) := by
    clear hb
    induction l with
    | nil => exact .nil
    | cons x l ih => exact .cons (h x (by simp)) (ih fun y hy => h y (by simp [hy]))
  have h2 : (List.replicate l.length B).sum = B * l.length := by simp [mul_comm]
  rw [← h2] at hb ⊢
  exact flSum_forall₂ hf h1 hb

/-- Recipe entries times whole numbers. -/
theorem products_small {M : ℕ} {x : List ℚ} (h : ∀ q ∈ x, Small M q) (r : List ℕ) :
    List.Forall₂ (fun q b => Small b q) (List.zipWith (fun (q : ℚ) (n : ℕ) => q * n) x r) ((r.take x.length).map (M * ·)) := by
  induction x generalizing r with
  | nil => cases r <;> simp
  | cons q x ih =>
    cases r with
    | nil => simp
    | cons n r =>
      simp only [List.zipWith_cons_cons, List.length_cons, List.take_succ_cons, List.map_cons]
      exact .cons ((h q (by simp)).mulNat n) (ih (fun q hq => h q (by simp [hq])) r)

theorem sum_take_map (M : ℕ) (r : List ℕ) (n : ℕ) : ((r.take n).map (M * ·)).sum ≤ M * r.sum := by
  induction r generalizing n with
  | nil => simp
  | cons a r ih =>
    cases n with
    | zero => simp
    | succ n =>
      have := ih n
      simp only [List.take_succ_cons, List.map_cons, List.sum_cons, Nat.mul_add]
      omega

theorem zipWith_rounded {f : ℚ → ℚ} (hf : Rounding f) {M : ℕ} {x : List ℚ} (h : ∀ q ∈ x, Small M q) {r : List ℕ} (hb : M * r.sum ≤ 2 ^ 53) :
    List.zipWith (fun (q : ℚ) (n : ℕ) => f (q * n)) x r = List.zipWith (fun (q : ℚ) (n : ℕ) => q * n) x r := by
  induction x generalizing r with
  | nil => rfl
  | cons q x ih =>
    cases r with
    | nil => rfl
    | cons n r =>
      rw [List.sum_cons, Nat.mul_add] at hb
      rw [List.zipWith_cons_cons, List.zipWith_cons_cons, ((h q (by simp)).mulNat n).fl hf (by omega), ih (fun q hq => h q (by simp [hq])) (by omega)]

theorem dot_zipWith (x : List ℚ) (r : List ℕ) : dot x r = (List.zipWith (fun (q : ℚ) (n : ℕ) => q * n) x r).sum := by
  induction x generalizing r with
  | nil => simp [dot]
  | cons q x ih =>
    cases r with
    | nil => simp [dot]
    | cons n r => simp [dot, ih]

theorem flDot_eq {f : ℚ → ℚ} (hf : Rounding f) {M : ℕ} {x : List ℚ} (h : ∀ q ∈ x, Small M q) {r : List ℕ} (hb : M * r.sum ≤ 2 ^ 53) :
    flDot f x r = dot x r ∧ Small (M * r.sum) (dot x r) := by
  unfold flDot
  have h1 := flSum_forall₂ hf (products_small h r) ((sum_take_map M r x.length).trans hb)
  rw [zipWith_rounded hf h hb, dot_zipWith]
  exact ⟨h1.1, h1.2.mono (sum_take_map M r x.length)⟩

/-! ### Numbers of agents -/

/-- Potential numbers of deals are compared correctly. -/
theorem quotient_lt {f : ℚ → ℚ} (hf : Rounding f) {a b a' b' : ℕ} (hb : 0 < b) (hb' : 0 < b') (h1 : 4 * (a + 1) * b ^ 2 ≤ 2 ^ 53) (h2 : 4 * (a + 1) * b' ^ 2 ≤ 2 ^ 53)
    (h3 : 4 * (a' + 1) * b ^ 2 ≤ 2 ^ 53) (h4 : 4 * (a' + 1) * b' ^ 2 ≤ 2 ^ 53) : f ((a : ℚ) / b) < f ((a' : ℚ) / b') ↔ (a : ℚ) / b < (a' : ℚ) / b' := by
  have hbq : (0 : ℚ) < b := by exact_mod_cast hb
  have hbq' : (0 : ℚ) < b' := by exact_mod_cast hb'
  have hle : ∀ n m : ℕ, 0 < m → |(n : ℚ) / m| ≤ n := by
    intro n m hm
    have : (1 : ℚ) ≤ m := by exact_mod_cast hm
    rw [abs_of_nonneg (by positivity), div_le_iff₀ (by positivity)]
    have : (0 : ℚ) ≤ n := by positivity
    nlinarith
  have hD : ∀ (A D : ℕ), (D = b ∨ D = b') → (A = a ∨ A = a') → 4 * A * D ^ 2 ≤ 2 ^ 53 ∧ D ^ 2 ≤ 2 ^ 53 := by
    intro A D hD hA
    have h5 : 4 * (A + 1) * D ^ 2 ≤ 2 ^ 53 := by rcases hD with rfl | rfl <;> rcases hA with rfl | rfl <;> assumption
    have h6 : 4 * (A + 1) * D ^ 2 = 4 * A * D ^ 2 + 4 * D ^ 2 := by ring
    omega
  apply fl_lt_iff hf (A := max a a') (D := max b b' ^ 2)
  · exact (hle a b hb).trans (by exact_mod_cast le_max_left _ _)
  · exact (hle a' b' hb').trans (by exact_mod_cast le_max_right _ _)
  · have := lt_max_of_lt_left (b := b) (c := b') hb
    positivity
  · intro hlt
    rw [div_lt_div_iff₀ hbq hbq'] at hlt
    have h5 : a * b' + 1 ≤ a' * b := by exact_mod_cast hlt
    have h6 : ((a * b' + 1 : ℕ) : ℚ) ≤ ((a' * b : ℕ) : ℚ) := by exact_mod_cast h5
    push_cast at h6
    rw [div_sub_div _ _ hbq'.ne' hbq.ne']
    have h7 : (b : ℚ) ≤ (max b b' : ℕ) := by exact_mod_cast le_max_left _ _
    have h8 : (b' : ℚ) ≤ (max b b' : ℕ) := by exact_mod_cast le_max_right _ _
    apply div_le_div₀ (by linarith) (by linarith) (by positivity)
    push_cast
    have h9 : (b : ℚ) ≤ max (b : ℚ) b' := le_max_left _ _
    have h10 : (b' : ℚ) ≤ max (b : ℚ) b' := le_max_right _ _
    nlinarith
  · exact (hD _ _ (by rcases max_choice b b' with h | h <;> rw [h] <;> simp) (by rcases max_choice a a' with h | h <;> rw [h] <;> simp)).1
  · exact (hD a _ (by rcases max_choice b b' with h | h <;> rw [h] <;> simp) (by simp)).2

theorem floor_quotient {f : ℚ → ℚ} (hf : Rounding f) {a b : ℕ} (hb : 0 < b) (h : 4 * (a + 1) * b ^ 2 ≤ 2 ^ 53) : ⌊f ((a : ℚ) / b)⌋.toNat = a / b := by
  have hbq : (0 : ℚ) < b := by exact_mod_cast hb
  have hb2 : b ≤ b ^ 2 := Nat.le_self_pow (by norm_num) b
  have hring : 4 * (a + 1) * b ^ 2 = 4 * (a * b ^ 2) + 4 * b ^ 2 := by ring
  have hab : a ≤ a * b ^ 2 := Nat.le_mul_of_pos_right _ (by positivity)
  have hdiv : a / b ≤ a := Nat.div_le_self a b
  have hn : b * (a / b) ≤ a := Nat.mul_div_le a b
  have hn' : a < b * (a / b + 1) := by
    have := Nat.lt_mul_div_succ a hb
    simpa using this
  generalize a / b = n at *
  have key : ⌊f ((a : ℚ) / b)⌋ = (n : ℤ) := by
    rw [Int.floor_eq_iff]
    constructor
    · have h1 := (small_nat n).fl hf (by omega)
      have h2 := hf.monotone ((n : ℕ) : ℚ) ((a : ℚ) / b) (by
        rw [le_div_iff₀ hbq]
        have : ((b * n : ℕ) : ℚ) ≤ a := by exact_mod_cast hn
        push_cast at this ⊢
        linarith)
      rw [h1] at h2
      push_cast at h2 ⊢
      exact h2
    · have h1 := (small_nat (n + 1)).fl hf (by omega)
      have hlt : (a : ℚ) / b < ((n + 1 : ℕ) : ℚ) := by
        rw [div_lt_iff₀ hbq]
        have : (a : ℚ) < ((b * (n + 1) : ℕ) : ℚ) := by exact_mod_cast hn'
        push_cast at this ⊢
        linarith
      have h2 := fl_lt hf (x := (a : ℚ) / b) (y := ((n + 1 : ℕ) : ℚ)) (A := n + 1) (D := b) (by
          rw [abs_of_nonneg (by positivity)]; exact hlt.le) (by rw [abs_of_nonneg (by positivity)]) hb (by
          have h3 : a + 1 ≤ b * (n + 1) := hn'
          have h4 : ((a + 1 : ℕ) : ℚ) ≤ ((b * (n + 1) : ℕ) : ℚ) := by exact_mod_cast h3
          push_cast at h4 ⊢
          rw [le_sub_iff_add_le, ← add_div, div_le_iff₀ hbq]
          push_cast
          linarith) (by
          have : 4 * (n + 1) * b = 4 * (b * n) + 4 * b := by ring
          omega) (by omega)
      rw [h1] at h2
      push_cast at h2 ⊢
      linarith
  rw [key]
  simp

/-- `max` by rounded keys. -/
theorem pyMaxBy_order {α : Type} {f g : α → ℚ} {l : List α} (h : ∀ x ∈ l, ∀ y ∈ l, f x < f y ↔ g x < g y) : pyMaxBy f l = pyMaxBy g l := by
  cases l with
  | nil => rfl
  | cons x xs =>
    have key : ∀ (xs : List α) (b : α), (∀ y ∈ b :: xs, ∀ z ∈ b :: xs, f y < f z ↔ g y < g z) →
        xs.foldl (fun best y => if f best < f y then y else best) b = xs.foldl (fun best y => if g best < g y then y else best) b := by
      intro xs
      induction xs with
      | nil => intros; rfl
      | cons y ys ih =>
        intro b hb
        have h1 := hb b (by simp) y (by simp)
        simp only [List.foldl_cons]
        by_cases hlt : g b < g y
        · rw [if_pos hlt, if_pos (h1.2 hlt)]
          exact ih y fun u hu v hv => hb u (List.mem_cons_of_mem _ hu) v (List.mem_cons_of_mem _ hv)
        · rw [if_neg hlt, if_neg (fun hc => hlt (h1.1 hc))]
          refine ih b fun u hu v hv => hb u ?_ v ?_ <;> simp only [List.mem_cons] at * <;> tauto
    unfold pyMaxBy
    dsimp only
    rw [key xs x h]

end Auctions.Floating
