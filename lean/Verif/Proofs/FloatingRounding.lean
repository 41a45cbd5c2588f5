import Verif.Proofs.FloatingBasic
import Verif.Proofs.Experiment

set_option autoImplicit false

/-! # Helper lemmas: rounding to 53 binary digits -/

namespace Auctions.Floating

open Auctions Auctions.Spec

/-- The exponent of the last digit. -/
def lastDigit (x : ℚ) : ℤ := max (Int.log 2 x - 52) (-1074)

section
variable {ρ : ℚ → ℤ} (hmono : ∀ x y, x ≤ y → ρ x ≤ ρ y) (hint : ∀ z : ℤ, ρ z = z)

theorem two_pow_pos (e : ℤ) : (0 : ℚ) < 2 ^ e := zpow_pos (by norm_num) e

theorem lastDigit_mono {x y : ℚ} (hx : 0 < x) (h : x ≤ y) : lastDigit x ≤ lastDigit y := by
  have := Int.log_mono_right (b := 2) hx h
  unfold lastDigit
  omega

theorem scaled_lt {x : ℚ} (hx : 0 < x) {e : ℤ} (he : lastDigit x ≤ e) : x / 2 ^ e < 2 ^ 53 := by
  rw [div_lt_iff₀ (two_pow_pos _)]
  have h1 := Int.lt_zpow_succ_log_self (b := 2) (by omega) x
  refine lt_of_lt_of_le h1 ?_
  rw [show ((2 : ℚ) ^ 53) = 2 ^ (53 : ℤ) by norm_num, ← zpow_add₀ (by norm_num)]
  push_cast
  refine zpow_le_zpow_right₀ (by norm_num) ?_
  unfold lastDigit at he
  omega

include hmono hint

theorem round_nonneg {x : ℚ} (hx : 0 ≤ x) : 0 ≤ ρ x := by
  have := hmono 0 x hx
  have h0 := hint 0
  norm_num at h0
  omega

theorem roundDigits_nonneg {x : ℚ} (hx : 0 ≤ x) : 0 ≤ roundDigits ρ x := by
  unfold roundDigits
  refine mul_nonneg ?_ (two_pow_pos _).le
  exact_mod_cast round_nonneg hmono hint (div_nonneg hx (two_pow_pos _).le)

theorem roundDigits_le {x : ℚ} {k : ℤ} (hk : lastDigit x ≤ k) (h : x ≤ 2 ^ k) : roundDigits ρ x ≤ 2 ^ k := by
  have h1 : x / 2 ^ lastDigit x ≤ ((2 ^ (k - lastDigit x).toNat : ℤ) : ℚ) := by
    rw [div_le_iff₀ (two_pow_pos _)]
    push_cast
    rw [← zpow_natCast, ← zpow_add₀ (by norm_num)]
    rwa [show ((k - lastDigit x).toNat : ℤ) + lastDigit x = k by omega]
  have h2 := hmono _ _ h1
  rw [hint] at h2
  have h3 : (ρ (x / 2 ^ lastDigit x) : ℚ) ≤ ((2 ^ (k - lastDigit x).toNat : ℤ) : ℚ) := by exact_mod_cast h2
  have h4 := mul_le_mul_of_nonneg_right h3 (two_pow_pos (lastDigit x)).le
  refine h4.trans_eq ?_
  push_cast
  rw [← zpow_natCast, ← zpow_add₀ (by norm_num)]
  rw [show ((k - lastDigit x).toNat : ℤ) + lastDigit x = k by omega]

theorem le_roundDigits {x : ℚ} {k : ℤ} (hk : lastDigit x ≤ k) (h : 2 ^ k ≤ x) : 2 ^ k ≤ roundDigits ρ x := by
  have h1 : ((2 ^ (k - lastDigit x).toNat : ℤ) : ℚ) ≤ x / 2 ^ lastDigit x := by
    rw [le_div_iff₀ (two_pow_pos _)]
    push_cast
    rw [← zpow_natCast, ← zpow_add₀ (by norm_num)]
    rwa [show ((k - lastDigit x).toNat : ℤ) + lastDigit x = k by omega]
  have h2 := hmono _ _ h1
  rw [hint] at h2
  have h3 : ((2 ^ (k - lastDigit x).toNat : ℤ) : ℚ) ≤ (ρ (x / 2 ^ lastDigit x) : ℚ) := by exact_mod_cast h2
  have h4 := mul_le_mul_of_nonneg_right h3 (two_pow_pos (lastDigit x)).le
  refine le_trans (le_of_eq ?_) h4
  push_cast
  rw [← zpow_natCast, ← zpow_add₀ (by norm_num)]
  rw [show ((k - lastDigit x).toNat : ℤ) + lastDigit x = k by omega]

theorem roundDigits_mono {x y : ℚ} (hx : 0 ≤ x) (h : x ≤ y) : roundDigits ρ x ≤ roundDigits ρ y := by
  rcases hx.eq_or_lt with rfl | hx
  · have h0 : roundDigits ρ 0 = 0 := by
      unfold roundDigits
      have h0 := hint 0
      norm_num at h0
      simp [h0]
    rw [h0]
    exact roundDigits_nonneg hmono hint h
  rcases (lastDigit_mono hx h).eq_or_lt with he | he
  · have h1 : x / 2 ^ lastDigit x ≤ y / 2 ^ lastDigit x := div_le_div_of_nonneg_right h (two_pow_pos _).le
    have h2 := hmono _ _ h1
    have h3 : (ρ (x / 2 ^ lastDigit x) : ℚ) ≤ (ρ (y / 2 ^ lastDigit x) : ℚ) := by exact_mod_cast h2
    have h4 := mul_le_mul_of_nonneg_right h3 (two_pow_pos (lastDigit x)).le
    rw [he] at h4
    unfold roundDigits
    unfold lastDigit at h4 he
    rw [he]
    exact h4
  · have hy : lastDigit y = Int.log 2 y - 52 := by unfold lastDigit at he ⊢; omega
    have hx' : Int.log 2 x + 1 ≤ Int.log 2 y := by unfold lastDigit at he hy; omega
    have h1 : x ≤ (2 : ℚ) ^ (Int.log 2 y) := by
      have := Int.lt_zpow_succ_log_self (b := 2) (by omega) x
      push_cast at this
      exact this.le.trans (zpow_le_zpow_right₀ (by norm_num) hx')
    have h2 : (2 : ℚ) ^ (Int.log 2 y) ≤ y := by
      have := Int.zpow_log_le_self (b := 2) (by omega) (lt_of_lt_of_le hx h)
      push_cast at this
      exact this
    exact (roundDigits_le hmono hint (by omega) h1).trans (le_roundDigits hmono hint (by omega) h2)

theorem roundDigits_exact {x : ℚ} (hx : 0 ≤ x) (h : Double x) : roundDigits ρ x = x := by
  rcases hx.eq_or_lt with rfl | hx
  · unfold roundDigits
    have h0 := hint 0
    norm_num at h0
    simp [h0]
  obtain ⟨m, e, hm, he1, he2, hq⟩ := h
  have hle : lastDigit x ≤ e := by
    by_contra hlt
    have h1 : lastDigit x = Int.log 2 x - 52 := by unfold lastDigit at hlt ⊢; omega
    have h2 := Int.zpow_log_le_self (b := 2) (r := x) (by omega) hx
    push_cast at h2
    have h3 : x < 2 ^ (53 + e) := by
      rw [hq, zpow_add₀ (by norm_num)]
      refine mul_lt_mul_of_pos_right ?_ (two_pow_pos _)
      have : (m : ℚ) < ((2 ^ 53 : ℤ) : ℚ) := by exact_mod_cast lt_of_abs_lt hm
      refine this.trans_eq ?_
      norm_num
    have h4 := (zpow_lt_zpow_iff_right₀ (show (1 : ℚ) < 2 by norm_num)).1 (lt_of_le_of_lt h2 h3)
    omega
  have h5 : x / 2 ^ lastDigit x = ((m * 2 ^ (e - lastDigit x).toNat : ℤ) : ℚ) := by
    rw [div_eq_iff (two_pow_pos _).ne']
    push_cast
    rw [← zpow_natCast, mul_assoc, ← zpow_add₀ (by norm_num)]
    rw [show ((e - lastDigit x).toNat : ℤ) + lastDigit x = e by omega]
    exact hq
  have h6 : roundDigits ρ x = (ρ (x / 2 ^ lastDigit x) : ℚ) * 2 ^ lastDigit x := rfl
  rw [h6, h5, hint, ← h5, div_mul_cancel₀ _ (two_pow_pos _).ne']

theorem roundDigits_double {x : ℚ} (hx : 0 ≤ x) (h : x ≤ 2 ^ 53) : Double (roundDigits ρ x) := by
  rcases hx.eq_or_lt with rfl | hx0
  · rw [roundDigits_exact hmono hint le_rfl ⟨0, 0, by norm_num, by norm_num, by norm_num, by norm_num⟩]
    exact ⟨0, 0, by norm_num, by norm_num, by norm_num, by norm_num⟩
  have hlog : Int.log 2 x ≤ 53 := by
    have h2 := Int.zpow_log_le_self (b := 2) (r := x) (by omega) hx0
    push_cast at h2
    have h3 : (2 : ℚ) ^ Int.log 2 x ≤ 2 ^ (53 : ℤ) := by
      refine (h2.trans h).trans_eq (by norm_num)
    exact (zpow_le_zpow_iff_right₀ (show (1 : ℚ) < 2 by norm_num)).1 h3
  have he : lastDigit x ≤ 1 := by unfold lastDigit; omega
  have he2 : -1074 ≤ lastDigit x := by unfold lastDigit; omega
  have h1 : ρ (x / 2 ^ lastDigit x) ≤ 2 ^ 53 := by
    have h2 := hmono _ ((2 ^ 53 : ℤ) : ℚ) (by
      refine (scaled_lt hx0 le_rfl).le.trans_eq ?_
      norm_num)
    rwa [hint] at h2
  have h0 := round_nonneg hmono hint (div_nonneg hx (two_pow_pos (lastDigit x)).le)
  have h6 : roundDigits ρ x = (ρ (x / 2 ^ lastDigit x) : ℚ) * 2 ^ lastDigit x := rfl
  rcases h1.eq_or_lt with h1 | h1
  · refine ⟨2 ^ 52, lastDigit x + 1, by norm_num, by omega, by omega, ?_⟩
    rw [h6, h1, zpow_add_one₀ (by norm_num)]
    push_cast
    ring
  · exact ⟨_, lastDigit x, by rwa [abs_of_nonneg h0], he2, by omega, h6⟩

theorem roundSigned_rounding : Rounding (roundSigned ρ) := by
  have hneg : ∀ {q : ℚ}, Double q → Double (-q) := by
    rintro q ⟨m, e, h1, h2, h3, h4⟩
    exact ⟨-m, e, by rwa [abs_neg], h2, h3, by rw [h4]; push_cast; ring⟩
  refine ⟨fun q hq => ?_, fun x y h => ?_, fun q hq => ?_, fun q => ?_⟩
  · unfold roundSigned
    split_ifs with h
    · rw [roundDigits_exact hmono hint (by linarith) (hneg hq), neg_neg]
    · exact roundDigits_exact hmono hint (by linarith) hq
  · unfold roundSigned
    split_ifs with h1 h2 h2
    · exact neg_le_neg (roundDigits_mono hmono hint (by linarith) (by linarith))
    · have := roundDigits_nonneg hmono hint (x := -x) (by linarith)
      have := roundDigits_nonneg hmono hint (x := y) (by linarith)
      linarith
    · exfalso; linarith
    · exact roundDigits_mono hmono hint (by linarith) h
  · rw [abs_le] at hq
    unfold roundSigned
    split_ifs with h
    · exact hneg (roundDigits_double hmono hint (by linarith) (by linarith))
    · exact roundDigits_double hmono hint (by linarith) hq.2
  · unfold roundSigned
    rcases lt_trichotomy q 0 with h | h | h
    · rw [if_neg (by linarith), if_pos h, neg_neg]
    · subst h
      have h0 : roundDigits ρ 0 = 0 := roundDigits_exact hmono hint le_rfl ⟨0, 0, by norm_num, by norm_num, by norm_num, by norm_num⟩
      simp [h0]
    · rw [if_pos (by linarith), if_neg (by linarith), neg_neg]

end

theorem nearestFloat_rounding : Rounding nearestFloat :=
  roundSigned_rounding (fun _ _ h => pyRound_mono h) pyRound_int

theorem towardsZero_rounding : Rounding towardsZero :=
  roundSigned_rounding (fun _ _ h => Int.floor_le_floor h) Int.floor_intCast

end Auctions.Floating
