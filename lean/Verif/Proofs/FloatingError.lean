import Verif.Proofs.FloatingDecimals

set_option autoImplicit false

/-! # How far the rounded sums and prices of the ascending auction are from the exact ones -/

namespace Auctions.Floating

open Auctions.Spec Auctions.Ascending

/-! ### Floats -/

theorem double_neg {q : ℚ} (h : Double q) : Double (-q) := by
  obtain ⟨m, e, h1, h2, h3, rfl⟩ := h
  exact ⟨-m, e, by rwa [abs_neg], h2, h3, by push_cast; ring⟩

theorem double_units {q : ℚ} (h : Double q) : ∃ z : ℤ, q = z * (2 : ℚ) ^ (-1074 : ℤ) := by
  obtain ⟨m, e, -, h2, -, rfl⟩ := h
  refine ⟨m * 2 ^ (e + 1074).toNat, ?_⟩
  have h4 : ((e + 1074).toNat : ℤ) = e + 1074 := by omega
  have : (2 : ℚ) ^ e = (2 : ℚ) ^ ((e + 1074).toNat : ℤ) * 2 ^ (-1074 : ℤ) := by
    rw [← zpow_add₀ (by norm_num), h4]
    congr 1; omega
  rw [this, zpow_natCast]
  push_cast
  ring

/-- A sum of two floats is never rounded to zero. -/
theorem sum_neg {fl : ℚ → ℚ} (hf : Rounding fl) {x y : ℚ} (hx : Double x) (hy : Double y) : 0 ≤ fl (x + y) ↔ 0 ≤ x + y := by
  have h0 : Double 0 := ⟨0, 0, by norm_num, by norm_num, by norm_num, by norm_num⟩
  constructor
  · intro h
    by_contra hc
    obtain ⟨z, hz⟩ := double_units hx
    obtain ⟨w, hw⟩ := double_units hy
    have hp : (0 : ℚ) < 2 ^ (-1074 : ℤ) := zpow_pos (by norm_num) _
    have hs : x + y = ((z + w : ℤ) : ℚ) * 2 ^ (-1074 : ℤ) := by rw [hz, hw]; push_cast; ring
    have h1 : z + w < 0 := by
      by_contra h2
      have : (0 : ℚ) ≤ ((z + w : ℤ) : ℚ) := by exact_mod_cast not_lt.1 h2
      exact hc (hs ▸ mul_nonneg this hp.le)
    have h2 : ((z + w : ℤ) : ℚ) ≤ -1 := by exact_mod_cast Int.le_sub_one_of_lt h1
    have hd : Double (-1 * 2 ^ (-1074 : ℤ)) := ⟨-1, -1074, by norm_num, by norm_num, by norm_num, by norm_num⟩
    have h3 := hf.monotone (x + y) (-1 * 2 ^ (-1074 : ℤ)) (by rw [hs]; exact mul_le_mul_of_nonneg_right h2 hp.le)
    rw [hf.exact _ hd] at h3
    linarith
  · intro h
    have := hf.monotone 0 (x + y) h
    rwa [hf.exact 0 h0] at this

/-- A float times a power of two is a float. -/
theorem double_times {v : ℚ} {n : ℕ} (hv : Double v) (hn : BinaryNumber n) (hb : |n * v| ≤ 2 ^ 53) : Double (n * v) := by
  rcases hn with rfl | ⟨j, rfl⟩
  · exact ⟨0, 0, by norm_num, by norm_num, by norm_num, by norm_num⟩
  · obtain ⟨m, e, h1, h2, h3, rfl⟩ := hv
    rcases eq_or_ne m 0 with rfl | hm
    · exact ⟨0, 0, by norm_num, by norm_num, by norm_num, by norm_num⟩
    · have heq : ((2 ^ j : ℕ) : ℚ) * (m * 2 ^ e) = m * 2 ^ (e + j) := by
        rw [zpow_add₀ (by norm_num), zpow_natCast]; push_cast; ring
      rw [heq] at hb ⊢
      refine ⟨m, e + j, h1, by omega, ?_, rfl⟩
      by_contra hc
      have h4 : (2 : ℚ) ^ (972 : ℤ) ≤ 2 ^ (e + j) := zpow_le_zpow_right₀ (by norm_num) (by omega)
      have h5 : (1 : ℚ) ≤ |(m : ℚ)| := by
        have : 1 ≤ |m| := Int.one_le_abs hm
        exact_mod_cast this
      have hp : (0 : ℚ) < 2 ^ (e + (j : ℤ)) := zpow_pos (by norm_num) _
      rw [abs_mul, abs_of_pos hp] at hb
      have h6 : (2 : ℚ) ^ (e + (j : ℤ)) ≤ |(m : ℚ)| * 2 ^ (e + (j : ℤ)) := le_mul_of_one_le_left hp.le h5
      have h7 : (2 : ℚ) ^ 53 < 2 ^ (972 : ℤ) := by
        rw [← zpow_natCast]
        exact zpow_lt_zpow_right₀ (by norm_num) (by norm_num)
      exact absurd (h7.trans_le (h4.trans (h6.trans hb))) (lt_irrefl _)

/-! ### Sums -/

/-- The rounding `fl` moves numbers of absolute value at most `A` by at most `u`. -/
def NearTo (fl : ℚ → ℚ) (A u : ℚ) : Prop := ∀ q, |q| ≤ A → |fl q - q| ≤ u

theorem foldl_near {fl : ℚ → ℚ} {A u : ℚ} (hu : 0 ≤ u) (hn : NearTo fl A u) {M : ℚ} {x : List ℚ} {r : List ℕ} (hx : ∀ q ∈ x, |q| ≤ M) (hl : x.length = r.length) {s s' E B : ℚ} (hs : |s| ≤ B)
    (hs' : |s' - s| ≤ E) (hM : 0 ≤ M) (hA : B + M * r.sum + E + 2 * r.length * u ≤ A) :
    |(List.zipWith (fun (q : ℚ) (n : ℕ) => fl (q * n)) x r).foldl (fun s x => fl (s + x)) s' - (s + recipeSum r x)| ≤ E + 2 * r.length * u := by
  induction x generalizing r s s' E B with
  | nil =>
    cases r with
    | nil => simpa [recipeSum] using hs'
    | cons n r => simp at hl
  | cons q x ih =>
    cases r with
    | nil => simp at hl
    | cons n r =>
      simp only [List.zipWith_cons_cons, List.foldl_cons, List.sum_cons, List.length_cons, recipeSum] at hA ⊢
      simp only [Nat.cast_add, Nat.cast_one] at hA ⊢
      have hB := (abs_nonneg s).trans hs
      have hE := (abs_nonneg _).trans hs'
      have hn0 : (0 : ℚ) ≤ n := by positivity
      have hr0 : (0 : ℚ) ≤ (r.sum : ℚ) := by positivity
      have hl0 : (0 : ℚ) ≤ 2 * (r.length : ℚ) * u := by positivity
      have hMr : 0 ≤ M * (r.sum : ℚ) := mul_nonneg hM hr0
      have hMn : 0 ≤ M * (n : ℚ) := mul_nonneg hM hn0
      have hq : |q * n| ≤ M * n := by
        rw [abs_mul, abs_of_nonneg hn0]
        exact mul_le_mul_of_nonneg_right (hx q (by simp)) hn0
      have h1 : |fl (q * n) - q * n| ≤ u := hn _ (by nlinarith)
      have h2 : |s' + fl (q * n) - (s + q * n)| ≤ E + u := by
        have : s' + fl (q * n) - (s + q * n) = (s' - s) + (fl (q * n) - q * n) := by ring
        rw [this]
        exact (abs_add_le _ _).trans (add_le_add hs' h1)
      have h3 : |s + q * n| ≤ B + M * n := (abs_add_le _ _).trans (add_le_add hs hq)
      have h4 : |s' + fl (q * n)| ≤ A := by
        have : s' + fl (q * n) = (s + q * n) + (s' + fl (q * n) - (s + q * n)) := by ring
        rw [this]
        refine (abs_add_le _ _).trans ?_
        nlinarith
      have h5 : |fl (s' + fl (q * n)) - (s + q * n)| ≤ E + 2 * u := by
        have : fl (s' + fl (q * n)) - (s + q * n) = (fl (s' + fl (q * n)) - (s' + fl (q * n))) + (s' + fl (q * n) - (s + q * n)) := by ring
        rw [this]
        refine (abs_add_le _ _).trans ?_
        have := hn _ h4
        linarith
      have h6 := ih (r := r) (fun q' hq' => hx q' (by simp [hq'])) (by simpa using hl) h3 h5 (by nlinarith)
      have e : s + q * n + recipeSum r x = s + ((n : ℚ) * q + (List.zipWith (fun (a : ℕ) (p : ℚ) => (a : ℚ) * p) r x).sum) := by
        unfold recipeSum; ring
      rw [e] at h6
      refine h6.trans (le_of_eq ?_)
      ring

theorem flDot_near {fl : ℚ → ℚ} {A u : ℚ} (hu : 0 ≤ u) (hn : NearTo fl A u) {M : ℚ} {x : List ℚ} {r : List ℕ} (hx : ∀ q ∈ x, |q| ≤ M) (hl : x.length = r.length) (hM : 0 ≤ M)
    (hA : M * r.sum + 2 * r.length * u ≤ A) : |flDot fl x r - recipeSum r x| ≤ 2 * r.length * u := by
  have := foldl_near hu hn hx hl (s := 0) (s' := 0) (E := 0) (B := 0) (by simp) (by simp) hM (by linarith)
  simpa [flDot, flSum] using this

theorem recipeSum_bound {M : ℚ} (hM : 0 ≤ M) {x : List ℚ} {r : List ℕ} (hx : ∀ q ∈ x, |q| ≤ M) : |recipeSum r x| ≤ M * r.sum := by
  induction x generalizing r with
  | nil =>
    have : (0 : ℚ) ≤ (r.sum : ℚ) := by positivity
    simpa [recipeSum] using mul_nonneg hM this
  | cons q x ih =>
    cases r with
    | nil => simp [recipeSum]
    | cons n r =>
      have h1 := ih (r := r) fun q' hq' => hx q' (by simp [hq'])
      have hn0 : (0 : ℚ) ≤ n := by positivity
      have e : recipeSum (n :: r) (q :: x) = n * q + recipeSum r x := by simp [recipeSum]
      rw [e, List.sum_cons]
      simp only [Nat.cast_add]
      refine (abs_add_le _ _).trans ?_
      rw [abs_mul, abs_of_nonneg hn0]
      have := mul_le_mul_of_nonneg_left (hx q (by simp)) hn0
      linarith

/-! ### One step of the clock loop -/

theorem rAt_le_sum {r : List ℕ} (c : ℕ) : rAt r c ≤ r.sum := by
  by_cases hc : c < r.length
  · rw [rAt_eq_getElem hc]
    exact List.single_le_sum (by simp) _ (List.getElem_mem hc)
  · simp [rAt, List.getElem?_eq_none (not_lt.1 hc)]

section
variable {fl : ℚ → ℚ} (hf : Rounding fl) {cs : List AgentCategory} {r : List ℕ} {M k : ℕ} (h : r.length = cs.length)
  (hv : ∀ i, ∀ v ∈ vAt cs i, Double v ∧ |v| ≤ M) (hM : 100000000 ≤ M) (hd : (M * r.sum + 1) * 2 ^ k ≤ 2 ^ 53) (hcat : 2 * r.length + 4 ≤ 2 ^ k)
include hf h hv hM hd hcat

/-- The exact sum of the prices of the other categories. -/
def others (cs : List AgentCategory) (r : List ℕ) (s : ℕ → ℕ) (c : ℕ) : ℚ := clockSum cs r s - rAt r c * clock (vAt cs c) (s c)

omit hf h hcat hd in
theorem clock_bound (s : ℕ) (i : ℕ) : Double (clock (vAt cs i) s) ∧ |clock (vAt cs i) s| ≤ M := by
  by_cases hs : s < (vAt cs i).length
  · rw [clock_of_lt hs]
    exact hv i _ (List.getElem_mem hs)
  · rw [clock_of_ge (by omega)]
    refine ⟨⟨-100000000, 0, by norm_num, by norm_num, by norm_num, by norm_num [MAX_VALUE]⟩, ?_⟩
    have : (100000000 : ℚ) ≤ M := by exact_mod_cast hM
    rw [abs_neg, abs_of_pos (by norm_num [MAX_VALUE])]
    simpa [MAX_VALUE] using this

omit hf h hcat hd in
theorem mkPrices_bound (s : ℕ → ℕ) : ∀ q ∈ mkPrices cs s, |q| ≤ M := by
  intro q hq
  simp only [mkPrices, List.mem_map] at hq
  obtain ⟨i, -, rfl⟩ := hq
  exact (clock_bound hv hM _ i).2

omit h hv hM hcat in
theorem fl_nearTo : NearTo fl (M * r.sum + 1) (1 / 2 ^ k) := by
  intro q hq
  refine (Props.float_near hf (A := M * r.sum + 1) (by simp only [Nat.cast_add, Nat.cast_mul, Nat.cast_one]; exact hq) hd ?_).le
  have h1 : 2 ^ k ≤ 2 ^ 53 := by
    have : 1 * 2 ^ k ≤ (M * r.sum + 1) * 2 ^ k := Nat.mul_le_mul_right _ (by omega)
    omega
  have := (Nat.pow_le_pow_iff_right (show 1 < 2 by omega)).1 h1
  omega

omit hf h hv hM hcat in
theorem A_le : ((M : ℚ) * r.sum + 1) ≤ 2 ^ 53 := by
  have h1 : M * r.sum + 1 ≤ 2 ^ 53 := (Nat.le_mul_of_pos_right _ (by positivity)).trans hd
  exact_mod_cast h1

omit hf h hv hM hd in
theorem units_le {a : ℚ} (ha : a ≤ 2 * r.length + 4) : a * (1 / 2 ^ k : ℚ) ≤ 1 := by
  have h1 : (2 * r.length + 4 : ℚ) ≤ 2 ^ k := by exact_mod_cast hcat
  have hp : (0 : ℚ) < 2 ^ k := by positivity
  rw [mul_one_div, div_le_one hp]
  linarith

omit hf hd hcat in
theorem others_bound {c : ℕ} (hc : c < cs.length) (s : ℕ → ℕ) : |others cs r s c| ≤ M * r.sum := by
  have h1 : others cs r s c = recipeSum r ((mkPrices cs s).set c 0) := by
    rw [recipeSum_set (a := rAt r c) (p := clock (vAt cs c) (s c)) _ (mkPrices_get hc)]
    · unfold others clockSum; ring
    · rw [rAt_eq_getElem (by omega), List.getElem?_eq_getElem (by omega)]
  rw [h1]
  refine recipeSum_bound (by positivity) fun q hq => ?_
  rcases List.mem_or_eq_of_mem_set hq with hq | rfl
  · exact mkPrices_bound hv hM s q hq
  · simp

omit hf h hd hcat in
theorem part_bound (c : ℕ) (s : ℕ) (hr : rAt r c ≤ r.sum) : |(rAt r c : ℚ) * clock (vAt cs c) s| ≤ M * r.sum := by
  have h1 := (clock_bound hv hM s c).2
  have h2 : (rAt r c : ℚ) ≤ r.sum := by exact_mod_cast hr
  have h3 : (0 : ℚ) ≤ rAt r c := by positivity
  rw [abs_mul, abs_of_nonneg h3, mul_comm]
  have h4 : (0 : ℚ) ≤ M := by positivity
  exact mul_le_mul h1 h2 h3 h4

theorem flOthers_near {c : ℕ} (hc : c < cs.length) (s : ℕ → ℕ) :
    |flOthers fl cs r s c - others cs r s c| ≤ (2 * r.length + 2) * (1 / 2 ^ k) ∧ Double (flOthers fl cs r s c) ∧ |flOthers fl cs r s c| ≤ M * r.sum + 1 := by
  have hu : (0 : ℚ) ≤ 1 / 2 ^ k := by positivity
  have hn := fl_nearTo hf (M := M) (r := r) hd
  have hU := units_le (k := k) hcat (le_refl _)
  have hA := A_le (M := M) (r := r) hd
  have hl0 : (0 : ℚ) ≤ (r.length : ℚ) := by positivity
  generalize (1 / 2 ^ k : ℚ) = u at hu hn hU ⊢
  have h1 := flDot_near hu hn (mkPrices_bound hv hM s) (by rw [mkPrices_length, h]) (by positivity) (by nlinarith)
  have hpart := part_bound (cs := cs) hv hM c (s c) (rAt_le_sum (r := r) c)
  have h2 := hn _ (by linarith : |(rAt r c : ℚ) * clock (vAt cs c) (s c)| ≤ M * r.sum + 1)
  have h3 : |flDot fl (mkPrices cs s) r - fl (rAt r c * clock (vAt cs c) (s c)) - others cs r s c| ≤ (2 * r.length + 1) * u := by
    have e : flDot fl (mkPrices cs s) r - fl (rAt r c * clock (vAt cs c) (s c)) - others cs r s c =
        (flDot fl (mkPrices cs s) r - recipeSum r (mkPrices cs s)) - (fl (rAt r c * clock (vAt cs c) (s c)) - rAt r c * clock (vAt cs c) (s c)) := by
      unfold others clockSum; ring
    rw [e]
    refine (abs_sub _ _).trans ?_
    linarith
  have hob := others_bound h hv hM hc s
  have h4 : |flDot fl (mkPrices cs s) r - fl (rAt r c * clock (vAt cs c) (s c))| ≤ M * r.sum + 1 := by
    have e : flDot fl (mkPrices cs s) r - fl (rAt r c * clock (vAt cs c) (s c)) =
      (flDot fl (mkPrices cs s) r - fl (rAt r c * clock (vAt cs c) (s c)) - others cs r s c) + others cs r s c := by ring
    rw [e]
    refine (abs_add_le _ _).trans ?_
    nlinarith
  have h5 := hn _ h4
  have h6 : |flOthers fl cs r s c - others cs r s c| ≤ (2 * r.length + 2) * u := by
    have e : flOthers fl cs r s c - others cs r s c = (fl (flDot fl (mkPrices cs s) r - fl (rAt r c * clock (vAt cs c) (s c))) -
      (flDot fl (mkPrices cs s) r - fl (rAt r c * clock (vAt cs c) (s c)))) + (flDot fl (mkPrices cs s) r - fl (rAt r c * clock (vAt cs c) (s c)) - others cs r s c) := by
      unfold flOthers; ring
    rw [e]
    refine (abs_add_le _ _).trans ?_
    linarith
  refine ⟨h6, hf.float _ (h4.trans hA), ?_⟩
  have e : flOthers fl cs r s c = (flOthers fl cs r s c - others cs r s c) + others cs r s c := by ring
  rw [e]
  refine (abs_add_le _ _).trans ?_
  nlinarith

/-- The test of the program is made on a number that is near to the exact sum. -/
theorem flNewSum_sign {c : ℕ} (hc : c < cs.length) (s : ℕ → ℕ) :
    ∃ x, (0 ≤ flNewSum fl cs r s c ↔ 0 ≤ x) ∧ |x - clockSum cs r (Function.update s c (s c - 1))| ≤ (2 * r.length + 3) * (1 / 2 ^ k) ∧
      x = flOthers fl cs r s c + fl (rAt r c * clock (vAt cs c) (s c - 1)) := by
  obtain ⟨h1, h2, h3⟩ := flOthers_near hf h hv hM hd hcat hc s
  have hn := fl_nearTo hf (M := M) (r := r) hd
  have hA := A_le (M := M) (r := r) hd
  have hpart := part_bound (cs := cs) hv hM c (s c - 1) (rAt_le_sum (r := r) c)
  have h4 := hn _ (by linarith : |(rAt r c : ℚ) * clock (vAt cs c) (s c - 1)| ≤ M * r.sum + 1)
  refine ⟨_, sum_neg hf h2 (hf.float _ (hpart.trans (by linarith))), ?_, rfl⟩
  rw [clockSum_update h hc]
  have e : flOthers fl cs r s c + fl (rAt r c * clock (vAt cs c) (s c - 1)) - (clockSum cs r s - rAt r c * clock (vAt cs c) (s c) + rAt r c * clock (vAt cs c) (s c - 1)) =
      (flOthers fl cs r s c - others cs r s c) + (fl (rAt r c * clock (vAt cs c) (s c - 1)) - rAt r c * clock (vAt cs c) (s c - 1)) := by
    unfold others; ring
  rw [e]
  refine (abs_add_le _ _).trans ?_
  linarith

/-- The balancing price. -/
theorem flBalPrice_near {c : ℕ} (hc : c < cs.length) (hr : 0 < rAt r c) (s : ℕ → ℕ) :
    flBalPrice fl cs r s c = fl (-flOthers fl cs r s c / rAt r c) ∧ |flBalPrice fl cs r s c - (-flOthers fl cs r s c / rAt r c)| ≤ 1 / 2 ^ k := by
  obtain ⟨h1, h2, h3⟩ := flOthers_near hf h hv hM hd hcat hc s
  have hn := fl_nearTo hf (M := M) (r := r) hd
  have e : flBalPrice fl cs r s c = fl (-flOthers fl cs r s c / rAt r c) := by
    unfold flBalPrice
    rw [zero_sub, hf.exact _ (double_neg h2)]
  refine ⟨e, ?_⟩
  rw [e]
  refine hn _ ?_
  have hr' : (1 : ℚ) ≤ rAt r c := by exact_mod_cast hr
  rw [abs_div, abs_neg, abs_of_nonneg (by linarith : (0 : ℚ) ≤ rAt r c)]
  refine (div_le_self (abs_nonneg _) hr').trans h3

/-- The prices are nearly balanced. -/
theorem flBalPrice_balanced {c : ℕ} (hc : c < cs.length) (hr : 0 < rAt r c) (s : ℕ → ℕ) :
    |recipeSum r ((mkPrices cs s).set c (flBalPrice fl cs r s c))| ≤ (2 * r.length + 2 + rAt r c) * (1 / 2 ^ k) := by
  obtain ⟨h1, -, -⟩ := flOthers_near hf h hv hM hd hcat hc s
  obtain ⟨-, h2⟩ := flBalPrice_near hf h hv hM hd hcat hc hr s
  have hr' : (0 : ℚ) < rAt r c := by exact_mod_cast hr
  rw [recipeSum_set (a := rAt r c) (p := clock (vAt cs c) (s c)) (by rw [rAt_eq_getElem (by omega), List.getElem?_eq_getElem (by omega)]) (mkPrices_get hc)]
  have e : recipeSum r (mkPrices cs s) - rAt r c * clock (vAt cs c) (s c) + rAt r c * flBalPrice fl cs r s c =
      -(flOthers fl cs r s c - others cs r s c) + rAt r c * (flBalPrice fl cs r s c - (-flOthers fl cs r s c / rAt r c)) := by
    unfold others clockSum
    field_simp
    ring
  rw [e]
  refine (abs_add_le _ _).trans ?_
  rw [abs_neg, abs_mul, abs_of_pos hr']
  have := mul_le_mul_of_nonneg_left h2 hr'.le
  linarith

/-- The computed balancing price is near to the exact one. -/
theorem flBalPrice_exact {c : ℕ} (hc : c < cs.length) (hr : 0 < rAt r c) (s : ℕ → ℕ) :
    |flBalPrice fl cs r s c - balPrice cs r s c| ≤ (2 * r.length + 3) * (1 / 2 ^ k) := by
  obtain ⟨h1, -, -⟩ := flOthers_near hf h hv hM hd hcat hc s
  obtain ⟨-, h2⟩ := flBalPrice_near hf h hv hM hd hcat hc hr s
  have hr' : (1 : ℚ) ≤ rAt r c := by exact_mod_cast hr
  have e : flBalPrice fl cs r s c - balPrice cs r s c = (flBalPrice fl cs r s c - (-flOthers fl cs r s c / rAt r c)) + -((flOthers fl cs r s c - others cs r s c) / rAt r c) := by
    unfold balPrice others; ring
  rw [e]
  refine (abs_add_le _ _).trans ?_
  rw [abs_neg, abs_div, abs_of_nonneg (by linarith : (0 : ℚ) ≤ rAt r c)]
  have := (div_le_self (abs_nonneg (flOthers fl cs r s c - others cs r s c)) hr').trans h1
  linarith

/-- The balancing price is not above the lowest value, up to the rounding. -/
theorem flBalPrice_le {c : ℕ} (hc : c < cs.length) (hr : 0 < rAt r c) {s : ℕ → ℕ} (hs : 0 ≤ flNewSum fl cs r s c) :
    flBalPrice fl cs r s c ≤ clock (vAt cs c) (s c - 1) + 2 * (1 / 2 ^ k) ∧ (BinaryNumber (rAt r c) → flBalPrice fl cs r s c ≤ clock (vAt cs c) (s c - 1)) := by
  obtain ⟨x, hx, -, rfl⟩ := flNewSum_sign hf h hv hM hd hcat hc s
  obtain ⟨e, h2⟩ := flBalPrice_near hf h hv hM hd hcat hc hr s
  have h3 := hx.1 hs
  have hr' : (1 : ℚ) ≤ rAt r c := by exact_mod_cast hr
  have hr0 : (0 : ℚ) < rAt r c := by linarith
  have hA := A_le (M := M) (r := r) hd
  have hpart := part_bound (cs := cs) hv hM c (s c - 1) (rAt_le_sum (r := r) c)
  have h5 := (clock_bound hv hM (s c - 1) c).1
  constructor
  · have h4 := fl_nearTo hf (M := M) (r := r) hd _ (by linarith : |(rAt r c : ℚ) * clock (vAt cs c) (s c - 1)| ≤ M * r.sum + 1)
    have hu : (0 : ℚ) ≤ 1 / 2 ^ k := by positivity
    have h6 : -flOthers fl cs r s c / rAt r c ≤ clock (vAt cs c) (s c - 1) + 1 / 2 ^ k := by
      rw [div_le_iff₀ hr0]
      have := (abs_le.1 h4).2
      nlinarith
    have := (abs_le.1 h2).2
    linarith
  · intro hb
    have h4 : Double (rAt r c * clock (vAt cs c) (s c - 1)) := double_times h5 hb (hpart.trans (by linarith))
    rw [hf.exact _ h4] at h3
    rw [e, ← hf.exact _ h5]
    refine hf.monotone _ _ ?_
    rw [div_le_iff₀ hr0]
    linarith

end

end Auctions.Floating
