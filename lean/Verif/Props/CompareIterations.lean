import Verif.Proofs.CompareIterations
import Verif.Props.ComparingExperiment

set_option autoImplicit false

/-!
# C79: the table that compares several auctions
-/

namespace Auctions.Props

open Auctions Spec Experiment
open Auctions.CompareIterations (Setting Outcome Results AuctionColumns cut Origin MarketOf stockCategories)

section

variable {auctions : List (Bool × AuctionFunction)} {r : List ℕ} {ns : List ℕ} {prices : List (List ℚ)} {names : List String} {N : ℕ}
  {stockMode asked : Bool} {shuffle : ℕ → ℕ → ℕ → List ℚ → List ℚ} {random : ℕ → ℕ → ℕ → ℕ → ℕ → ℚ} {out : Outcome}

/-! ## The markets -/

theorem stockCategories_spec {n : ℕ} {sign : ℚ} {order : List ℚ} (index : ℕ) (r : List ℕ) :
    (stockCategories n sign order index r).length = r.length ∧
    ∀ j < r.length, (((stockCategories n sign order index r).map AgentCategory.values).getD j []) =
      sortDesc (((order.drop (index + n * (r.take j).sum)).take (n * r.getD j 0)).map fun price =>
        (pyInt (price * if index + n * (r.take j).sum = 0 then sign else -1) : ℚ)) := by
  induction r generalizing index with
  | nil => simp [stockCategories]
  | cons a r ih =>
    obtain ⟨h1, h2⟩ := ih (index + n * a)
    refine ⟨by simp [stockCategories, h1], fun j hj => ?_⟩
    cases j with
    | zero => simp [stockCategories, AgentCategory.init]
    | succ j =>
      have := h2 j (by simpa using hj)
      simp only [stockCategories, List.map_cons, List.getD_cons_succ, List.take_succ_cons, List.sum_cons, Nat.mul_add]
      rw [this]
      simp only [Nat.add_assoc]

theorem randomCategories_spec {n : ℕ} {sign : ℚ} {rand : ℕ → ℕ → ℚ} (index : ℕ) (r : List ℕ) :
    (CompareIterations.randomCategories n sign rand index r).length = r.length ∧
    ∀ j (hj : j < (CompareIterations.randomCategories n sign rand index r).length), (CompareIterations.randomCategories n sign rand index r)[j] =
      AgentCategory.uniformlyRandom "agent" (n * r.getD j 0) (if 0 < index + j then -100000 else sign) (if 0 < index + j then -1 else 100000 * sign)
        (rand (index + j)) := by
  induction r generalizing index with
  | nil => simp [CompareIterations.randomCategories]
  | cons a r ih =>
    obtain ⟨h1, h2⟩ := ih (index + 1)
    refine ⟨by simp [CompareIterations.randomCategories, h1], fun j hj => ?_⟩
    cases j with
    | zero => simp [CompareIterations.randomCategories]
    | succ j =>
      have := h2 j (by simpa [CompareIterations.randomCategories] using hj)
      simp only [CompareIterations.randomCategories, List.getElem_cons_succ, List.getD_cons_succ]
      rw [this, show index + 1 + j = index + (j + 1) by omega]

/-- The multiplier for the buyers. -/
def buyerSign (r : List ℕ) : ℚ := ((r.sum : ℚ) - r.getD 0 0) / r.getD 0 0

theorem buyerSign_nonneg {r : List ℕ} : 0 ≤ buyerSign r := by
  unfold buyerSign
  have : (r.getD 0 0 : ℚ) ≤ r.sum := by
    cases r with
    | nil => simp
    | cons a r => rw [List.getD_cons_zero]; exact_mod_cast (show a ≤ (a :: r).sum by simp)
  exact div_nonneg (by linarith) (by positivity)

theorem market_init_ok {cats : List AgentCategory} {m : Market} (h : Market.init cats = .ok m) : m = ⟨cats⟩ ∧ cats ≠ [] := by
  cases cats with
  | nil => simp [Market.init] at h
  | cons c cs => exact ⟨(Except.ok.inj h).symm, by simp⟩

theorem dealt_of_origin {c : Setting} {original : List ℚ} {used : List ℕ} {n : ℕ} {rand : ℕ → ℕ → ℚ} {m : Market} (hsign : c.sign = buyerSign c.recipe)
    (h0 : c.recipe.getD 0 0 ≠ 0) (hc : c.runWithStockPrices = true) (h : Origin c original used n rand m) :
    DealtFrom original c.recipe used n m ∧ m.categories ≠ [] := by
  obtain ⟨order, hm, hl⟩ := h
  obtain ⟨⟨e, h1, h2⟩, h3⟩ := hl hc
  unfold MarketOf at hm
  rw [if_pos hc] at hm
  obtain ⟨rfl, hne⟩ := market_init_ok hm
  obtain ⟨h4, h5⟩ := stockCategories_spec (n := n) (sign := c.sign) (order := order) 0 c.recipe
  refine ⟨⟨e, order, h1, h3, h2, h4, fun j hj => ?_⟩, hne⟩
  have h6 := h5 j hj
  simp only [Nat.zero_add] at h6
  have h7 : (Market.valueLists ⟨stockCategories n c.sign order 0 c.recipe⟩).getD j [] =
    ((stockCategories n c.sign order 0 c.recipe).map AgentCategory.values).getD j [] := rfl
  rw [h7, h6]
  refine (sortDesc_perm _).trans ?_
  rcases Nat.eq_zero_or_pos n with rfl | hn
  · simp
  · have e2 : (n * (c.recipe.take j).sum = 0) ↔ j = 0 := by
      constructor
      · intro hz
        by_contra hj0
        rcases Nat.mul_eq_zero.1 hz with h | h
        · omega
        · cases hr : c.recipe with
          | nil => rw [hr] at h0; simp at h0
          | cons a l =>
            rw [hr] at h h0
            obtain ⟨j', rfl⟩ : ∃ j', j = j' + 1 := ⟨j - 1, by omega⟩
            simp at h h0
            omega
      · rintro rfl; simp
    simp only [e2, hsign, buyerSign]
    exact List.Perm.refl _

theorem drawn_of_origin {c : Setting} {original : List ℚ} {used : List ℕ} {n : ℕ} {rand : ℕ → ℕ → ℚ} {m : Market} (hsign : c.sign = buyerSign c.recipe)
    (hrand : ∀ i a, 0 ≤ rand i a ∧ rand i a ≤ 1) (hc : c.runWithStockPrices = false) (h : Origin c original used n rand m) :
    Drawn c.recipe n (ranges c.recipe) m ∧ m.categories ≠ [] := by
  obtain ⟨order, hm, -⟩ := h
  unfold MarketOf at hm
  rw [if_neg (by simp [hc])] at hm
  obtain ⟨rfl, hne⟩ := market_init_ok hm
  obtain ⟨h4, h5⟩ := randomCategories_spec (n := n) (sign := c.sign) (rand := rand) 0 c.recipe
  refine ⟨⟨h4, fun j hj => ?_⟩, hne⟩
  have hj' : j < (CompareIterations.randomCategories n c.sign rand 0 c.recipe).length := hj
  have he := h5 j hj'
  simp only [Nat.zero_add] at he
  have hr : ((ranges c.recipe).getD j 0) = (if 0 < j then -100000 else c.sign, if 0 < j then -1 else 100000 * c.sign) := by
    cases j with
    | zero => simp [ranges, hsign, buyerSign]
    | succ j =>
      have : j < c.recipe.length - 1 := by omega
      simp [ranges, List.getD_eq_getElem?_getD, this]
  refine ⟨?_, fun v hv => ?_⟩
  · show ((CompareIterations.randomCategories n c.sign rand 0 c.recipe)[j]).size = _
    rw [he, uniformlyRandom_size]
  · have hv' : v ∈ ((CompareIterations.randomCategories n c.sign rand 0 c.recipe)[j]).values := hv
    rw [he] at hv'
    have hs := buyerSign_nonneg (r := c.recipe)
    obtain ⟨a1, -, -, a4, a5⟩ := uniformlyRandom_mem (hrand j) (by split_ifs <;> linarith) hv'
    rw [hr]
    exact ⟨a1, a4, a5⟩

/-! ## The rows -/

theorem pyInt_spec (x : ℚ) : |x - pyInt x| < 1 ∧ |(pyInt x : ℚ)| ≤ |x| ∧ 0 ≤ x * pyInt x := by
  unfold pyInt
  split_ifs with h
  · have h1 := Int.floor_le x
    have h2 := Int.lt_floor_add_one x
    have h3 : (0 : ℚ) ≤ ⌊x⌋ := by exact_mod_cast Int.floor_nonneg.2 h
    rw [abs_of_nonneg h, abs_of_nonneg h3, abs_of_nonneg (by linarith)]
    exact ⟨by linarith, h1, mul_nonneg h h3⟩
  · push Not at h
    have h1 := Int.le_ceil x
    have h2 := Int.ceil_lt_add_one x
    have h3 : (⌈x⌉ : ℚ) ≤ 0 := by
      have : ⌈x⌉ ≤ 0 := Int.ceil_le.2 (by simpa using h.le)
      exact_mod_cast this
    rw [abs_of_neg h, abs_of_nonpos h3, abs_of_nonpos (by linarith)]
    exact ⟨by linarith, by linarith, mul_nonneg_of_nonpos_of_nonpos h.le h3⟩

theorem pyInt_mono {x y : ℚ} (h : x ≤ y) : pyInt x ≤ pyInt y := by
  unfold pyInt
  split_ifs with h1 h2 h2
  · exact Int.floor_le_floor h
  · exact absurd (h1.trans h) h2
  · push Not at h1
    have : ⌈x⌉ ≤ 0 := Int.ceil_le.2 (by simpa using h1.le)
    exact this.trans (Int.floor_nonneg.2 h2)
  · exact Int.ceil_le_ceil h

theorem cut_mono {d : ℕ} {x y : ℚ} (h : x ≤ y) : cut d x ≤ cut d y := by
  unfold cut
  have h10 : (0 : ℚ) < 10 ^ d := by positivity
  rw [div_le_div_iff_of_pos_right h10]
  exact_mod_cast pyInt_mono (mul_le_mul_of_nonneg_right h h10.le)

theorem cut_int (d : ℕ) (z : ℤ) : cut d z = z := by
  unfold cut
  have h10 : (0 : ℚ) < 10 ^ d := by positivity
  have e : ((z : ℚ) * 10 ^ d) = ((z * 10 ^ d : ℤ) : ℚ) := by push_cast; rfl
  have e2 : pyInt ((z * 10 ^ d : ℤ) : ℚ) = z * 10 ^ d := by
    unfold pyInt
    rw [Int.floor_intCast, Int.ceil_intCast, ite_self]
  rw [e, e2]
  push_cast
  field_simp

theorem cut_spec (d : ℕ) (x : ℚ) : CutTo d x (cut d x) := by
  have h10 : (0 : ℚ) < 10 ^ d := by positivity
  obtain ⟨h1, h2, h3⟩ := pyInt_spec (x * 10 ^ d)
  have e : cut d x * 10 ^ d = pyInt (x * 10 ^ d) := by
    unfold cut
    field_simp
  refine ⟨⟨_, e⟩, ?_, ?_, ?_⟩
  · rw [← e, ← sub_mul, abs_mul, abs_of_pos h10] at h1
    exact h1
  · rw [← e, abs_mul, abs_mul, abs_of_pos h10] at h2
    exact le_of_mul_le_mul_right h2 h10
  · rw [← e] at h3
    have : 0 ≤ (x * cut d x) * (10 ^ d * 10 ^ d) := by linarith [h3, show x * 10 ^ d * (cut d x * 10 ^ d) = (x * cut d x) * (10 ^ d * 10 ^ d) by ring]
    exact nonneg_of_mul_nonneg_left this (by positivity)

theorem row_reports {name : String} {n A : ℕ} {xs : List Contest} {D : ℕ} (hD : xs.length = D) :
    ReportsContests ((CompareIterations.sumResults name r n A xs).average D) r n A xs := by
  subst hD
  refine ⟨rfl, rfl, cut_spec _ _, cut_spec _ _, cut_spec _ _, cut_spec _ _, cut_spec _ _, by simp [Results.average, CompareIterations.sumResults], ?_⟩
  intro j hj
  have hj' : j < A := by simpa [Results.average, CompareIterations.sumResults] using hj
  simp only [Results.average, CompareIterations.sumResults, List.getElem_map, List.getElem_range]
  exact ⟨cut_spec _ _, cut_spec _ _, cut_spec _ _, cut_spec _ _, cut_spec _ _, cut_spec _ _, cut_spec _ _, cut_spec _ _, cut_spec _ _⟩

theorem contestsOf_length {S N i : ℕ} {X : ℕ → ℕ → ℕ → Contest} : (contestsOf S N i X).length = N * S := by
  simp [contestsOf, List.length_flatMap, Nat.mul_comm]

theorem mem_contestsOf {S N i : ℕ} {X : ℕ → ℕ → ℕ → Contest} {x : Contest} : x ∈ contestsOf S N i X ↔ ∃ a < S, ∃ l < N, X a i l = x := by
  simp [contestsOf]

theorem experiment_sign (h : CompareIterations.experiment auctions r ns prices names N stockMode asked shuffle random = .ok (some out)) :
    r.getD 0 0 ≠ 0 ∧ ∃ s, CompareIterations.stocks ⟨auctions, r, buyerSign r, names, N, stockMode, asked⟩ ns shuffle random 0 prices ⟨fun _ => none, 0, 0⟩
        = .ok (some s) ∧ CompareIterations.rows (N * prices.length) s.results [] ns = .ok out.table ∧ out.gftWrites = s.gftWrites ∧
      out.kWrites = s.kWrites := by
  unfold CompareIterations.experiment at h
  obtain ⟨first, h1, h⟩ := bind_ok_iff.1 h
  obtain ⟨sign, h2, h⟩ := bind_ok_iff.1 h
  obtain ⟨o, h3, h⟩ := bind_ok_iff.1 h
  have hf : r.getD 0 0 = first := by
    cases r with
    | nil => simp [pyGet] at h1
    | cons a l => simpa [pyGet] using h1
  have hs : r.getD 0 0 ≠ 0 ∧ sign = buyerSign r := by
    unfold pyDiv at h2
    split_ifs at h2 with h0
    rw [hf, buyerSign, hf]
    exact ⟨by exact_mod_cast h0, (Except.ok.inj h2).symm⟩
  cases o with
  | none => simp at h
  | some s =>
    obtain ⟨t, h4, h⟩ := bind_ok_iff.1 h
    simp only [Except.ok.injEq, Option.some.injEq] at h
    subst h
    rw [hs.2] at h3
    exact ⟨hs.1, s, h3, h4, rfl, rfl⟩

theorem mem_allContests {S I N : ℕ} {X : ℕ → ℕ → ℕ → Contest} {x : Contest} :
    x ∈ allContests S I N X ↔ ∃ a < S, ∃ i < I, ∃ l < N, X a i l = x := by
  simp [allContests]

/-- **C79**. What the table says, whatever the auctions, the prices and the random numbers, when `experiment` returns and no size occurs twice: for each stock, size and
iteration there was a contest of all auctions on one market, dealt from the prices of the stock (or drawn from the ranges of the code, if prices
are not used), and the row of a size reports the contests of that size. The notes on differences between the numbers of deals of the marked auctions (the
`SBB` ones) are those that the contests call for, and so are the notes on differences of the gains, unless the gain of some marked auction is negative. -/
theorem compare_columns (hd : ns.Nodup) (hsh : ∀ a i l p, (shuffle a i l p).Perm p) (hrand : ∀ a i l c k, 0 ≤ random a i l c k ∧ random a i l c k ≤ 1)
    (h : CompareIterations.experiment auctions r ns prices names N stockMode asked shuffle random = .ok (some out)) :
    ∃ (hl : out.table.length = ns.length) (X : ℕ → ℕ → ℕ → Contest),
      (∀ a (ha : a < prices.length), ∀ i (hi : i < ns.length), ∀ l < N, ∃ m,
        (if stockMode then DealtFrom prices[a] r (ns.take (i + 1)) ns[i] m else Drawn r ns[i] (ranges r) m) ∧ Contested auctions r m (X a i l)) ∧
      (∀ i (hi : i < ns.length), if N * prices.length = 0 then out.table[i] = none else
        ∃ row, out.table[i] = some row ∧ ReportsContests row r ns[i] auctions.length (contestsOf prices.length N i X)) ∧
      out.kWrites = ((allContests prices.length ns.length N X).map (dealNotes asked auctions)).sum ∧
      ((∀ x ∈ allContests prices.length ns.length N X, ∀ y ∈ marked auctions x, 0 ≤ y.gain) →
        out.gftWrites = ((allContests prices.length ns.length N X).map (gainNotes asked auctions)).sum) := by
  obtain ⟨h0, s, h1, h2, h3, h4⟩ := experiment_sign h
  obtain ⟨X, a1, a2, a3, a4⟩ := CompareIterations.stocks_some hd hsh 0 prices h1
  obtain ⟨b1, -⟩ := CompareIterations.rows_some [] ns h2
  refine ⟨by rw [b1]; simp, X, ?_, ?_, ?_, ?_⟩
  · intro a ha i hi l hl
    obtain ⟨m, m1, m2⟩ := a1 a ha i hi l hl
    refine ⟨m, ?_, m2⟩
    by_cases hc : stockMode = true
    · rw [if_pos hc]
      exact (dealt_of_origin (c := ⟨auctions, r, buyerSign r, names, N, stockMode, asked⟩) rfl h0 hc m1).1
    · rw [if_neg hc]
      exact (drawn_of_origin (c := ⟨auctions, r, buyerSign r, names, N, stockMode, asked⟩) rfl (hrand _ _ _) (by simpa using hc) m1).1
  · intro i hi
    have hh := a2 i hi [] (Or.inl ⟨rfl, rfl⟩)
    rw [List.nil_append] at hh
    have e : out.table[i]'(by rw [b1]; simpa using hi) = (s.results ns[i]).map (·.average (N * prices.length : ℕ)) := by
      simp only [b1, List.getElem_map]
    have hlen := contestsOf_length (S := prices.length) (N := N) (i := i) (X := X)
    rcases hh with ⟨hx, hn⟩ | ⟨hx, name, hn⟩
    · rw [e, hn, if_pos (by rw [← hlen]; unfold contestsOf; rw [hx]; rfl)]
      rfl
    · rw [if_neg (by rw [← hlen]; exact fun h => hx (List.length_eq_zero_iff.1 h))]
      exact ⟨_, by rw [e, hn]; rfl, row_reports hlen⟩
  · rw [h4, a4]
    simp only [allContests, List.map_flatMap, List.map_map, Function.comp_def, Nat.zero_add]
  · intro hg
    rw [h3, a3]
    simp only [Nat.zero_add]
    congr 1
    simp only [allContests, List.map_flatMap, List.map_map]
    apply List.flatMap_congr
    intro a ha
    apply List.flatMap_congr
    intro i hi
    apply List.map_congr_left
    intro l hl
    exact CompareIterations.gftWrites_eq _ _ _ (hg _ (mem_allContests.2 ⟨a, by simpa using ha, i, by simpa using hi, l, by simpa using hl, rfl⟩))

end

end Auctions.Props
