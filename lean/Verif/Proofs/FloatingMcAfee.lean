import Verif.Proofs.FloatingProtocols

set_option autoImplicit false

/-! # McAfee's protocol with rounded arithmetic -/

namespace Auctions.Floating

open Auctions.Spec

section
variable {f : ℚ → ℚ} (hf : Rounding f) {M : ℕ}
include hf

/-- A rounded quotient compares with whole numbers like the quotient. -/
theorem quotient_compare {n : ℕ} (hn : 0 < n) {s x : ℚ} (hs : Small (M * n) s) (hx : Small M x) (hb : 4 * M * n ≤ 2 ^ 53) (hM : 0 < M) :
    (x < f (s / n) ↔ x < s / n) ∧ (f (s / n) < x ↔ s / n < x) := by
  have hnq : (0 : ℚ) < n := by exact_mod_cast hn
  have h1 : 4 * M * n = 4 * (M * n) := by ring
  have hMn : M ≤ M * n := Nat.le_mul_of_pos_right M hn
  have hnM : n ≤ M * n := Nat.le_mul_of_pos_left n hM
  have hc : |s / n| ≤ (M : ℚ) := by
    rw [abs_div, abs_of_pos hnq, div_le_iff₀ hnq]
    have := hs.abs_le
    push_cast at this
    exact this
  have hxx := hx.fl hf (by omega)
  obtain ⟨z, rfl, hz⟩ := hx
  obtain ⟨w, rfl, hw⟩ := hs
  have hxa : |(z : ℚ)| ≤ (M : ℚ) := by exact_mod_cast hz
  have g1 := fl_lt_iff hf (x := z) (y := (w : ℚ) / n) (A := M) (D := n) hxa hc hn (by
    intro hlt
    rw [lt_div_iff₀ hnq] at hlt
    have h2 : z * n + 1 ≤ w := by exact_mod_cast hlt
    have h3 : (z : ℚ) * n + 1 ≤ w := by exact_mod_cast h2
    have h4 : ((w : ℚ) / n - z) = (w - z * n) / n := by field_simp
    rw [h4]
    exact div_le_div_of_nonneg_right (by linarith) hnq.le) hb (by omega)
  have g2 := fl_lt_iff hf (x := (w : ℚ) / n) (y := z) (A := M) (D := n) hc hxa hn (by
    intro hlt
    rw [div_lt_iff₀ hnq] at hlt
    have h2 : w + 1 ≤ z * n := by exact_mod_cast hlt
    have h3 : (w : ℚ) + 1 ≤ z * n := by exact_mod_cast h2
    have h4 : ((z : ℚ) - w / n) = (z * n - w) / n := by field_simp
    rw [h4]
    exact div_le_div_of_nonneg_right (by linarith) hnq.le) hb (by omega)
  rw [hxx] at g1 g2
  exact ⟨g1, g2⟩

theorem good_eq {n : ℕ} (hn : 0 < n) {s : ℚ} (hs : Small (M * n) s) (hb : 4 * M * n ≤ 2 ^ 53) (hM : 0 < M) {ps : List ℚ} (h : ∀ x ∈ ps, Small M x) :
    McAfee.isPriceGoodForPs (f (s / n)) ps = McAfee.isPriceGoodForPs (s / n) ps := by
  induction ps with
  | nil => rfl
  | cons x ps ih =>
    have h1 := (quotient_compare hf hn hs (h x (by simp)) hb hM).1
    have h2 := (quotient_compare hf hn hs (h x (by simp)).neg hb hM).2
    have h3 : -f (s / n) > x ↔ -(s / n) > x := by
      constructor
      · intro h'; have := h2.1 (by linarith); linarith
      · intro h'; have := h2.2 (by linarith); linarith
    unfold McAfee.isPriceGoodForPs
    rw [ih fun y hy => h y (by simp [hy])]
    simp only [gt_iff_lt] at h3 ⊢
    simp only [h1, h3]

theorem heuristicPrices_eq {c : ℚ} (hc : |c| ≤ 2 ^ 53) (last : List ℚ) (n : ℕ) :
    heuristicPrices f (f c) last n = (McAfee.heuristicPrices c last n).map (List.map f) := by
  have key : ∀ l : List ℕ, l.mapM (fun i => (do
        let x ← pyGet last i
        .ok (f (f c * (if x < 0 then -1 else 1))) : Py ℚ)) = (l.mapM (fun i => (do
        let x ← pyGet last i
        .ok (c * (if x < 0 then -1 else 1)) : Py ℚ))).map (List.map f) := by
    intro l
    induction l with
    | nil => rfl
    | cons i l ih =>
      rw [List.mapM_cons, List.mapM_cons, ih]
      cases pyGet last i with
      | error e => rfl
      | ok x =>
        simp only [bind, Except.bind]
        have h1 : f (f c * (if x < 0 then -1 else 1)) = f (c * (if x < 0 then -1 else 1)) := by
          have h2 := hf.exact _ (hf.float c hc)
          split_ifs
          · rw [mul_neg_one, mul_neg_one, hf.symmetric, hf.symmetric, h2]
          · rw [mul_one, mul_one, h2]
        rw [h1]
        generalize (List.mapM (m := Py) _ l) = y
        cases y <;> rfl
  exact key _

omit hf in
theorem heuristicPrices_double {c : ℚ} (hc : Double c) {last : List ℚ} {n : ℕ} {l : List ℚ} (h : McAfee.heuristicPrices c last n = .ok l) : ∀ q ∈ l, Double q := by
  have hneg : Double (-c) := by
    obtain ⟨m, e, h1, h2, h3, h4⟩ := hc
    exact ⟨-m, e, by rwa [abs_neg], h2, h3, by rw [h4]; push_cast; ring⟩
  unfold McAfee.heuristicPrices at h
  have key : ∀ (is : List ℕ) (l : List ℚ), is.mapM (fun i => (do
        let x ← pyGet last i
        .ok (c * (if x < 0 then -1 else 1)) : Py ℚ)) = .ok l → ∀ q ∈ l, Double q := by
    intro is
    induction is with
    | nil =>
      intro l hl
      simp only [List.mapM_nil, pure, Except.pure, Except.ok.injEq] at hl
      subst hl
      simp
    | cons i is ih =>
      intro l hl
      rw [List.mapM_cons] at hl
      cases hg : pyGet last i with
      | error e => rw [hg] at hl; simp [bind, Except.bind] at hl
      | ok x =>
        rw [hg] at hl
        cases hrec : is.mapM (fun i => (do
            let x ← pyGet last i
            .ok (c * (if x < 0 then -1 else 1)) : Py ℚ)) with
        | error e =>
          simp only [bind, Except.bind] at hl hrec
          rw [hrec] at hl
          simp at hl
        | ok rest =>
          have hrest := ih rest hrec
          simp only [bind, Except.bind] at hl hrec
          rw [hrec] at hl
          simp only [pure, Except.pure, Except.ok.injEq] at hl
          subst hl
          intro q hq
          rcases List.mem_cons.1 hq with rfl | hq
          · split_ifs
            · rwa [mul_neg_one]
            · rwa [mul_one]
          · exact hrest q hq
  exact key _ _ h

omit hf in
theorem highest_length {cs : List AgentCategory} {n : ℕ} (hn : n = cs.length) {ps : List ℚ} (hps : Market.getHighestAgentsLoop cs (List.replicate n 1) = .ok (some ps)) : ps.length = n := by
  induction cs generalizing n ps with
  | nil =>
    simp only [Market.getHighestAgentsLoop, Except.ok.injEq, Option.some.injEq] at hps
    subst hps
    simpa using hn.symm
  | cons c cs ih =>
    subst hn
    rw [List.length_cons, List.replicate_succ] at hps
    unfold Market.getHighestAgentsLoop at hps
    split_ifs at hps with hsz
    · simp at hps
    cases hrec : Market.getHighestAgentsLoop cs (List.replicate cs.length 1) with
    | error e => rw [hrec] at hps; simp [bind, Except.bind] at hps
    | ok o =>
      rw [hrec] at hps
      cases o with
      | none => simp [bind, Except.bind] at hps
      | some qs =>
        simp only [bind, Except.bind, Except.ok.injEq, Option.some.injEq] at hps
        subst hps
        have h2 := ih rfl hrec
        unfold AgentCategory.size at hsz
        simp only [List.length_append, AgentCategory.highestAgentValues, List.length_take, List.length_cons]
        omega

theorem mcafee_float_eq {r : List ℕ} (hb : 4 * M * r.sum ≤ 2 ^ 53) (hM : 100000000 ≤ M) {m : Market} (hsz : Sizes m.categories r) (hm : SmallMarket M m.categories) (h : Bool) :
    mcafeeTradeReduction f m r h = (McAfee.mcafeeTradeReduction m r h).map (roundTrade f) ∧
    (BinaryNumber m.numCategories → ∀ t, McAfee.mcafeeTradeReduction m r h = .ok t → FloatPrices t) := by
  by_cases hl : r.length ≠ m.numCategories
  · unfold mcafeeTradeReduction McAfee.mcafeeTradeReduction
    rw [if_pos hl, if_pos hl]
    exact ⟨rfl, fun _ t h => by simp at h⟩
  have hl' := not_not.1 hl
  by_cases hany : r.any (fun r => r ≠ 1) = true
  · unfold mcafeeTradeReduction McAfee.mcafeeTradeReduction
    rw [if_neg hl, if_neg hl, if_pos hany, if_pos hany]
    exact ⟨rfl, fun _ t h => by simp at h⟩
  have hr : r = List.replicate m.numCategories 1 := by
    rw [← hl']
    exact McAfee.recipe_ones (by simpa using hany)
  obtain ⟨ho1, ho2⟩ := optimalTrade_eq' hf hb m hm 2000000 true
  by_cases hcat : m.categories = []
  · have he : m.optimalTrade r = .error .valueError := by
      unfold Market.optimalTrade Market.clone
      rw [if_neg hl, hcat]
      rfl
    unfold mcafeeTradeReduction McAfee.mcafeeTradeReduction
    rw [if_neg hl, if_neg hl, if_neg hany, if_neg hany, ho1, he]
    exact ⟨rfl, fun _ t h => by simp [bind, Except.bind] at h⟩
  have hsum : r.sum = m.numCategories := by rw [hr]; simp
  have hn0 : 0 < m.numCategories := List.length_pos_of_ne_nil hcat
  have hM1 : M ≤ M * r.sum := Nat.le_mul_of_pos_right M (by omega)
  have h4 : 4 * M * r.sum = 4 * (M * r.sum) := by ring
  have hM' : M ≤ 2 ^ 53 := by omega
  obtain ⟨k, d, p, -, hoptk, -, hres⟩ := McAfee.mcafee_eq hr hcat h
  have hexact : McAfee.mcafeeTradeReduction m r h = McAfee.mcafeeTradeReduction m r h := rfl
  conv_rhs at hexact => unfold McAfee.mcafeeTradeReduction
  unfold mcafeeTradeReduction
  rw [if_neg hl, if_neg hany] at hexact ⊢
  rw [ho1]
  cases hopt : m.optimalTrade r with
  | error e =>
    rw [hopt] at hexact
    rw [hexact]; exact ⟨rfl, fun _ t h => by simp [bind, Except.bind] at h⟩
  | ok x =>
    obtain ⟨opt, rem⟩ := x
    obtain ⟨h1, h2⟩ := ho2 opt rem hopt
    rw [hopt] at hexact
    simp only [bind, Except.bind] at hexact ⊢
    cases hh : (McAfee.padEmpty rem).getHighestAgents r with
    | error e =>
      rw [hh] at hexact
      rw [hexact]; exact ⟨rfl, fun _ t h => by simp [bind, Except.bind] at h⟩
    | ok fn =>
      rw [hh] at hexact
      dsimp only at hexact ⊢
      -- everything after the candidate price
      have tail : ∀ (a b : Py ℚ), (∀ c, b = .ok c → a = .ok (f c) ∧ (BinaryNumber m.numCategories → Double c) ∧ |c| ≤ 2 ^ 53 ∧ ∀ ps : List ℚ, (∀ v ∈ ps, Small M v) → McAfee.isPriceGoodForPs (f c) ps = McAfee.isPriceGoodForPs c ps) →
          (∀ e, b = .error e → a = .error e) →
          McAfee.mcafeeTradeReduction m r h = (b.bind fun c => match opt.procurementSets with
            | [] => TradeWithSinglePrice.init m.emptyAgentCategories r (some (List.replicate m.numCategories 0))
            | lastPositive :: others =>
              if h = true ∧ McAfee.isPriceGoodForPs c lastPositive = true then (McAfee.heuristicPrices c lastPositive m.numCategories).bind fun prices =>
                (McAfee.appendAll m.emptyAgentCategories (lastPositive :: others)).bind fun tr => TradeWithSinglePrice.init tr r (some prices)
              else (McAfee.appendAll m.emptyAgentCategories others).bind fun tr => TradeWithSinglePrice.init tr r (some lastPositive)) →
          (a.bind fun c => match opt.procurementSets with
            | [] => initTrade f m.emptyAgentCategories r (some (List.replicate m.numCategories 0))
            | lastPositive :: others =>
              if h = true ∧ McAfee.isPriceGoodForPs c lastPositive = true then (heuristicPrices f c lastPositive m.numCategories).bind fun prices =>
                (McAfee.appendAll m.emptyAgentCategories (lastPositive :: others)).bind fun tr => initTrade f tr r (some prices)
              else (McAfee.appendAll m.emptyAgentCategories others).bind fun tr => initTrade f tr r (some lastPositive)) =
          (McAfee.mcafeeTradeReduction m r h).map (roundTrade f) ∧
          (BinaryNumber m.numCategories → ∀ t, McAfee.mcafeeTradeReduction m r h = .ok t → FloatPrices t) := by
        intro a b hab habe heb
        cases b with
        | error e => rw [habe e rfl, heb]; exact ⟨rfl, fun _ t h => by simp [Except.bind] at h⟩
        | ok c =>
          obtain ⟨ha, hdc, hc, hgood⟩ := hab c rfl
          subst ha
          simp only [Except.bind] at heb ⊢
          have hfin : ∀ {cs : List AgentCategory} {ps : Option (List ℚ)}, McAfee.mcafeeTradeReduction m r h = TradeWithSinglePrice.init cs r ps →
              (BinaryNumber m.numCategories → ∀ l, ps = some l → ∀ q ∈ l, Double q) →
              initTrade f cs r (ps.map (List.map f)) = (McAfee.mcafeeTradeReduction m r h).map (roundTrade f) ∧
              (BinaryNumber m.numCategories → ∀ t, McAfee.mcafeeTradeReduction m r h = .ok t → FloatPrices t) := by
            intro cs ps he hd
            rw [he]
            exact ⟨initTrade_of_ok hf hsz (m := m) fun _ => ⟨_, _, _, he ▸ hres⟩, fun hbin t ht => init_floatPrices (hd hbin) ht⟩
          cases hps : opt.procurementSets with
          | nil =>
            rw [hps] at heb
            have := hfin heb (fun _ l hl q hq => by
              simp only [Option.some.injEq] at hl
              subst hl
              rw [List.eq_of_mem_replicate hq]
              exact (Small.zero (a := 0)).double (by omega))
            simp only [Option.map_some, List.map_replicate] at this
            rw [(Small.zero (a := 0)).fl hf (by omega)] at this
            exact this
          | cons last others =>
            rw [hps] at heb
            have hlast : ∀ v ∈ last, Small M v := (h1 last (by rw [hps]; simp)).1
            dsimp only at heb ⊢
            rw [hgood last hlast]
            split_ifs at heb ⊢
            · rw [heuristicPrices_eq hf hc]
              cases hp : McAfee.heuristicPrices c last m.numCategories with
              | error e => rw [hp] at heb; rw [heb]; exact ⟨rfl, fun _ t h => by simp at h⟩
              | ok prices =>
                rw [hp] at heb
                simp only [Except.map]
                cases hap : McAfee.appendAll m.emptyAgentCategories (last :: others) with
                | error e => rw [hap] at heb; rw [heb]; exact ⟨rfl, fun _ t h => by simp at h⟩
                | ok tr =>
                  rw [hap] at heb
                  exact hfin (ps := some prices) heb (fun hbin l hl => by
                    simp only [Option.some.injEq] at hl
                    subst hl
                    exact heuristicPrices_double (hdc hbin) hp)
            · cases hap : McAfee.appendAll m.emptyAgentCategories others with
              | error e => rw [hap] at heb; rw [heb]; exact ⟨rfl, fun _ t h => by simp at h⟩
              | ok tr =>
                rw [hap] at heb
                have := hfin (ps := some last) heb (fun _ l hl q hq => by
                  simp only [Option.some.injEq] at hl
                  subst hl
                  exact (hlast q hq).double hM')
                rw [Option.map_some, map_small hf hM' hlast] at this
                exact this
      have h0 := (Small.zero (a := 0)).fl hf (by omega)
      cases h with
      | false => exact tail (.ok 0) (.ok 0) (by
          intro c hc
          simp only [Except.ok.injEq] at hc
          subst hc
          refine ⟨by rw [h0], fun _ => (Small.zero (a := 0)).double (by omega), by norm_num, fun ps _ => by rw [h0]⟩) (by intro e he; simp at he) hexact
      | true =>
        refine tail (priceCandidate f fn) (McAfee.priceCandidate fn) ?_ ?_ hexact
        · intro c hc
          cases fn with
          | none => simp [McAfee.priceCandidate] at hc
          | some ps =>
            obtain ⟨h5, h6⟩ := highest_small (padEmpty_small hM h2) hh
            obtain ⟨h7, h8⟩ := flSum_eq hf (l := ps.map (fun x => |x|)) (B := M) (by
              intro q hq
              obtain ⟨x, hx, rfl⟩ := List.mem_map.1 hq
              exact (h5 x hx).abs) (by
              have : M * ps.length ≤ M * r.sum := Nat.mul_le_mul_left M h6
              simp only [List.length_map]
              omega)
            rw [List.length_map] at h8
            simp only [McAfee.priceCandidate, priceCandidate, pyDiv, flDiv] at hc ⊢
            split_ifs at hc ⊢ with hlen
            · simp only [Except.ok.injEq] at hc
              have hpos : 0 < ps.length := by
                rcases Nat.eq_zero_or_pos ps.length with h' | h'
                · simp [h'] at hlen
                · exact h'
              have hposq : (0 : ℚ) < ps.length := by exact_mod_cast hpos
              subst hc
              rw [h7]
              refine ⟨rfl, fun hbin => ?_, ?_, fun qs hqs => ?_⟩
              · rw [hoptk] at hopt
                simp only [Except.ok.injEq, Prod.mk.injEq] at hopt
                have hlen' : ps.length = m.numCategories := by
                  refine highest_length (cs := (McAfee.padEmpty rem).categories) ?_ (by rw [← hr]; exact hh)
                  rw [McAfee.padEmpty_length, ← hopt.2, dropBlocks_length (by rw [m.sorted_length]; exact hl'), m.sorted_length]
                have : M * ps.length ≤ M * r.sum := Nat.mul_le_mul_left M h6
                have h12 : ps.length ≤ M * ps.length := Nat.le_mul_of_pos_left _ (by omega)
                exact h8.quotient (by omega) (hlen' ▸ hbin) (by omega) (by omega)
              · rw [abs_div, abs_of_pos hposq, div_le_iff₀ hposq]
                have h9 := h8.abs_le
                push_cast at h9
                refine h9.trans (mul_le_mul_of_nonneg_right ?_ hposq.le)
                exact_mod_cast hM'
              · refine good_eq hf hpos h8 ?_ (by omega) hqs
                exact (Nat.mul_le_mul_left _ h6).trans hb
        · intro e he
          cases fn with
          | none => exact he
          | some ps =>
            simp only [McAfee.priceCandidate, priceCandidate, pyDiv, flDiv] at he ⊢
            split_ifs at he ⊢
            exact he

end

end Auctions.Floating
