import Verif.Proofs.Floating
import Verif.Proofs.TradeReduction
import Verif.Proofs.McAfee

set_option autoImplicit false

/-! # Trade reduction and McAfee's protocol with rounded arithmetic -/

namespace Auctions.Floating

open Auctions.Spec

/-- Folding with a step that commutes with a change of the state. -/
theorem foldlM_map {α β : Type} {g : β → β} {Inv : β → Prop} {F G : β → α → Py β} {l : List α}
    (h : ∀ a ∈ l, ∀ s, Inv s → G (g s) a = (F s a).map g ∧ ∀ s', F s a = .ok s' → Inv s') {s : β} (hs : Inv s) :
    l.foldlM G (g s) = (l.foldlM F s).map g ∧ ∀ s', l.foldlM F s = .ok s' → Inv s' := by
  induction l generalizing s with
  | nil =>
    refine ⟨rfl, fun s' h' => ?_⟩
    simp only [List.foldlM_nil, pure, Except.pure, Except.ok.injEq] at h'
    rw [← h']; exact hs
  | cons a l ih =>
    obtain ⟨h1, h2⟩ := h a (by simp) s hs
    rw [List.foldlM_cons, List.foldlM_cons, h1]
    cases hF : F s a with
    | error e => exact ⟨rfl, fun s' h' => by simp [bind, Except.bind] at h'⟩
    | ok s1 => exact ih (fun b hb => h b (by simp [hb])) (h2 s1 hF)

theorem weightedSum_zipWith {x : List ℚ} {r : List ℕ} :
    Market.weightedSum x r = if x.length ≤ r.length then .ok (List.zipWith (fun (q : ℚ) (n : ℕ) => q * n) x r).sum else .error .indexError := by
  induction x generalizing r with
  | nil => simp [Market.weightedSum]
  | cons q x ih =>
    cases r with
    | nil => simp [Market.weightedSum]
    | cons n r =>
      unfold Market.weightedSum
      rw [ih]
      simp only [List.length_cons, Nat.add_le_add_iff_right]
      split_ifs
      · simp [bind, Except.bind]
      · rfl

theorem products_eq {f : ℚ → ℚ} {x : List ℚ} {r : List ℕ} :
    products f x r = if x.length ≤ r.length then .ok (List.zipWith (fun (q : ℚ) (n : ℕ) => f (q * n)) x r) else .error .indexError := by
  induction x generalizing r with
  | nil => simp [products]
  | cons q x ih =>
    cases r with
    | nil => simp [products]
    | cons n r =>
      unfold products
      rw [ih]
      simp only [List.length_cons, Nat.add_le_add_iff_right]
      split_ifs
      · simp [bind, Except.bind]
      · rfl

section
variable {f : ℚ → ℚ} (hf : Rounding f) {M : ℕ} {r : List ℕ} (hb : 4 * M * r.sum ≤ 2 ^ 53)
include hf hb

theorem weightedSum_eq {x : List ℚ} (h : ∀ q ∈ x, Small M q) :
    weightedSum f x r = Market.weightedSum x r ∧ ∀ s, Market.weightedSum x r = .ok s → Small (M * r.sum) s := by
  have h4 : 4 * M * r.sum = 4 * (M * r.sum) := by ring
  obtain ⟨h1, h2⟩ := flDot_eq hf h (r := r) (by omega)
  unfold weightedSum
  rw [products_eq, weightedSum_zipWith]
  split_ifs
  · simp only [bind, Except.bind]
    rw [← dot_zipWith]
    refine ⟨?_, fun s hs => ?_⟩
    · rw [← h1]; rfl
    · simp only [Except.ok.injEq] at hs
      rw [← hs]; exact h2
  · exact ⟨rfl, fun s hs => by simp at hs⟩

omit hf hb in
theorem pyGet_mem {α : Type} {l : List α} {i : ℕ} {x : α} (h : pyGet l i = .ok x) : x ∈ l := by
  unfold pyGet at h
  split at h
  · rename_i y hy
    simp only [Except.ok.injEq] at h
    rw [← h]
    exact List.mem_of_getElem? hy
  · simp at h

theorem pricesLoop_eq {c : ℕ} {v : ℚ} (hM : M ≤ 2 ^ 53) (hv : Small M v) {best : List ℚ} (h : ∀ q ∈ best, Small M q) (n i : ℕ) :
    pricesLoop f c v best r i n = (Market.pricesLoop c v best r i n).map (List.map f) := by
  have h4 : 4 * M * r.sum = 4 * (M * r.sum) := by ring
  induction n generalizing i with
  | zero => rfl
  | succ n ih =>
    obtain ⟨h1, h2⟩ := weightedSum_eq hf hb h
    have key : (if i = c then do
          let ri ← pyGet r i
          let s ← weightedSum f best r
          flDiv f (f (f (v * ri) - s)) ri
        else pyGet best i) = (if i = c then do
          let ri ← pyGet r i
          let s ← Market.weightedSum best r
          pyDiv (v * ri - s) ri
        else pyGet best i).map f := by
      split_ifs
      · rw [h1]
        cases hg : pyGet r i with
        | error e => rfl
        | ok ri =>
          have hri : M * ri ≤ M * r.sum := Nat.mul_le_mul_left M (List.le_sum_of_mem (pyGet_mem hg))
          simp only [bind, Except.bind]
          cases hs : Market.weightedSum best r with
          | error e => rfl
          | ok s =>
            have h5 := h2 s hs
            dsimp only
            rw [(hv.mulNat ri).fl hf (by omega), ((hv.mulNat ri).sub h5).fl hf (by omega)]
            unfold flDiv pyDiv
            split_ifs <;> rfl
      · cases hg : pyGet best i with
        | error e => rfl
        | ok x =>
          simp only [Except.map]
          rw [(h x (pyGet_mem hg)).fl hf hM]
    have key2 : ∀ (a b : Py ℚ), a = b.map f → (do let x ← a; let rest ← pricesLoop f c v best r (i + 1) n; (.ok (x :: rest) : Py (List ℚ)))
        = (do let x ← b; let rest ← Market.pricesLoop c v best r (i + 1) n; (.ok (x :: rest) : Py (List ℚ))).map (List.map f) := by
      intro a b hab
      rw [hab, ih]
      cases b with
      | error e => rfl
      | ok x => cases Market.pricesLoop c v best r (i + 1) n <;> rfl
    have h6 := key2 _ _ key
    unfold pricesLoop Market.pricesLoop
    by_cases hic : i = c
    · simp only [if_pos hic, bind_assoc] at h6 ⊢
      exact h6
    · simp only [if_neg hic] at h6 ⊢
      exact h6

omit hf in
theorem pricesLoop_double {c : ℕ} {v : ℚ} (hM0 : 0 < M) (hM : M ≤ 2 ^ 53) (hv : Small M v) {best : List ℚ} (h : ∀ q ∈ best, Small M q) (hws : ∀ s, Market.weightedSum best r = .ok s → Small (M * r.sum) s)
    (hbin : ∀ n ∈ r, BinaryNumber n) (n i : ℕ) {l : List ℚ} (hl : Market.pricesLoop c v best r i n = .ok l) : ∀ q ∈ l, Double q := by
  have h4 : 4 * M * r.sum = 4 * (M * r.sum) := by ring
  induction n generalizing i l with
  | zero =>
    simp only [Market.pricesLoop, Except.ok.injEq] at hl
    subst hl
    simp
  | succ n ih =>
    have key : ∀ x, (if i = c then do
          let ri ← pyGet r i
          let s ← Market.weightedSum best r
          pyDiv (v * ri - s) ri
        else pyGet best i) = .ok x → Double x := by
      intro x hx
      split_ifs at hx
      · cases hg : pyGet r i with
        | error e => rw [hg] at hx; simp [bind, Except.bind] at hx
        | ok ri =>
          have hri' := List.le_sum_of_mem (pyGet_mem hg)
          have hri : M * ri ≤ M * r.sum := Nat.mul_le_mul_left M hri'
          have hri2 : ri ≤ M * ri := Nat.le_mul_of_pos_left ri hM0
          rw [hg] at hx
          cases hs : Market.weightedSum best r with
          | error e => rw [hs] at hx; simp [bind, Except.bind] at hx
          | ok s =>
            rw [hs] at hx
            simp only [bind, Except.bind] at hx
            unfold pyDiv at hx
            split_ifs at hx with h0
            simp only [Except.ok.injEq] at hx
            subst hx
            exact ((hv.mulNat ri).sub (hws s hs)).quotient (by omega) (hbin ri (pyGet_mem hg)) (by exact_mod_cast h0) (by omega)
      · exact (h x (pyGet_mem hx)).double hM
    have key2 : ∀ (b : Py ℚ), (∀ x, b = .ok x → Double x) → ∀ l, (do let x ← b; let rest ← Market.pricesLoop c v best r (i + 1) n; (.ok (x :: rest) : Py (List ℚ))) = .ok l → ∀ q ∈ l, Double q := by
      intro b hb' l hl
      cases b with
      | error e => simp [bind, Except.bind] at hl
      | ok x =>
        cases hp : Market.pricesLoop c v best r (i + 1) n with
        | error e => rw [hp] at hl; simp [bind, Except.bind] at hl
        | ok rest =>
          rw [hp] at hl
          simp only [bind, Except.bind, Except.ok.injEq] at hl
          subst hl
          intro q hq
          rcases List.mem_cons.1 hq with rfl | hq
          · exact hb' _ rfl
          · exact ih (i + 1) hp q hq
    have h6 := key2 _ key l
    unfold Market.pricesLoop at hl
    by_cases hic : i = c
    · simp only [if_pos hic, bind_assoc] at h6 hl
      exact h6 hl
    · simp only [if_neg hic] at h6 hl
      exact h6 hl

omit hf hb in
theorem best_small {c : ℕ} {v : ℚ} (hv : Small M v) {cs : List AgentCategory} (h : SmallMarket M cs) {i : ℕ} {best : List ℚ}
    (hbest : Market.bestContainingPSLoop c v i cs = .ok best) : ∀ q ∈ best, Small M q := by
  induction cs generalizing i best with
  | nil =>
    simp only [Market.bestContainingPSLoop, Except.ok.injEq] at hbest
    subst hbest
    simp
  | cons d cs ih =>
    have hstep : ∃ x rest, Small M x ∧ Market.bestContainingPSLoop c v (i + 1) cs = .ok rest ∧ best = x :: rest := by
      unfold Market.bestContainingPSLoop at hbest
      by_cases hic : i = c
      · simp only [if_pos hic, bind, Except.bind] at hbest
        cases hrec : Market.bestContainingPSLoop c v (i + 1) cs with
        | error e => rw [hrec] at hbest; simp at hbest
        | ok rest =>
          rw [hrec] at hbest
          simp only [Except.ok.injEq] at hbest
          exact ⟨v, rest, hv, rfl, hbest.symm⟩
      · simp only [if_neg hic, bind, Except.bind] at hbest
        cases hx : d.highestAgentValue with
        | error e => rw [hx] at hbest; simp at hbest
        | ok x =>
          rw [hx] at hbest
          cases hrec : Market.bestContainingPSLoop c v (i + 1) cs with
          | error e => rw [hrec] at hbest; simp at hbest
          | ok rest =>
            rw [hrec] at hbest
            simp only [Except.ok.injEq] at hbest
            refine ⟨x, rest, ?_, rfl, hbest.symm⟩
            unfold AgentCategory.highestAgentValue at hx
            split at hx
            · simp at hx
            · rename_i w ws hw
              simp only [Except.ok.injEq] at hx
              subst hx
              exact h d (by simp) _ (by rw [hw]; simp)
    obtain ⟨x, rest, hx, hrec, rfl⟩ := hstep
    intro q hq
    rcases List.mem_cons.1 hq with rfl | hq
    · exact hx
    · exact ih (fun d hd => h d (by simp [hd])) hrec q hq

/-- The prices that the state keeps are floats, when the recipe consists of powers of two. -/
def FloatState (r : List ℕ) (s : TradeReduction.State) : Prop := (∀ n ∈ r, BinaryNumber n) → ∀ l, s.latestPrices = some l → ∀ q ∈ l, Double q

/-- A state with rounded prices. -/
def roundState (f : ℚ → ℚ) (s : TradeReduction.State) : TradeReduction.State := { s with latestPrices := s.latestPrices.map (List.map f) }

omit hf hb in
theorem appendTrader_small {m m' : Market} (hm : SmallMarket M m.categories) {i : ℕ} {v : ℚ} (hv : Small M v) (h : m.appendTrader i v = .ok m') : SmallMarket M m'.categories := by
  unfold Market.appendTrader at h
  split at h
  · simp at h
  · rename_i c hc
    simp only [Except.ok.injEq] at h
    subst h
    intro d hd w hw
    rcases List.mem_or_eq_of_mem_set hd with h' | h'
    · exact hm d h' w hw
    · rw [h'] at hw
      unfold AgentCategory.append sortDesc at hw
      rw [List.mem_insertionSort, List.mem_append, List.mem_singleton] at hw
      rcases hw with hw | rfl
      · exact hm c (List.mem_of_getElem? hc) w hw
      · exact hv

theorem competeStep_eq (hM0 : 0 < M) (hM : M ≤ 2 ^ 53) (market : Market) (toCategory : List ℕ) (z : Bool) {ps : List ℚ} (hps : ∀ v ∈ ps, Small M v) (pivot : ℕ)
    {s : TradeReduction.State} (hs : SmallMarket M s.remaining.categories ∧ FloatState r s) :
    competeStep f market r toCategory z ps (roundState f s) pivot = (TradeReduction.competeStep market r toCategory z ps s pivot).map (roundState f) ∧
    ∀ s', TradeReduction.competeStep market r toCategory z ps s pivot = .ok s' → SmallMarket M s'.remaining.categories ∧ FloatState r s' := by
  unfold competeStep TradeReduction.competeStep
  cases hv : pyGet ps pivot with
  | error e => exact ⟨rfl, fun s' h => by simp [bind, Except.bind] at h⟩
  | ok v =>
    have hvs := hps v (pyGet_mem hv)
    simp only [bind, Except.bind]
    rw [show (roundState f s).foundExternal = s.foundExternal from rfl, show (roundState f s).actualTraders = s.actualTraders from rfl,
      show (roundState f s).remaining = s.remaining from rfl]
    split_ifs with hfe
    · cases TradeReduction.appendTrader s.actualTraders toCategory pivot v with
      | error e => exact ⟨rfl, fun s' h => by simp at h⟩
      | ok tr =>
        refine ⟨rfl, fun s' h => ?_⟩
        simp only [Except.ok.injEq] at h
        rw [← h]; exact hs
    · cases pyGet market.categories (TradeReduction.convertCategoryIndex r pivot) with
      | error e => exact ⟨rfl, fun s' h => by simp at h⟩
      | ok _ =>
        dsimp only
        cases hbest : s.remaining.bestContainingPS (TradeReduction.convertCategoryIndex r pivot) v with
        | error e => exact ⟨rfl, fun s' h => by simp at h⟩
        | ok best =>
          have hbs := best_small hvs hs.1 hbest
          dsimp only
          rw [(weightedSum_eq hf hb hbs).1]
          cases Market.weightedSum best r with
          | error e => exact ⟨rfl, fun s' h => by simp at h⟩
          | ok g =>
            dsimp only
            split_ifs
            · rw [pricesLoop_eq hf hb hM hvs hbs]
              unfold Market.calculatePricesByExternalCompetition
              cases hpl : Market.pricesLoop (TradeReduction.convertCategoryIndex r pivot) v best r 0 market.numCategories with
              | error e => exact ⟨rfl, fun s' h => by simp at h⟩
              | ok p =>
                simp only [Except.map]
                cases TradeReduction.appendTrader s.actualTraders toCategory pivot v with
                | error e => exact ⟨rfl, fun s' h => by simp at h⟩
                | ok tr =>
                  refine ⟨rfl, fun s' h => ?_⟩
                  simp only [Except.ok.injEq] at h
                  rw [← h]
                  refine ⟨hs.1, fun hbin l hl => ?_⟩
                  simp only [Option.some.injEq] at hl
                  subst hl
                  exact pricesLoop_double hb hM0 hM hvs hbs (weightedSum_eq hf hb hbs).2 hbin _ _ hpl
            · cases ha : s.remaining.appendTrader (TradeReduction.convertCategoryIndex r pivot) v with
              | error e => exact ⟨rfl, fun s' h => by simp at h⟩
              | ok m' =>
                refine ⟨rfl, fun s' h => ?_⟩
                simp only [Except.ok.injEq] at h
                rw [← h]
                exact ⟨appendTrader_small hs.1 hvs ha, hs.2⟩

omit hf hb in
theorem tradeStep_eq (toCategory : List ℕ) {ps : List ℚ} (pivot : ℕ) {s : TradeReduction.State} (hs : SmallMarket M s.remaining.categories ∧ FloatState r s) :
    TradeReduction.tradeStep toCategory ps (roundState f s) pivot = (TradeReduction.tradeStep toCategory ps s pivot).map (roundState f) ∧
    ∀ s', TradeReduction.tradeStep toCategory ps s pivot = .ok s' → SmallMarket M s'.remaining.categories ∧ FloatState r s' := by
  unfold TradeReduction.tradeStep
  cases pyGet ps pivot with
  | error e => exact ⟨rfl, fun s' h => by simp [bind, Except.bind] at h⟩
  | ok v =>
    simp only [bind, Except.bind]
    rw [show (roundState f s).actualTraders = s.actualTraders from rfl]
    cases TradeReduction.appendTrader s.actualTraders toCategory pivot v with
    | error e => exact ⟨rfl, fun s' h => by simp at h⟩
    | ok tr =>
      refine ⟨rfl, fun s' h => ?_⟩
      simp only [Except.ok.injEq] at h
      rw [← h]; exact hs

theorem psStep_eq (hM0 : 0 < M) (hM : M ≤ 2 ^ 53) (market : Market) (pivots toCategory : List ℕ) (z : Bool) {ps : List ℚ} (hps : ∀ v ∈ ps, Small M v)
    {s : TradeReduction.State} (hs : SmallMarket M s.remaining.categories ∧ FloatState r s) :
    psStep f market r pivots toCategory z (roundState f s) ps = (TradeReduction.psStep market r pivots toCategory z s ps).map (roundState f) ∧
    ∀ s', TradeReduction.psStep market r pivots toCategory z s ps = .ok s' → SmallMarket M s'.remaining.categories ∧ FloatState r s' := by
  unfold psStep TradeReduction.psStep
  cases hp : s.latestPrices with
  | none =>
    rw [show (roundState f s).latestPrices = none by simp [roundState, hp]]
    exact foldlM_map (Inv := fun s : TradeReduction.State => SmallMarket M s.remaining.categories ∧ FloatState r s) (fun pivot _ s hs => competeStep_eq hf hb hM0 hM market toCategory z hps pivot hs) hs
  | some p =>
    rw [show (roundState f s).latestPrices = some (p.map f) by simp [roundState, hp]]
    exact foldlM_map (Inv := fun s : TradeReduction.State => SmallMarket M s.remaining.categories ∧ FloatState r s) (fun pivot _ s hs => tradeStep_eq toCategory pivot hs) hs

omit hf hb in
theorem padEmpty_small (hM : 100000000 ≤ M) {m : Market} (h : SmallMarket M m.categories) : SmallMarket M (McAfee.padEmpty m).categories := by
  intro c hc v hv
  obtain ⟨d, hd, rfl⟩ := List.mem_map.1 hc
  split_ifs at hv
  · unfold AgentCategory.append sortDesc at hv
    rw [List.mem_insertionSort, List.mem_append, List.mem_singleton] at hv
    rcases hv with hv | rfl
    · exact h d hd v hv
    · refine ⟨-100000000, by simp [MAX_VALUE], ?_⟩
      simp only [abs_neg]
      exact_mod_cast hM
  · exact h d hd v hv

omit hf hb in
theorem sizes_mkMarket {m : Market} (h : Sizes m.categories r) (a : ℕ → ℕ) : Sizes (Ascending.mkMarket m.sorted a).categories r := by
  intro c hc n hn
  unfold Ascending.mkMarket at hc
  rw [List.mapIdx_eq_zipIdx_map, List.mem_map] at hc
  obtain ⟨x, hx, rfl⟩ := hc
  have h1 : x.1 ∈ m.sorted := by
    have h2 : x.1 ∈ (m.sorted.zipIdx).map Prod.fst := List.mem_map_of_mem hx
    rwa [List.zipIdx_map_fst] at h2
  obtain ⟨d, hd, hdx⟩ := List.mem_map.1 h1
  have h2 := h d hd n hn
  have h3 : x.1.values.length = d.values.length := by
    rw [← hdx]; simp [AgentCategory.clone, AgentCategory.init, sortDesc]
  refine le_trans (Nat.mul_le_mul_right _ ?_) h2
  simp only [List.length_take]
  omega

omit hb in
/-- The last step: the categories of the resulting trade are those of the exact result. -/
theorem initTrade_of_ok {m : Market} (hsz : Sizes m.categories r) {cs : List AgentCategory} {ps : Option (List ℚ)}
    (h : (∃ x ∈ r, 0 < x) → ∃ a q d, TradeWithSinglePrice.init cs r ps = .ok ⟨(Ascending.mkMarket m.sorted a).categories, r, q, d⟩) :
    initTrade f cs r (ps.map (List.map f)) = (TradeWithSinglePrice.init cs r ps).map (roundTrade f) := by
  by_cases hpos : ∃ x ∈ r, 0 < x
  · obtain ⟨a, q, d, he⟩ := h hpos
    have hcs : cs = (Ascending.mkMarket m.sorted a).categories := by
      unfold TradeWithSinglePrice.init at he
      cases hn : pyMinNat (TradeWithSinglePrice.potentialDeals cs r) with
      | error e => rw [hn] at he; simp [bind, Except.bind] at he
      | ok n =>
        rw [hn] at he
        simp only [bind, Except.bind, Except.ok.injEq, TradeWithSinglePrice.mk.injEq] at he
        exact he.1
    exact initTrade_eq hf (hcs ▸ sizes_mkMarket hsz a) ps
  · have hz : ∀ (r : List ℕ) (cs : List AgentCategory), (¬ ∃ x ∈ r, 0 < x) → potentialDeals f cs r = [] ∧ TradeWithSinglePrice.potentialDeals cs r = [] := by
      intro r
      induction r with
      | nil => intro cs _; cases cs <;> exact ⟨rfl, rfl⟩
      | cons n r ih =>
        intro cs hr
        cases cs with
        | nil => exact ⟨rfl, rfl⟩
        | cons c cs =>
          have hn : ¬ n > 0 := fun hn => hr ⟨n, by simp, hn⟩
          unfold potentialDeals TradeWithSinglePrice.potentialDeals
          rw [if_neg hn, if_neg hn]
          exact ih cs fun ⟨x, hx, h0⟩ => hr ⟨x, by simp [hx], h0⟩
    obtain ⟨h1, h2⟩ := hz r cs hpos
    unfold initTrade TradeWithSinglePrice.init
    rw [h1, h2]
    rfl

theorem tradeReduction_eq (hM : 100000000 ≤ M) (hM' : M ≤ 2 ^ 53) {m : Market} (hsz : Sizes m.categories r) (hm : SmallMarket M m.categories) (z : Bool) :
    tradeReduction f m r z = (TradeReduction.tradeReduction m r z).map (roundTrade f) ∧
    ((∀ n ∈ r, BinaryNumber n) → ∀ t, TradeReduction.tradeReduction m r z = .ok t → FloatPrices t) := by
  by_cases hl : r.length ≠ m.numCategories
  · unfold tradeReduction TradeReduction.tradeReduction
    rw [if_pos hl, if_pos hl]
    exact ⟨rfl, fun _ t h => by simp at h⟩
  have hl' := not_not.1 hl
  obtain ⟨ho1, ho2⟩ := optimalTrade_eq' hf hb m hm 2000000 true
  by_cases hcat : m.categories = []
  · have he : m.optimalTrade r = .error .valueError := by
      unfold Market.optimalTrade Market.clone
      rw [if_neg hl, hcat]
      rfl
    unfold tradeReduction TradeReduction.tradeReduction
    rw [if_neg hl, if_neg hl, ho1, he]
    exact ⟨rfl, fun _ t h => by simp [bind, Except.bind] at h⟩
  -- the exact result
  have hex : (∃ x ∈ r, 0 < x) → ∃ a q d, TradeReduction.tradeReduction m r z = .ok ⟨(Ascending.mkMarket m.sorted a).categories, r, q, d⟩ := by
    intro hpos
    obtain ⟨k, -, -, hres⟩ := TradeReduction.tr_eq hl' hcat hpos z (Q := fun _ _ => True) (fun _ => trivial) (fun _ _ _ _ _ _ _ _ => trivial)
    rcases hres with ⟨-, he⟩ | ⟨-, K, -, -, -, ⟨-, he⟩ | ⟨a, b, d, -, ⟨p, -, he⟩, -, -⟩⟩
    · exact ⟨_, _, _, he⟩
    · exact ⟨_, _, _, he⟩
    · exact ⟨_, _, _, he⟩
  have hexact : TradeReduction.tradeReduction m r z = TradeReduction.tradeReduction m r z := rfl
  conv_rhs at hexact => unfold TradeReduction.tradeReduction
  unfold tradeReduction
  rw [if_neg hl] at hexact ⊢
  rw [ho1]
  cases hopt : m.optimalTrade r with
  | error e =>
    rw [hopt] at hexact
    rw [hexact]; exact ⟨rfl, fun _ t h => by simp [bind, Except.bind] at h⟩
  | ok x =>
    obtain ⟨opt, rem⟩ := x
    obtain ⟨h1, h2⟩ := ho2 opt rem hopt
    rw [hopt] at hexact
    simp only [bind, Except.bind] at hexact ⊢
    by_cases h0 : opt.procurementSets.length = 0
    · rw [if_pos h0] at hexact ⊢
      rw [hexact] at hex ⊢
      have := initTrade_of_ok hf hsz (ps := some (List.replicate r.length 0)) hex
      rw [← this]
      simp only [Option.map_some, List.map_replicate]
      rw [(Small.zero (a := 0)).fl hf (by omega)]
      refine ⟨rfl, fun _ t ht => init_floatPrices (fun l hl q hq => ?_) ht⟩
      simp only [Option.some.injEq] at hl
      subst hl
      rw [List.eq_of_mem_replicate hq]
      exact (Small.zero (a := 0)).double (by omega)
    · rw [if_neg h0] at hexact ⊢
      cases hh : rem.getHighestAgents r with
      | error e =>
        rw [hh] at hexact
        rw [hexact]; exact ⟨rfl, fun _ t h => by simp [bind, Except.bind] at h⟩
      | ok o =>
        rw [hh] at hexact
        dsimp only at hexact ⊢
        -- the procurement-sets and the remaining market
        have key : ∀ (a : Py (List (List ℚ) × Market)), (∀ l rem', a = .ok (l, rem') → (∀ ps ∈ l, ∀ v ∈ ps, Small M v) ∧ SmallMarket M rem'.categories) →
            TradeReduction.tradeReduction m r z = (a.bind fun x => (x.1.foldlM (TradeReduction.psStep m r (TradeReduction.pivotIndexes 0 r) (TradeReduction.pivotIndexToCategoryIndex 0 r) z)
              ⟨McAfee.padEmpty x.2, m.emptyAgentCategories, none, false⟩).bind fun s => TradeWithSinglePrice.init s.actualTraders r s.latestPrices) →
            (a.bind fun x => (x.1.foldlM (psStep f m r (TradeReduction.pivotIndexes 0 r) (TradeReduction.pivotIndexToCategoryIndex 0 r) z)
              ⟨McAfee.padEmpty x.2, m.emptyAgentCategories, none, false⟩).bind fun s => initTrade f s.actualTraders r s.latestPrices) =
            (TradeReduction.tradeReduction m r z).map (roundTrade f) ∧
            ((∀ n ∈ r, BinaryNumber n) → ∀ t, TradeReduction.tradeReduction m r z = .ok t → FloatPrices t) := by
          intro a ha hea
          cases a with
          | error e => rw [hea]; exact ⟨rfl, fun _ t h => by simp [Except.bind] at h⟩
          | ok x =>
            obtain ⟨l, rem'⟩ := x
            obtain ⟨h3, h4⟩ := ha l rem' rfl
            simp only [Except.bind] at hea ⊢
            obtain ⟨h5, h5'⟩ := foldlM_map (g := roundState f) (Inv := fun s : TradeReduction.State => SmallMarket M s.remaining.categories ∧ FloatState r s)
              (F := TradeReduction.psStep m r (TradeReduction.pivotIndexes 0 r) (TradeReduction.pivotIndexToCategoryIndex 0 r) z)
              (G := psStep f m r (TradeReduction.pivotIndexes 0 r) (TradeReduction.pivotIndexToCategoryIndex 0 r) z) (l := l)
              (fun ps hps s hs => psStep_eq hf hb (by omega) hM' m _ _ z (h3 ps hps) hs) (s := ⟨McAfee.padEmpty rem', m.emptyAgentCategories, none, false⟩)
              ⟨padEmpty_small hM h4, fun _ l hl => by simp at hl⟩
            rw [show (⟨McAfee.padEmpty rem', m.emptyAgentCategories, none, false⟩ : TradeReduction.State) = roundState f ⟨McAfee.padEmpty rem', m.emptyAgentCategories, none, false⟩ from rfl, h5]
            cases hfold : l.foldlM (TradeReduction.psStep m r (TradeReduction.pivotIndexes 0 r) (TradeReduction.pivotIndexToCategoryIndex 0 r) z)
              ⟨McAfee.padEmpty rem', m.emptyAgentCategories, none, false⟩ with
            | error e => rw [hea, hfold]; exact ⟨rfl, fun _ t h => by simp at h⟩
            | ok s =>
              rw [hfold] at hea
              dsimp only at hea
              rw [hea] at hex ⊢
              exact ⟨initTrade_of_ok hf hsz hex, fun hbin t ht => init_floatPrices ((h5' s hfold).2 hbin) ht⟩
        have hsmall : ∀ ps ∈ opt.procurementSets, ∀ v ∈ ps, Small M v := fun ps hps => (h1 ps hps).1
        cases o with
        | none => exact key (.ok (opt.procurementSets, rem)) (fun l rem' he => by
            simp only [Except.ok.injEq, Prod.mk.injEq] at he
            obtain ⟨rfl, rfl⟩ := he
            exact ⟨hsmall, h2⟩) hexact
        | some ps =>
          cases ps with
          | nil => exact key (.ok (opt.procurementSets, rem)) (fun l rem' he => by
              simp only [Except.ok.injEq, Prod.mk.injEq] at he
              obtain ⟨rfl, rfl⟩ := he
              exact ⟨hsmall, h2⟩) hexact
          | cons v vs =>
            have h6 := (highest_small h2 hh).1
            cases hrem : rem.removeHighestAgents r with
            | error e =>
              rw [hrem] at hexact
              exact key (.error e) (fun l rem' he => by simp at he) hexact
            | ok rem1 =>
              rw [hrem] at hexact
              exact key (.ok ((v :: vs) :: opt.procurementSets, rem1)) (fun l rem' he => by
                simp only [Except.ok.injEq, Prod.mk.injEq] at he
                obtain ⟨rfl, rfl⟩ := he
                refine ⟨fun ps hps => ?_, removeHighestAgents_small h2 hrem⟩
                rcases List.mem_cons.1 hps with rfl | hps
                · exact h6
                · exact hsmall ps hps) hexact

end

end Auctions.Floating
