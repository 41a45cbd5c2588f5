import Verif.Proofs.Heap
import Verif.Proofs.TradeReduction

set_option autoImplicit false

/-!
# The protocols with objects end like the protocols without objects
-/

namespace Auctions.Heap

open Auctions

theorem Runs.read {α γ δ : Type} {base h : Heap} {x : HPy α} {p : Py α} {f : α → HPy γ} {g : α → Py δ}
    {Q' : γ → δ → Heap → Prop} (he : Ext base h) (hx : x h = (p, h)) (hf : ∀ a, p = .ok a → Runs base (f a h) (g a) Q') :
    Runs base ((x >>= f) h) (p >>= g) Q' := by
  show Runs base (match x h with
    | (.ok a, h') => f a h'
    | (.error e, h') => (.error e, h')) (p >>= g) Q'
  rw [hx]
  cases p with
  | error e => exact ⟨he, rfl⟩
  | ok a => exact hf a rfl

/-- Reading: the program with objects computes the same value and leaves the heap alone. -/
theorem read_bind {α β : Type} {h : Heap} {x : HPy α} {p : Py α} {f : α → HPy β} {g : α → Py β} (hx : x h = (p, h))
    (hf : ∀ a, p = .ok a → f a h = (g a, h)) : (x >>= f) h = (p >>= g, h) := by
  show (match x h with
    | (.ok a, h') => f a h'
    | (.error e, h') => (.error e, h')) = _
  rw [hx]
  cases p with
  | error e => rfl
  | ok a => exact hf a rfl

theorem bind_assoc' {α β γ : Type} (x : HPy α) (f : α → HPy β) (g : β → HPy γ) : (x >>= f >>= g) = (x >>= fun a => f a >>= g) := by
  funext h
  show (match (match x h with
      | (.ok a, h') => f a h'
      | (.error e, h') => (.error e, h')) with
    | (.ok a, h') => g a h'
    | (.error e, h') => (.error e, h')) = (match x h with
      | (.ok a, h') => (f a >>= g) h'
      | (.error e, h') => (.error e, h'))
  generalize x h = y
  obtain ⟨y1, y2⟩ := y
  cases y1 <;> rfl

theorem lift_run {α : Type} {p : Py α} {h : Heap} : lift p h = (p, h) := rfl

theorem pure_run {α : Type} {a : α} {h : Heap} : (pure a : HPy α) h = (.ok a, h) := rfl

theorem lowestAgentValue_ok {h : Heap} {r : ℕ} {c : AgentCategory} (hc : category h r = some c) :
    lowestAgentValue r h = (c.lowestAgentValue, h) := by
  rw [lowestAgentValue, bind_ok (values_ok hc), AgentCategory.lowestAgentValue]
  cases hv : c.values.getLast? <;> rfl

theorem highestAgentValue_ok {h : Heap} {r : ℕ} {c : AgentCategory} (hc : category h r = some c) :
    highestAgentValue r h = (c.highestAgentValue, h) := by
  rw [highestAgentValue, bind_ok (values_ok hc), AgentCategory.highestAgentValue]
  cases hv : c.values <;> rfl

theorem getHighestAgents_ok {h : Heap} : ∀ {refs : List ℕ} {cs : List AgentCategory} (psRecipe : List ℕ), Shows h refs cs →
    getHighestAgents refs psRecipe h = (Market.getHighestAgentsLoop cs psRecipe, h) := by
  intro refs
  induction refs with
  | nil =>
    intro cs psRecipe hs
    cases hs
    rfl
  | cons r refs ih =>
    intro cs psRecipe hs
    cases hs with
    | cons h1 h2 =>
      rename_i c cs
      cases psRecipe with
      | nil => rfl
      | cons k rs =>
        rw [getHighestAgents, bind_ok (values_ok h1), Market.getHighestAgentsLoop]
        by_cases hk : c.values.length < k
        · rw [if_pos hk, if_pos (show c.size < k from hk)]; rfl
        · rw [if_neg hk, if_neg (show ¬ c.size < k from hk)]
          refine read_bind (ih rs h2) ?_
          intro a _
          cases a <;> rfl

theorem potentialDeals_ok {h : Heap} : ∀ {refs : List ℕ} {cs : List AgentCategory} (psRecipe : List ℕ), Shows h refs cs →
    potentialDeals refs psRecipe h = (.ok (TradeWithSinglePrice.potentialDeals cs psRecipe), h) := by
  intro refs
  induction refs with
  | nil =>
    intro cs psRecipe hs
    cases hs
    rfl
  | cons r refs ih =>
    intro cs psRecipe hs
    cases hs with
    | cons h1 h2 =>
      rename_i c cs
      cases psRecipe with
      | nil => rfl
      | cons k rs =>
        rw [potentialDeals, TradeWithSinglePrice.potentialDeals]
        by_cases hk : k > 0
        · rw [if_pos hk, if_pos hk, bind_ok (size_ok h1), bind_ok (ih rs h2)]; rfl
        · rw [if_neg hk, if_neg hk, ih rs h2]

theorem sizes_ok {h : Heap} : ∀ {refs : List ℕ} {cs : List AgentCategory}, Shows h refs cs →
    sizes refs h = (.ok (cs.map AgentCategory.size), h) := by
  intro refs
  induction refs with
  | nil =>
    intro cs hs
    cases hs
    rfl
  | cons r refs ih =>
    intro cs hs
    cases hs with
    | cons h1 h2 => rw [sizes, bind_ok (size_ok h1), bind_ok (ih h2)]; rfl

/-! ### Loops over the categories -/

/-- The objects `refs` of the heap are owned, and the objects `pre` and `post` besides. -/
theorem own_mid {base h : Heap} {pre post : List ℕ} {cpre cpost : List AgentCategory} {r : ℕ} {c : AgentCategory}
    (_own : Own base h (pre ++ r :: post) (cpre ++ c :: cpost)) (hl : pre.length = cpre.length) :
    (pre ++ r :: post)[pre.length]? = some r ∧ (cpre ++ c :: cpost)[pre.length]? = some c ∧
      ∀ c', (cpre ++ c :: cpost).set pre.length c' = cpre ++ c' :: cpost := by
  refine ⟨by simp, by rw [hl]; simp, fun c' => by rw [hl]; simp⟩

theorem Own.mid {base h : Heap} {a b c : List ℕ} {x y z : List AgentCategory} (own : Own base h (a ++ b ++ c) (x ++ y ++ z))
    (h1 : a.length = x.length) (h2 : b.length = y.length) : Shows h b y := by
  have hs := own.shows
  rw [Shows, List.append_assoc, List.append_assoc] at hs
  have := List.forall₂_drop_append _ _ _ hs
  rw [← h1] at this
  simp only [List.drop_left] at this
  have h3 := List.forall₂_take_append _ _ _ this
  rw [← h2] at h3
  rw [Shows]
  simpa using h3

theorem run_removeHighestAgentsOfAll {base : Heap} : ∀ {refs : List ℕ} {cs : List AgentCategory} {psRecipe : List ℕ} {h : Heap}
    {pre post : List ℕ} {cpre cpost : List AgentCategory}, pre.length = cpre.length → refs.length = cs.length →
    Own base h (pre ++ refs ++ post) (cpre ++ cs ++ cpost) →
    Runs base (removeHighestAgentsOfAll refs psRecipe h) (Market.removeHighestAgentsLoop cs psRecipe)
      (fun _ cs' h' => cs'.length = cs.length ∧ Own base h' (pre ++ refs ++ post) (cpre ++ cs' ++ cpost)) := by
  intro refs
  induction refs with
  | nil =>
    intro cs psRecipe h pre post cpre cpost hl hlen own
    cases cs with
    | cons => simp at hlen
    | nil => exact Runs.pure own.ext ⟨rfl, own⟩
  | cons r refs ih =>
    intro cs psRecipe h pre post cpre cpost hl hlen own
    cases cs with
    | nil => simp at hlen
    | cons c cs =>
      cases psRecipe with
      | nil => exact runs_error own.ext
      | cons k rs =>
        rw [removeHighestAgentsOfAll, Market.removeHighestAgentsLoop]
        have own0 : Own base h (pre ++ r :: (refs ++ post)) (cpre ++ c :: (cs ++ cpost)) := by simpa using own
        obtain ⟨e1, e2, e3⟩ := own_mid own0 hl
        refine Runs.bind (run_removeHighestAgents e1 k own0 e2) ?_
        intro _ c' h' own' _
        rw [e3] at own'
        have := ih (cs := cs) (psRecipe := rs) (pre := pre ++ [r]) (post := post) (cpre := cpre ++ [c']) (cpost := cpost) (h := h')
          (by simp [hl]) (by simpa using hlen) (by simpa using own')
        rw [show (Market.removeHighestAgentsLoop cs rs >>= fun cs' => (Except.ok (c' :: cs') : Py _))
          = (Market.removeHighestAgentsLoop cs rs >>= fun cs' => (Except.ok (c' :: cs') : Py _)) from rfl]
        obtain ⟨he, hx⟩ := this
        refine ⟨he, ?_⟩
        revert he hx
        generalize removeHighestAgentsOfAll refs rs h' = y
        generalize Market.removeHighestAgentsLoop cs rs = p
        obtain ⟨y1, y2⟩ := y
        intro he hx
        cases y1 <;> cases p
        · exact hx
        · exact hx.elim
        · exact hx.elim
        · exact ⟨by have := hx.1; simp [this], by simpa using hx.2⟩

theorem run_padEmpty {base : Heap} : ∀ {refs : List ℕ} {cs : List AgentCategory} {h : Heap}
    {pre post : List ℕ} {cpre cpost : List AgentCategory}, pre.length = cpre.length → refs.length = cs.length →
    Own base h (pre ++ refs ++ post) (cpre ++ cs ++ cpost) →
    ∃ h', padEmpty refs h = (.ok (), h') ∧
      Own base h' (pre ++ refs ++ post) (cpre ++ cs.map (fun c => if c.size = 0 then c.append (-MAX_VALUE) else c) ++ cpost) := by
  intro refs
  induction refs with
  | nil =>
    intro cs h pre post cpre cpost hl hlen own
    cases cs with
    | cons => simp at hlen
    | nil => exact ⟨h, rfl, own⟩
  | cons r refs ih =>
    intro cs h pre post cpre cpost hl hlen own
    cases cs with
    | nil => simp at hlen
    | cons c cs =>
      have own0 : Own base h (pre ++ r :: (refs ++ post)) (cpre ++ c :: (cs ++ cpost)) := by simpa using own
      obtain ⟨e1, e2, e3⟩ := own_mid own0 hl
      rw [padEmpty, bind_ok (size_ok (own0.get e1 e2))]
      by_cases hz : c.size = 0
      · obtain ⟨h', g1, own'⟩ := run_append own0 e1 e2 (-MAX_VALUE)
        rw [e3] at own'
        obtain ⟨h'', g2, own''⟩ := ih (cs := cs) (pre := pre ++ [r]) (post := post) (cpre := cpre ++ [c.append (-MAX_VALUE)]) (cpost := cpost)
          (by simp [hl]) (by simpa using hlen) (by simpa using own')
        refine ⟨h'', ?_, ?_⟩
        · rw [if_pos hz, bind_ok g1, g2]
        · simpa [hz] using own''
      · obtain ⟨h'', g2, own''⟩ := ih (cs := cs) (pre := pre ++ [r]) (post := post) (cpre := cpre ++ [c]) (cpost := cpost)
          (by simp [hl]) (by simpa using hlen) (by simpa using own0)
        refine ⟨h'', ?_, ?_⟩
        · rw [if_neg hz, g2]
        · simpa [hz] using own''

theorem run_appendEach {base : Heap} : ∀ {refs : List ℕ} {cs : List AgentCategory} {vs : List ℚ} {h : Heap}
    {pre post : List ℕ} {cpre cpost : List AgentCategory}, pre.length = cpre.length → refs.length = cs.length →
    Own base h (pre ++ refs ++ post) (cpre ++ cs ++ cpost) →
    Runs base (appendEach refs vs h) (McAfee.appendEach cs vs)
      (fun _ cs' h' => cs'.length = cs.length ∧ Own base h' (pre ++ refs ++ post) (cpre ++ cs' ++ cpost)) := by
  intro refs
  induction refs with
  | nil =>
    intro cs vs h pre post cpre cpost hl hlen own
    cases cs with
    | cons => simp at hlen
    | nil => exact Runs.pure own.ext ⟨rfl, own⟩
  | cons r refs ih =>
    intro cs vs h pre post cpre cpost hl hlen own
    cases cs with
    | nil => simp at hlen
    | cons c cs =>
      cases vs with
      | nil => exact runs_error own.ext
      | cons v vs =>
        have own0 : Own base h (pre ++ r :: (refs ++ post)) (cpre ++ c :: (cs ++ cpost)) := by simpa using own
        obtain ⟨e1, e2, e3⟩ := own_mid own0 hl
        obtain ⟨h', g1, own'⟩ := run_append own0 e1 e2 v
        rw [e3] at own'
        rw [appendEach, McAfee.appendEach, bind_ok g1]
        have := ih (cs := cs) (vs := vs) (pre := pre ++ [r]) (post := post) (cpre := cpre ++ [c.append v]) (cpost := cpost) (h := h')
          (by simp [hl]) (by simpa using hlen) (by simpa using own')
        obtain ⟨he, hx⟩ := this
        refine ⟨he, ?_⟩
        revert he hx
        generalize appendEach refs vs h' = y
        generalize McAfee.appendEach cs vs = p
        obtain ⟨y1, y2⟩ := y
        intro he hx
        cases y1 <;> cases p
        · exact hx
        · exact hx.elim
        · exact hx.elim
        · exact ⟨by have := hx.1; simp [this], by simpa using hx.2⟩

theorem run_appendAll {base : Heap} {refs pre post : List ℕ} {cpre cpost : List AgentCategory} (hl : pre.length = cpre.length) :
    ∀ {pss : List (List ℚ)} {cs : List AgentCategory} {h : Heap}, refs.length = cs.length →
    Own base h (pre ++ refs ++ post) (cpre ++ cs ++ cpost) →
    Runs base (appendAll refs pss h) (McAfee.appendAll cs pss)
      (fun _ cs' h' => cs'.length = cs.length ∧ Own base h' (pre ++ refs ++ post) (cpre ++ cs' ++ cpost)) := by
  intro pss
  induction pss with
  | nil =>
    intro cs h hlen own
    rw [McAfee.appendAll]
    exact Runs.pure own.ext ⟨rfl, own⟩
  | cons ps pss ih =>
    intro cs h hlen own
    rw [appendAll, McAfee.appendAll]
    refine Runs.bind (run_appendEach hl hlen own) ?_
    intro _ cs' h' hq _
    refine (ih (by rw [hq.1]; exact hlen) hq.2).mono ?_
    intro _ cs'' h'' hq'
    exact ⟨hq'.1.trans hq.1, hq'.2⟩

/-! ### `optimal_trade` -/

theorem run_removeMarket {base h : Heap} {refs psRecipe : List ℕ} {m : Market} (own : Own base h refs m.categories) :
    Runs base (removeHighestAgentsOfAll refs psRecipe h) (m.removeHighestAgents psRecipe) (fun _ m' h' => Own base h' refs m'.categories) := by
  rw [Market.removeHighestAgents]
  have := run_removeHighestAgentsOfAll (base := base) (refs := refs) (cs := m.categories) (psRecipe := psRecipe) (h := h)
    (pre := []) (post := []) (cpre := []) (cpost := []) rfl own.length (by simpa using own)
  obtain ⟨he, hx⟩ := this
  refine ⟨he, ?_⟩
  revert he hx
  generalize removeHighestAgentsOfAll refs psRecipe h = y
  generalize Market.removeHighestAgentsLoop m.categories psRecipe = p
  obtain ⟨y1, y2⟩ := y
  intro he hx
  cases y1 <;> cases p
  · exact hx
  · exact hx.elim
  · exact hx.elim
  · have := hx.2
    simp only [List.nil_append, List.append_nil] at this
    exact this

theorem run_optimalTradeLoop {base : Heap} {refs : List ℕ} (psRecipe : List ℕ) (inc : Bool) : ∀ (n : ℕ) {trade : List (List ℚ)} {m : Market} {h : Heap},
    Own base h refs m.categories →
    Runs base (optimalTradeLoop refs psRecipe inc n trade h) (Market.optimalTradeLoop psRecipe inc n m trade)
      (fun t p h' => t = p.1 ∧ Own base h' refs p.2.categories) := by
  intro n
  induction n with
  | zero =>
    intro trade m h own
    rw [optimalTradeLoop, Market.optimalTradeLoop]
    exact Runs.pure own.ext ⟨rfl, own⟩
  | succ n ih =>
    intro trade m h own
    rw [optimalTradeLoop, Market.optimalTradeLoop]
    refine Runs.read own.ext (getHighestAgents_ok psRecipe own.shows) ?_
    intro ps _
    cases ps with
    | none => exact Runs.pure own.ext ⟨rfl, own⟩
    | some ps =>
      simp only
      by_cases hg : ps.sum < 0 ∨ (ps.sum = 0 ∧ inc = false)
      · rw [if_pos hg, if_pos hg]
        exact Runs.pure own.ext ⟨rfl, own⟩
      · rw [if_neg hg, if_neg hg]
        refine Runs.bind (Q := fun _ m' h' => Own base h' refs m'.categories) ?_ ?_
        · exact run_removeMarket own
        · intro _ m' h' own' _
          exact ih own'

theorem run_optimalTrade {base h : Heap} {refs : List ℕ} {m : Market} (he : Ext base h) (hs : Shows h refs m.categories)
    (psRecipe : List ℕ) (n : ℕ) (inc : Bool) :
    Runs base (optimalTrade refs psRecipe n inc h) (m.optimalTrade psRecipe n inc)
      (fun t p h' => t.1 = p.1.procurementSets ∧ Own base h' t.2 p.2.categories) := by
  rw [optimalTrade, Market.optimalTrade]
  have hlen : refs.length = m.numCategories := hs.length
  by_cases hr : psRecipe.length ≠ m.numCategories
  · rw [if_pos (by rw [hlen]; exact hr), if_pos hr]
    exact runs_error he
  · rw [if_neg (by rw [hlen]; exact hr), if_neg hr]
    refine Runs.bind (run_clone (Own.nil he) hs) ?_
    intro rs m' h' hq _
    obtain ⟨_, own⟩ := hq
    simp only [List.nil_append] at own
    refine Runs.bind (run_optimalTradeLoop psRecipe inc n own) ?_
    intro t p h'' hq' he''
    obtain ⟨p1, p2⟩ := p
    obtain ⟨rfl, own'⟩ := hq'
    exact Runs.pure he'' ⟨rfl, own'⟩

/-! ### Trades -/

/-- The trade object shows the trade. -/
def TradeShows (base h : Heap) (t : Trade) (t' : TradeWithSinglePrice) : Prop :=
  Own base h t.categories t'.categories ∧ t.psRecipe = t'.psRecipe ∧ t.prices = t'.prices ∧ t.numOfDealsCache = t'.numOfDealsCache

theorem run_newTrade {base h : Heap} {refs : List ℕ} {cs : List AgentCategory} (own : Own base h refs cs) (psRecipe : List ℕ)
    (prices : Option (List ℚ)) :
    Runs base (newTrade refs psRecipe prices h) (TradeWithSinglePrice.init cs psRecipe prices) (fun t t' h' => TradeShows base h' t t') := by
  rw [newTrade, TradeWithSinglePrice.init, bind_ok (potentialDeals_ok psRecipe own.shows)]
  refine Runs.bind (Runs.lift own.ext) ?_
  rintro k _ _ ⟨rfl, rfl⟩ he
  exact Runs.pure he ⟨own, rfl, rfl, rfl⟩

theorem Own.right {base h : Heap} {a b : List ℕ} {x y : List AgentCategory} (own : Own base h (a ++ b) (x ++ y)) (hl : a.length = x.length) :
    Own base h b y := by
  have hs : Shows h b y := by
    have h2 : b.length = y.length := by have := own.length; simp only [List.length_append] at this; omega
    exact Own.mid (c := []) (z := []) (by simpa using own) hl h2
  refine ⟨own.ext, hs, (List.nodup_append.1 own.nodup).2.1, ?_, ?_⟩
  · intro r hr
    exact own.fresh r (List.mem_append_right _ hr)
  · intro r hr r' hr'
    exact own.inj r (List.mem_append_right _ hr) r' (List.mem_append_right _ hr')

theorem Own.left {base h : Heap} {a b : List ℕ} {x y : List AgentCategory} (own : Own base h (a ++ b) (x ++ y)) (hl : a.length = x.length) :
    Own base h a x := by
  have hs : Shows h a x := Own.mid (a := []) (x := []) (by simpa using own) rfl hl
  refine ⟨own.ext, hs, (List.nodup_append.1 own.nodup).1, ?_, ?_⟩
  · intro r hr
    exact own.fresh r (List.mem_append_left _ hr)
  · intro r hr r' hr'
    exact own.inj r (List.mem_append_left _ hr) r' (List.mem_append_left _ hr')

/-! ### The ascending auction -/

theorem sizeAt_eq (m : Market) (i : ℕ) : Ascending.sizeAt m i = (m.categories.map AgentCategory.size).getD i 0 := by
  rw [Ascending.sizeAt, List.getD_eq_getElem?_getD, List.getElem?_map]
  cases m.categories[i]? <;> rfl

theorem run_ascendingLoop {base : Heap} {refs : List ℕ} (psRecipe relevant : List ℕ) : ∀ (fuel : ℕ) {prices : AscendingPriceVector}
    {m : Market} {h : Heap}, Own base h refs m.categories →
    Runs base (ascendingLoop refs psRecipe relevant fuel prices h) (Ascending.loop psRecipe relevant fuel m prices)
      (fun a b h' => match a, b with
        | none, none => True
        | some p, some q => p = q.2 ∧ Own base h' refs q.1.categories
        | _, _ => False) := by
  intro fuel
  induction fuel with
  | zero =>
    intro prices m h own
    rw [ascendingLoop, Ascending.loop]
    exact Runs.pure own.ext trivial
  | succ fuel ih =>
    intro prices m h own
    rw [ascendingLoop, Ascending.loop, bind_ok (sizes_ok own.shows)]
    have hf : (fun i => (((m.categories.map AgentCategory.size).getD i 0 : ℕ) : ℚ) / (Ascending.recipeAt psRecipe i : ℚ))
        = Ascending.fractionalPotentialPs m psRecipe := by
      funext i
      rw [Ascending.fractionalPotentialPs, sizeAt_eq]
    rw [hf]
    refine Runs.read own.ext lift_run ?_
    intro main _
    refine Runs.bind (Q := fun r c h' => h' = h ∧ refs[main]? = some r ∧ m.categories[main]? = some c) ?_ ?_
    · refine ⟨own.ext, ?_⟩
      rw [lift_run, pyGet, pyGet]
      have hl := own.length
      cases hr : refs[main]? with
      | none =>
        have : m.categories[main]? = none := by
          rw [List.getElem?_eq_none_iff] at hr ⊢
          omega
        rw [this]
        rfl
      | some r =>
        have hlt := (List.getElem?_eq_some_iff.1 hr).1
        rw [List.getElem?_eq_getElem (show main < m.categories.length by omega)]
        exact ⟨rfl, rfl, rfl⟩
    · rintro r c _ ⟨rfl, hr, hc⟩ _
      have hcat := own.get hr hc
      rw [bind_ok (size_ok hcat)]
      by_cases hz : c.size = 0
      · rw [if_pos hz, if_pos hz]
        exact Runs.pure own.ext ⟨rfl, own⟩
      · rw [if_neg hz, if_neg hz]
        refine Runs.read own.ext (lowestAgentValue_ok hcat) ?_
        intro target _
        refine Runs.read own.ext lift_run ?_
        intro prices' _
        by_cases hst : prices'.status = some .stoppedAtZeroSum
        · rw [if_pos hst, if_pos hst]
          exact Runs.pure own.ext ⟨rfl, own⟩
        · rw [if_neg hst, if_neg hst]
          refine Runs.bind (run_removeLowestAgent own hr hc) ?_
          intro _ c' h' own' _
          exact ih (m := ⟨m.categories.set main c'⟩) own'

theorem run_ascendingAuction {base h : Heap} {refs : List ℕ} {m : Market} (he : Ext base h) (hs : Shows h refs m.categories)
    (psRecipe : List ℕ) (fuel n : ℕ) :
    Runs base (ascendingAuction refs psRecipe fuel n h) (Ascending.auction m psRecipe fuel n)
      (fun a b h' => match a, b with
        | none, none => True
        | some t, some t' => TradeShows base h' t t'
        | _, _ => False) := by
  rw [ascendingAuction, Ascending.auction]
  have hlen : refs.length = m.numCategories := hs.length
  by_cases hr : psRecipe.length ≠ m.numCategories
  · rw [if_pos (by rw [hlen]; exact hr), if_pos hr]
    exact runs_error he
  · rw [if_neg (by rw [hlen]; exact hr), if_neg hr]
    refine Runs.bind (Q := fun _ _ h' => Ext h h') ?_ ?_
    · obtain ⟨h1, h2⟩ := run_optimalTrade (Ext.refl h) hs psRecipe n true
      refine ⟨he.trans h1, ?_⟩
      revert h1 h2
      generalize optimalTrade refs psRecipe n true h = y
      generalize m.optimalTrade psRecipe n true = p
      obtain ⟨y1, y2⟩ := y
      intro h1 h2
      cases y1 <;> cases p
      · exact h2
      · exact h2.elim
      · exact h2.elim
      · exact h1
    · intro _ _ h' e1 he'
      refine Runs.bind (run_clone (Own.nil he') (e1.shows hs)) ?_
      intro rs m' h'' hq _
      obtain ⟨_, own⟩ := hq
      simp only [List.nil_append] at own
      have hrel : relevantCategoryIndices refs psRecipe = Ascending.relevantCategoryIndices m psRecipe := by
        rw [relevantCategoryIndices, Ascending.relevantCategoryIndices, hlen]
      rw [hrel]
      refine Runs.bind (run_ascendingLoop psRecipe _ fuel own) ?_
      intro a b h3 hq3 he3
      cases a with
      | none =>
        cases b with
        | none => exact Runs.pure he3 trivial
        | some b => exact hq3.elim
      | some a =>
        cases b with
        | none => exact hq3.elim
        | some b =>
          obtain ⟨b1, b2⟩ := b
          obtain ⟨rfl, own3⟩ := hq3
          refine Runs.bind (run_newTrade own3 psRecipe _) ?_
          intro t t' h4 hq4 he4
          exact Runs.pure he4 hq4

/-! ### McAfee -/

theorem run_mcafee {base h : Heap} {refs : List ℕ} {m : Market} (he : Ext base h) (hs : Shows h refs m.categories)
    (psRecipe : List ℕ) (heur : Bool) :
    Runs base (mcafee refs psRecipe heur h) (McAfee.mcafeeTradeReduction m psRecipe heur) (fun t t' h' => TradeShows base h' t t') := by
  rw [mcafee, McAfee.mcafeeTradeReduction]
  have hlen : refs.length = m.numCategories := hs.length
  by_cases hr : psRecipe.length ≠ m.numCategories
  · rw [if_pos (by rw [hlen]; exact hr), if_pos hr]
    exact runs_error he
  · rw [if_neg (by rw [hlen]; exact hr), if_neg hr]
    by_cases h1 : psRecipe.any (fun r => r ≠ 1)
    · rw [if_pos h1, if_pos h1]
      exact runs_error he
    · rw [if_neg h1, if_neg h1]
      refine Runs.bind (Q := fun t p h' => Ext h h' ∧ t.1 = p.1.procurementSets ∧ Own h h' t.2 p.2.categories) ?_ ?_
      · obtain ⟨h1, h2⟩ := run_optimalTrade (Ext.refl h) hs psRecipe 2000000 true
        refine ⟨he.trans h1, ?_⟩
        revert h1 h2
        generalize optimalTrade refs psRecipe 2000000 true h = y
        generalize m.optimalTrade psRecipe 2000000 true = p
        obtain ⟨y1, y2⟩ := y
        intro h1 h2
        cases y1 <;> cases p
        · exact h2
        · exact h2.elim
        · exact h2.elim
        · exact ⟨h1, h2⟩
      · rintro ⟨opt, rem⟩ ⟨⟨popt⟩, prem⟩ h' ⟨_, heq, own⟩ _
        simp only at heq
        subst heq
        simp only
        obtain ⟨h2, g1, own2⟩ := run_padEmpty (pre := []) (post := []) (cpre := []) (cpost := []) rfl own.length (by simpa using own)
        simp only [List.nil_append, List.append_nil] at own2
        have own2' : Own h h2 rem (McAfee.padEmpty prem).categories := own2
        rw [bind_ok g1]
        have he2 : Ext base h2 := he.trans own2.ext
        refine Runs.read he2 (getHighestAgents_ok psRecipe own2'.shows) ?_
        intro firstNegative _
        obtain ⟨rs, h3, g3, e3, own3⟩ := run_empty (Own.nil he2) (own2.ext.shows hs)
        simp only [List.nil_append] at own3
        have hempty : m.emptyAgentCategories = m.categories.map (fun c => AgentCategory.init c.name []) := rfl
        rw [← hempty] at own3
        have tail : ∀ pss prices, Runs base ((appendAll rs pss >>= fun _ => newTrade rs psRecipe prices) h3)
            (McAfee.appendAll m.emptyAgentCategories pss >>= fun ts => TradeWithSinglePrice.init ts psRecipe prices)
            (fun t t' h' => TradeShows base h' t t') := by
          intro pss prices
          refine Runs.bind (run_appendAll (pre := []) (post := []) (cpre := []) (cpost := []) rfl own3.length (by simpa using own3)) ?_
          intro _ cs' h4 hq4 _
          simp only [List.nil_append, List.append_nil] at hq4
          exact run_newTrade hq4.2 psRecipe _
        cases heur with
        | true =>
          simp only [if_true]
          refine Runs.read he2 lift_run ?_
          intro candidate _
          rw [bind_ok g3, hlen]
          cases opt with
          | nil => exact run_newTrade own3 psRecipe _
          | cons lastPositive others =>
            simp only [true_and]
            by_cases hp : McAfee.isPriceGoodForPs candidate lastPositive = true
            · rw [if_pos hp, if_pos hp]
              refine Runs.read own3.ext lift_run ?_
              intro prices _
              exact tail _ _
            · rw [if_neg hp, if_neg hp]
              exact tail _ _
        | false =>
          simp only [Bool.false_eq_true, if_false]
          refine Runs.read he2 lift_run ?_
          intro candidate _
          rw [bind_ok g3, hlen]
          cases opt with
          | nil => exact run_newTrade own3 psRecipe _
          | cons lastPositive others =>
            simp only [false_and, if_false]
            exact tail _ _

/-! ### Trade reduction -/

theorem bestContainingPS_ok {h : Heap} (ci : ℕ) (v : ℚ) : ∀ {refs : List ℕ} {cs : List AgentCategory} (i : ℕ), Shows h refs cs →
    bestContainingPS ci v i refs h = (Market.bestContainingPSLoop ci v i cs, h) := by
  intro refs
  induction refs with
  | nil =>
    intro cs i hs
    cases hs
    rfl
  | cons r refs ih =>
    intro cs i hs
    cases hs with
    | cons h1 h2 =>
      rename_i c cs
      rw [bestContainingPS, Market.bestContainingPSLoop]
      by_cases hi : i = ci
      · simp only [if_pos hi]
        refine read_bind (p := .ok v) rfl ?_
        intro a ha
        refine read_bind (ih (i + 1) h2) ?_
        intro b _
        rfl
      · simp only [if_neg hi]
        refine read_bind (highestAgentValue_ok h1) ?_
        intro a ha
        refine read_bind (ih (i + 1) h2) ?_
        intro b _
        rfl

/-- The heap and the local variables are in the state `s` of the program without objects. -/
def TRState (base h : Heap) (rem traders : List ℕ) (l : Locals) (s : TradeReduction.State) : Prop :=
  Own base h (rem ++ traders) (s.remaining.categories ++ s.actualTraders) ∧ rem.length = s.remaining.categories.length ∧
    l.latestPrices = s.latestPrices ∧ l.foundExternal = s.foundExternal

theorem run_appendActual {base h : Heap} {rem traders : List ℕ} {cs ts : List AgentCategory} (own : Own base h (rem ++ traders) (cs ++ ts))
    (hl : rem.length = cs.length) (toCategory : List ℕ) (pivot : ℕ) (v : ℚ) :
    Runs base (appendActual traders toCategory pivot v h) (TradeReduction.appendTrader ts toCategory pivot v)
      (fun _ ts' h' => Own base h' (rem ++ traders) (cs ++ ts')) := by
  rw [appendActual, TradeReduction.appendTrader]
  refine Runs.read own.ext lift_run ?_
  intro ci _
  have htl : traders.length = ts.length := by have := own.length; simp only [List.length_append] at this; omega
  rw [pyGet, pyGet]
  cases hr : traders[ci]? with
  | none =>
    have : ts[ci]? = none := by
      rw [List.getElem?_eq_none_iff] at hr ⊢
      omega
    rw [this]
    exact ⟨own.ext, rfl⟩
  | some r =>
    have hlt := (List.getElem?_eq_some_iff.1 hr).1
    rw [List.getElem?_eq_getElem (show ci < ts.length by omega)]
    obtain ⟨h', g1, own'⟩ := run_append own (i := rem.length + ci) (r := r) (c := ts[ci]'(by omega)) (by
        rw [List.getElem?_append_right (by omega)]
        simpa using hr) (by
        rw [List.getElem?_append_right (by omega), hl]
        simp only [Nat.add_sub_cancel_left]
        exact List.getElem?_eq_getElem _) v
    show Runs base (append r v h) _ _
    rw [g1]
    refine ⟨own'.ext, ?_⟩
    show Own base h' (rem ++ traders) (cs ++ ts.set ci _)
    rw [List.set_append_right _ _ (by omega), hl] at own'
    simpa using own'

theorem run_appendTrader {base h : Heap} {rem traders : List ℕ} {m : Market} {ts : List AgentCategory}
    (own : Own base h (rem ++ traders) (m.categories ++ ts)) (hl : rem.length = m.categories.length) (ci : ℕ) (v : ℚ) :
    Runs base (appendTrader rem ci v h) (m.appendTrader ci v)
      (fun _ m' h' => Own base h' (rem ++ traders) (m'.categories ++ ts) ∧ m'.categories.length = m.categories.length) := by
  rw [appendTrader, Market.appendTrader, pyGet]
  cases hr : rem[ci]? with
  | none =>
    have : m.categories[ci]? = none := by
      rw [List.getElem?_eq_none_iff] at hr ⊢
      omega
    rw [this]
    exact ⟨own.ext, rfl⟩
  | some r =>
    have hlt := (List.getElem?_eq_some_iff.1 hr).1
    rw [List.getElem?_eq_getElem (show ci < m.categories.length by omega)]
    obtain ⟨h', g1, own'⟩ := run_append own (i := ci) (r := r) (c := m.categories[ci]'(by omega)) (by
        rw [List.getElem?_append_left hlt]
        exact hr) (by
        rw [List.getElem?_append_left (by omega)]
        exact List.getElem?_eq_getElem _) v
    show Runs base (append r v h) _ _
    rw [g1]
    refine ⟨own'.ext, ?_, by simp⟩
    show Own base h' (rem ++ traders) (m.categories.set ci _ ++ ts)
    rw [List.set_append_left _ _ (by omega)] at own'
    exact own'

theorem run_forLoop {α σ τ : Type} {base : Heap} {body : σ → α → HPy σ} {f : τ → α → Py τ} {R : Heap → σ → τ → Prop}
    (hext : ∀ h s t, R h s t → Ext base h)
    (hb : ∀ h s t x, R h s t → Runs base (body s x h) (f t x) (fun s' t' h' => R h' s' t')) :
    ∀ (xs : List α) {h : Heap} {s : σ} {t : τ}, R h s t → Runs base (forLoop body s xs h) (xs.foldlM f t) (fun s' t' h' => R h' s' t') := by
  intro xs
  induction xs with
  | nil =>
    intro h s t hr
    rw [List.foldlM_nil]
    exact Runs.pure (hext h s t hr) hr
  | cons x xs ih =>
    intro h s t hr
    rw [forLoop, List.foldlM_cons]
    refine Runs.bind (hb h s t x hr) ?_
    intro s' t' h' hr' _
    exact ih hr'

theorem run_competeStep {base : Heap} {refs rem traders : List ℕ} {m : Market} (hm : refs.length = m.categories.length)
    (psRecipe toCategory : List ℕ) (g0 : Bool) (ps : List ℚ) (h : Heap) (l : Locals) (s : TradeReduction.State) (pivot : ℕ)
    (hs : TRState base h rem traders l s) :
    Runs base (competeStep refs rem traders psRecipe toCategory g0 ps l pivot h)
      (TradeReduction.competeStep m psRecipe toCategory g0 ps s pivot) (fun l' s' h' => TRState base h' rem traders l' s') := by
  obtain ⟨own, hl, hp, hf⟩ := hs
  rw [competeStep, TradeReduction.competeStep]
  refine Runs.read own.ext lift_run ?_
  intro value _
  rw [hf]
  cases hfe : s.foundExternal with
  | true =>
    simp only [if_true]
    refine Runs.bind (run_appendActual own hl toCategory pivot value) ?_
    intro _ ts' h' own' he'
    exact Runs.pure he' ⟨own', hl, hp, by rw [hf, hfe]⟩
  | false =>
    simp only [Bool.false_eq_true, if_false]
    refine Runs.bind (Q := fun _ _ h' => h' = h) ?_ ?_
    · refine ⟨own.ext, ?_⟩
      rw [lift_run, pyGet, pyGet]
      by_cases hc : TradeReduction.convertCategoryIndex psRecipe pivot < refs.length
      · rw [List.getElem?_eq_getElem hc, List.getElem?_eq_getElem (by omega)]
        rfl
      · rw [List.getElem?_eq_none (by omega), List.getElem?_eq_none (by omega)]
        rfl
    · rintro _ _ _ rfl _
      refine Runs.read own.ext (bestContainingPS_ok _ value 0 (own.left hl).shows) ?_
      intro best _
      refine Runs.read own.ext lift_run ?_
      intro gft _
      by_cases hg : gft > 0 ∨ (g0 = true ∧ gft = 0)
      · rw [if_pos hg, if_pos hg, hm]
        refine Runs.read (p := m.calculatePricesByExternalCompetition _ value best psRecipe) own.ext lift_run ?_
        intro prices _
        refine Runs.bind (run_appendActual own hl toCategory pivot value) ?_
        intro _ ts' h' own' he'
        exact Runs.pure he' ⟨own', hl, rfl, rfl⟩
      · rw [if_neg hg, if_neg hg]
        refine Runs.bind (run_appendTrader own hl _ value) ?_
        intro _ m' h' own' he'
        exact Runs.pure he' ⟨own'.1, by rw [own'.2]; exact hl, hp, by rw [hf, hfe]⟩

theorem run_tradeStep {base : Heap} {rem traders : List ℕ} (toCategory : List ℕ) (ps : List ℚ) (h : Heap) (l : Locals)
    (s : TradeReduction.State) (pivot : ℕ) (hs : TRState base h rem traders l s) :
    Runs base (tradeStep traders toCategory ps l pivot h)
      (TradeReduction.tradeStep toCategory ps s pivot) (fun l' s' h' => TRState base h' rem traders l' s') := by
  obtain ⟨own, hl, hp, hf⟩ := hs
  rw [tradeStep, TradeReduction.tradeStep]
  refine Runs.read own.ext lift_run ?_
  intro value _
  refine Runs.bind (run_appendActual own hl toCategory pivot value) ?_
  intro _ ts' h' own' he'
  exact Runs.pure he' ⟨own', hl, hp, hf⟩

theorem run_psStep {base : Heap} {refs rem traders : List ℕ} {m : Market} (hm : refs.length = m.categories.length)
    (psRecipe pivots toCategory : List ℕ) (g0 : Bool) (h : Heap) (l : Locals) (s : TradeReduction.State) (ps : List ℚ)
    (hs : TRState base h rem traders l s) :
    Runs base (psStep refs rem traders psRecipe pivots toCategory g0 l ps h)
      (TradeReduction.psStep m psRecipe pivots toCategory g0 s ps) (fun l' s' h' => TRState base h' rem traders l' s') := by
  rw [psStep, TradeReduction.psStep, hs.2.2.1]
  cases s.latestPrices with
  | none =>
    exact run_forLoop (R := fun h l s => TRState base h rem traders l s) (fun _ _ _ hr => hr.1.ext)
      (fun h l s x hr => run_competeStep hm psRecipe toCategory g0 ps h l s x hr) pivots hs
  | some _ =>
    exact run_forLoop (R := fun h l s => TRState base h rem traders l s) (fun _ _ _ hr => hr.1.ext)
      (fun h l s x hr => run_tradeStep toCategory ps h l s x hr) pivots hs

theorem run_tradeReduction {base h : Heap} {refs : List ℕ} {m : Market} (he : Ext base h) (hs : Shows h refs m.categories)
    (psRecipe : List ℕ) (g0 : Bool) :
    Runs base (tradeReduction refs psRecipe g0 h) (TradeReduction.tradeReduction m psRecipe g0) (fun t t' h' => TradeShows base h' t t') := by
  rw [tradeReduction, TradeReduction.tradeReduction]
  have hlen : refs.length = m.numCategories := hs.length
  by_cases hr : psRecipe.length ≠ m.numCategories
  · rw [if_pos (by rw [hlen]; exact hr), if_pos hr]
    exact runs_error he
  · rw [if_neg (by rw [hlen]; exact hr), if_neg hr]
    refine Runs.bind (Q := fun t p h' => Ext h h' ∧ t.1 = p.1.procurementSets ∧ Own h h' t.2 p.2.categories) ?_ ?_
    · obtain ⟨h1, h2⟩ := run_optimalTrade (Ext.refl h) hs psRecipe 2000000 true
      refine ⟨he.trans h1, ?_⟩
      revert h1 h2
      generalize optimalTrade refs psRecipe 2000000 true h = y
      generalize m.optimalTrade psRecipe 2000000 true = p
      obtain ⟨y1, y2⟩ := y
      intro h1 h2
      cases y1 <;> cases p
      · exact h2
      · exact h2.elim
      · exact h2.elim
      · exact ⟨h1, h2⟩
    · rintro ⟨opt, rem⟩ ⟨⟨popt⟩, prem⟩ h' ⟨_, heq, own⟩ _
      simp only at heq
      subst heq
      simp only
      by_cases hz : opt.length = 0
      · rw [if_pos hz, if_pos hz]
        obtain ⟨rs, h3, g3, e3, own3⟩ := run_empty (Own.nil (he.trans own.ext)) (own.ext.shows hs)
        simp only [List.nil_append] at own3
        rw [bind_ok g3]
        exact run_newTrade own3 psRecipe _
      · rw [if_neg hz, if_neg hz]
        obtain ⟨opt0, opts, rfl⟩ : ∃ a b, opt = a :: b := by
          cases opt with
          | nil => simp at hz
          | cons a b => exact ⟨a, b, rfl⟩
        -- the part after the list of procurement-sets is known
        have tail : ∀ (list : List (List ℚ)) (h2 : Heap) (m2 : Market), Own h h2 rem m2.categories →
            Runs base ((padEmpty rem >>= fun _ => emptyAgentCategories refs >>= fun traders =>
              forLoop (psStep refs rem traders psRecipe (TradeReduction.pivotIndexes 0 psRecipe)
                (TradeReduction.pivotIndexToCategoryIndex 0 psRecipe) g0) ⟨none, false⟩ list >>= fun s =>
              newTrade traders psRecipe s.latestPrices) h2)
            (list.foldlM (TradeReduction.psStep m psRecipe (TradeReduction.pivotIndexes 0 psRecipe)
                (TradeReduction.pivotIndexToCategoryIndex 0 psRecipe) g0) ⟨McAfee.padEmpty m2, m.emptyAgentCategories, none, false⟩ >>= fun s =>
              TradeWithSinglePrice.init s.actualTraders psRecipe s.latestPrices)
            (fun t t' h' => TradeShows base h' t t') := by
          intro list h2 m2 own2
          have own2b : Own base h2 rem m2.categories :=
            ⟨he.trans own2.ext, own2.shows, own2.nodup, fun r hr o ho => (prefix_length he.lists).trans (own2.fresh r hr o ho), own2.inj⟩
          obtain ⟨h3, g1, own3⟩ := run_padEmpty (base := h) (pre := []) (post := []) (cpre := []) (cpost := []) rfl own2.length (by simpa using own2)
          obtain ⟨h3', g1', own3b⟩ := run_padEmpty (base := base) (pre := []) (post := []) (cpre := []) (cpost := []) rfl own2b.length (by simpa using own2b)
          rw [g1] at g1'
          simp only [Prod.mk.injEq, true_and] at g1'
          subst g1'
          simp only [List.nil_append, List.append_nil] at own3 own3b
          rw [bind_ok g1]
          obtain ⟨rs, h4, g4, e4, own4⟩ := run_empty own3b (own3.ext.shows hs)
          rw [bind_ok g4]
          refine Runs.bind (Q := fun l s h' => TRState base h' rem rs l s) ?_ ?_
          · exact run_forLoop (R := fun h l s => TRState base h rem rs l s) (fun _ _ _ hr => hr.1.ext)
              (fun h l s x hr => run_psStep hlen psRecipe _ _ g0 h l s x hr) list
              ⟨own4, by rw [own3b.length]; rfl, rfl, rfl⟩
          · intro l s h5 hst _
            rw [hst.2.2.1]
            exact run_newTrade (hst.1.right hst.2.1) psRecipe _
        have hgh := getHighestAgents_ok psRecipe own.shows
        rw [toCompete, bind_assoc']
        refine Runs.read (he.trans own.ext) hgh ?_
        intro hn _
        match hn with
        | none => exact tail _ _ _ own
        | some [] => exact tail _ _ _ own
        | some (x :: xs) =>
          simp only
          rw [bind_assoc']
          refine Runs.bind (Q := fun _ m' h' => Own h h' rem m'.categories) ?_ ?_
          · obtain ⟨h1, h2⟩ := run_removeMarket (psRecipe := psRecipe) own
            exact ⟨he.trans h1, h2⟩
          · intro _ m' h2 own2 _
            exact tail _ _ _ own2

end Auctions.Heap
