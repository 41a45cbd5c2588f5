import Verif.Model.HeapTree
import Verif.Proofs.HeapProtocols
import Verif.Proofs.Tree
import Verif.Proofs.TreeShape
import Verif.Proofs.IntegerTree

set_option autoImplicit false

/-!
# The tree auctions with objects end like the tree auctions without objects
-/

namespace Auctions.Heap

open Auctions Spec

/-- The list objects `ls` contain `vss`. -/
def Contain (h : Heap) (ls : List ℕ) (vss : List (List ℚ)) : Prop := List.Forall₂ (fun l vs => h.lists[l]? = some vs) ls vss

theorem Contain.ext {h h' : Heap} {ls : List ℕ} {vss : List (List ℚ)} (hc : Contain h ls vss) (e : Ext h h') : Contain h' ls vss :=
  hc.imp (fun _ _ hl => prefix_get e.lists hl)

theorem readLists_ok {h : Heap} : ∀ {ls : List ℕ} {vss : List (List ℚ)}, Contain h ls vss → readLists ls h = (.ok vss.flatten, h) := by
  intro ls
  induction ls with
  | nil => intro vss hc; cases hc; rfl
  | cons l ls ih =>
    intro vss hc
    cases hc with
    | cons h1 h2 => rw [readLists, bind_ok (readList_ok h1), bind_ok (ih h2)]; rfl

theorem Shows.at {h : Heap} {refs : List ℕ} {cs : List AgentCategory} (hs : Shows h refs cs) {i : ℕ} (hi : i < refs.length) :
    ∃ c o, refs[i]? = some refs[i] ∧ cs[i]? = some c ∧ category h refs[i] = some c ∧ h.cats[refs[i]]? = some o ∧ o.name = c.name ∧
      h.lists[o.values]? = some c.values := by
  have hl := hs.length
  rw [Shows, List.forall₂_iff_get] at hs
  have := hs.2 i hi (by omega)
  simp only [List.get_eq_getElem] at this
  obtain ⟨o, h1, h2, h3⟩ := category_some.1 this
  exact ⟨cs[i]'(by omega), o, List.getElem?_eq_getElem hi, List.getElem?_eq_getElem (by omega), this, h1, h2, h3⟩

theorem combinedValues_run {cats : List ℕ} {cs : List AgentCategory} : ∀ (f : Forest) {h : Heap}, Shows h cats cs →
    (∀ i ∈ nodes f, i < cats.length) →
    ∃ ls vss h', combinedValues cats f h = (.ok ls, h') ∧ Ext h h' ∧ Contain h' ls vss ∧
      vss.flatten = f.combinedValues (TreeAuction.valuesAt cs) := by
  intro f
  induction f with
  | nil =>
    intro h hs _
    exact ⟨[], [], h, rfl, Ext.refl h, List.Forall₂.nil, rfl⟩
  | cons i ch s ihc ihs =>
    intro h hs hn
    obtain ⟨c, o, g1, g2, g3, g4, g5, g6⟩ := hs.at (hn i (by simp [nodes]))
    have hval : TreeAuction.valuesAt cs i = c.values := by rw [TreeAuction.valuesAt, g2]
    have hlift : lift (pyGet cats i) h = (.ok (cats[i]'(hn i (by simp [nodes]))), h) := by
      rw [lift_run, pyGet_some g1]
    have node : ∃ l h', (match ch with
        | .nil => (pure o.values : HPy ℕ)
        | .cons .. => do
          let ls ← combinedValues cats ch
          let vs ← readLists ls
          let s ← newList vs
          writeList s (sortDesc vs)
          let selfValues ← readList o.values
          let childrenValues ← readList s
          newList (List.zipWith (· + ·) selfValues childrenValues)) h = (.ok l, h') ∧ Ext h h' ∧
          h'.lists[l]? = some (nodeValues (TreeAuction.valuesAt cs) i ch) := by
      cases ch with
      | nil => exact ⟨o.values, h, rfl, Ext.refl h, by rw [g6, nodeValues, hval]⟩
      | cons j c2 s2 =>
        obtain ⟨ls, vss, h1, e1, e2, e3, e3'⟩ := ihc hs (fun k hk => hn k (by simp only [nodes, List.mem_cons, List.mem_append] at hk ⊢; tauto))
        simp only
        rw [bind_ok e1, bind_ok (readLists_ok e3), e3']
        rw [bind_ok (show newList _ h1 = (.ok h1.lists.length, { h1 with lists := h1.lists ++ [_] }) from rfl), bind_ok writeList_run]
        simp only
        generalize hvs : (Forest.cons j c2 s2).combinedValues (TreeAuction.valuesAt cs) = vs
        have hset : (h1.lists ++ [vs]).set h1.lists.length (sortDesc vs) = h1.lists ++ [sortDesc vs] := by simp
        rw [hset]
        have e4 : Ext h1 { h1 with lists := h1.lists ++ [sortDesc vs] } := ⟨List.prefix_append _ _, List.prefix_refl _⟩
        rw [bind_ok (readList_ok (prefix_get (e2.trans e4).lists g6)), bind_ok (readList_ok (show (h1.lists ++ [sortDesc vs])[h1.lists.length]? = some (sortDesc vs) by simp))]
        refine ⟨_, _, rfl, (e2.trans e4).trans ⟨List.prefix_append _ _, List.prefix_refl _⟩, ?_⟩
        rw [nodeValues_of_ne _ _ (by simp), hval, hvs]
        simp
    obtain ⟨l, h1, e1, e2, e3⟩ := node
    obtain ⟨rest, vss2, h2, e4, e5, e6, e7⟩ := ihs (e2.shows hs) (fun k hk => hn k (by simp only [nodes, List.mem_cons, List.mem_append] at hk ⊢; tauto))
    refine ⟨l :: rest, _ :: vss2, h2, ?_, e2.trans e5, List.Forall₂.cons (prefix_get e5.lists e3) e6, ?_⟩
    · have hd : combinedValues cats (.cons i ch s) = (lift (pyGet cats i) >>= fun r => readCat r >>= fun o =>
          (match ch with
          | .nil => (pure o.values : HPy ℕ)
          | .cons .. => do
            let ls ← combinedValues cats ch
            let vs ← readLists ls
            let s ← newList vs
            writeList s (sortDesc vs)
            let selfValues ← readList o.values
            let childrenValues ← readList s
            newList (List.zipWith (· + ·) selfValues childrenValues)) >>= fun l =>
          combinedValues cats s >>= fun rest => pure (l :: rest)) := by
        cases ch with
        | nil => rw [combinedValues]; rfl
        | cons => rw [combinedValues]; simp only [bind_assoc']
      rw [hd, bind_ok hlift, bind_ok (readCat_ok g4), bind_ok e1, bind_ok e4]
      rfl
    · rw [combinedValues_cons, List.flatten_cons, e7]

theorem treeGFT_run {cats : List ℕ} {cs : List AgentCategory} {t : RecipeTree} {h : Heap} (hs : Shows h cats cs)
    (ht : ∀ i ∈ nodes t.forest, i < cats.length) :
    ∃ h', treeGFT cats t h = (.ok (t.optimalTradeGFT (TreeAuction.valuesAt cs)), h') ∧ Ext h h' := by
  obtain ⟨ls, vss, h', e1, e2, e3, e4⟩ := combinedValues_run t.forest hs ht
  refine ⟨h', ?_, e2⟩
  rw [treeGFT, bind_ok e1, bind_ok (readLists_ok e3), e4]
  rfl

theorem allValues_ok {h : Heap} : ∀ {refs : List ℕ} {cs : List AgentCategory}, Shows h refs cs →
    allValues refs h = (.ok (cs.map AgentCategory.values), h) := by
  intro refs
  induction refs with
  | nil =>
    intro cs hs
    cases hs
    rfl
  | cons r refs ih =>
    intro cs hs
    cases hs with
    | cons h1 h2 => rw [allValues, bind_ok (values_ok h1), bind_ok (ih h2)]; rfl

theorem valuesAt_fun (cs : List AgentCategory) : (fun i => (cs.map AgentCategory.values).getD i []) = TreeAuction.valuesAt cs := by
  funext i
  rw [TreeAuction.valuesAt, List.getD_eq_getElem?_getD, List.getElem?_map]
  cases cs[i]? <;> rfl

theorem sizeAt_fun (cs : List AgentCategory) : (fun i => (cs.map AgentCategory.size).getD i 0) = TreeAuction.sizeAt cs := by
  funext i
  rw [TreeAuction.sizeAt, List.getD_eq_getElem?_getD, List.getElem?_map]
  cases cs[i]? <;> rfl

theorem treeOptimalTrade_ok {h : Heap} {cats : List ℕ} {cs : List AgentCategory} (hs : Shows h cats cs) (t : RecipeTree) :
    treeOptimalTrade cats t h = (t.optimalTrade (TreeAuction.valuesAt cs), h) := by
  rw [treeOptimalTrade, bind_ok (allValues_ok hs), valuesAt_fun]
  rfl

theorem increases_ok {h : Heap} {cats : List ℕ} {cs : List AgentCategory} (hs : Shows h cats cs) :
    ∀ (is : List ℕ), increases cats is h = (TreeAuction.increases cs is, h) := by
  intro is
  induction is with
  | nil => rfl
  | cons i is ih =>
    rw [increases, TreeAuction.increases]
    by_cases hi : i < cats.length
    · obtain ⟨c, o, g1, g2, g3, g4, g5, g6⟩ := hs.at hi
      rw [pyGet_some g1, pyGet_some g2, bind_ok (lift_run)]
      show _ = ((TreeAuction.targetPrice c >>= fun t => TreeAuction.increases cs is >>= fun rest => .ok ((i, t) :: rest)), h)
      refine read_bind ?_ ?_
      · rw [targetPrice, bind_ok (size_ok g3), TreeAuction.targetPrice]
        by_cases hz : c.size > 0
        · rw [if_pos hz, if_pos hz, lowestAgentValue_ok g3]
        · rw [if_neg hz, if_neg hz]; rfl
      · intro a _
        refine read_bind ih ?_
        intro b _
        rfl
    · have h1 : pyGet cats i = .error .indexError := by rw [pyGet, List.getElem?_eq_none (by omega)]
      have h2 : pyGet cs i = .error .indexError := by rw [pyGet, List.getElem?_eq_none (by have := hs.length; omega)]
      rw [h1, h2]
      rfl

theorem run_removeLosers {base : Heap} : ∀ {refs : List ℕ} {cs : List AgentCategory} {ps : List ℚ} {h : Heap}
    {pre : List ℕ} {cpre : List AgentCategory}, pre.length = cpre.length →
    Own base h (pre ++ refs) (cpre ++ cs) →
    Runs base (removeLosers refs ps h) (TreeAuction.removeLosers cs ps)
      (fun _ cs' h' => Own base h' (pre ++ refs) (cpre ++ cs')) := by
  intro refs
  induction refs with
  | nil =>
    intro cs ps h pre cpre hl own
    have hlen := own.length
    simp only [List.length_append, List.length_nil] at hlen
    cases cs with
    | cons => simp only [List.length_cons] at hlen; omega
    | nil => exact Runs.pure own.ext own
  | cons r refs ih =>
    intro cs ps h pre cpre hl own
    have hlen := own.length
    simp only [List.length_append, List.length_cons] at hlen
    cases cs with
    | nil => simp only [List.length_nil] at hlen; omega
    | cons c cs =>
      cases ps with
      | nil => exact runs_error own.ext
      | cons p ps =>
        obtain ⟨e1, e2, e3⟩ := own_mid own hl
        have hcat := own.get e1 e2
        -- the rest of the loop, after the first category has become `c'`
        have next : ∀ c' h', Own base h' (pre ++ r :: refs) (cpre ++ c' :: cs) →
            Runs base (removeLosers refs ps h') (TreeAuction.removeLosers cs ps >>= fun cs' => .ok (c' :: cs'))
              (fun _ cs' h' => Own base h' (pre ++ r :: refs) (cpre ++ cs')) := by
          intro c' h' own'
          have := ih (cs := cs) (ps := ps) (h := h') (pre := pre ++ [r]) (cpre := cpre ++ [c']) (by simp [hl]) (by simpa using own')
          obtain ⟨he, hx⟩ := this
          refine ⟨he, ?_⟩
          revert he hx
          generalize removeLosers refs ps h' = y
          generalize TreeAuction.removeLosers cs ps = q
          obtain ⟨y1, y2⟩ := y
          intro he hx
          cases y1 <;> cases q
          · exact hx
          · exact hx.elim
          · exact hx.elim
          · have hx' : Own base y2 (pre ++ [r] ++ refs) (cpre ++ [c'] ++ _) := hx
            show Own base y2 (pre ++ r :: refs) (cpre ++ c' :: _)
            simpa using hx'
        rw [removeLosers, TreeAuction.removeLosers, bind_ok (size_ok hcat)]
        by_cases hz : c.size > 0
        · rw [if_pos hz, if_pos hz]
          refine Runs.read own.ext (lowestAgentValue_ok hcat) ?_
          intro low _
          by_cases hp : low ≤ p
          · rw [if_pos hp, if_pos hp]
            refine Runs.bind (run_removeLowestAgent own e1 e2) ?_
            intro _ c' h' own' _
            rw [e3] at own'
            exact next c' h' own'
          · rw [if_neg hp, if_neg hp]
            exact next c h own
        · rw [if_neg hz, if_neg hz]
          exact next c h own

theorem run_removeLosers' {base h : Heap} {refs : List ℕ} {cs : List AgentCategory} {ps : List ℚ} (own : Own base h refs cs) :
    Runs base (removeLosers refs ps h) (TreeAuction.removeLosers cs ps) (fun _ cs' h' => Own base h' refs cs') := by
  have := run_removeLosers (base := base) (refs := refs) (cs := cs) (ps := ps) (h := h) (pre := []) (cpre := []) rfl (by simpa using own)
  simpa using this

theorem run_treeLoop {base : Heap} {refs : List ℕ} (t : RecipeTree) : ∀ (fuel : ℕ) {prices : SimultaneousAscendingPriceVectors}
    {cs : List AgentCategory} {h : Heap}, Own base h refs cs →
    Runs base (treeLoop refs t fuel prices h) (TreeAuction.loop t fuel cs prices)
      (fun a b h' => match a, b with
        | none, none => True
        | some p, some q => p = q.2 ∧ Own base h' refs q.1
        | _, _ => False) := by
  intro fuel
  induction fuel with
  | zero =>
    intro prices cs h own
    rw [treeLoop, TreeAuction.loop]
    exact Runs.pure own.ext trivial
  | succ fuel ih =>
    intro prices cs h own
    rw [treeLoop, TreeAuction.loop, bind_ok (sizes_ok own.shows), sizeAt_fun]
    simp only
    by_cases hz : (t.largestCategories (TreeAuction.sizeAt cs)).2.1 = 0
    · rw [if_pos hz, if_pos hz]
      exact Runs.pure own.ext ⟨rfl, own⟩
    · rw [if_neg hz, if_neg hz]
      refine Runs.read own.ext (increases_ok own.shows _) ?_
      intro incs _
      refine Runs.read own.ext lift_run ?_
      intro prices' _
      by_cases hst : prices'.status = some .stoppedAtZeroSum
      · rw [if_pos hst, if_pos hst]
        exact Runs.pure own.ext ⟨rfl, own⟩
      · rw [if_neg hst, if_neg hst]
        refine Runs.bind (run_removeLosers' own) ?_
        intro _ cs' h' own' _
        exact ih own'

/-- The trade object of a tree auction shows the trade. -/
def TreeTradeShows (base h : Heap) (t : TreeTrade) (t' : TreeAuction.TradeWithMultipleRecipes) : Prop :=
  Own base h t.categories t'.categories ∧ t.recipeTree = t'.recipeTree ∧ t.prices = t'.prices ∧ t.numOfDeals = t'.numOfDeals ∧
    t.kmin = t'.kmin ∧ t.kmax = t'.kmax ∧ t.gainFromTrade = t'.gainFromTrade

theorem Own.extend {base h h' : Heap} {refs : List ℕ} {cs : List AgentCategory} (own : Own base h refs cs) (e : Ext h h') :
    Own base h' refs cs := by
  have hcat : ∀ r ∈ refs, ∀ o, h'.cats[r]? = some o → h.cats[r]? = some o := by
    intro r hr o ho
    obtain ⟨i, hi, rfl⟩ := List.getElem_of_mem hr
    obtain ⟨c, o2, g1, g2, g3, g4, g5, g6⟩ := own.shows.at hi
    rw [prefix_get e.cats g4] at ho
    rw [g4, ho]
  exact ⟨own.ext.trans e, e.shows own.shows, own.nodup, fun r hr o ho => own.fresh r hr o (hcat r hr o ho),
    fun r hr r' hr' o o' ho ho' => own.inj r hr r' hr' o o' (hcat r hr o ho) (hcat r' hr' o' ho')⟩

theorem init_nodes_lt {n : ℕ} {l : List PyObj} {t : RecipeTree} (h : RecipeTree.init n l = .ok t) : ∀ i ∈ nodes t.forest, i < n := by
  by_cases hodd : l.length % 2 = 1
  · simp [RecipeTree.init, hodd] at h
  · match l, h with
    | [], h => simp [RecipeTree.init] at h
    | [_], h => simp at hodd
    | x :: y :: rest, h =>
      have he : rest.length % 2 = 0 := by simp only [List.length_cons] at hodd; omega
      exact ((init_ok he).1 h).2

theorem run_treeAuction {base h : Heap} {refs : List ℕ} {m : Market} (he : Ext base h) (hs : Shows h refs m.categories)
    (initial : List (List ℕ) → ℚ → Py (List ℚ)) (struct : List PyObj) (fuel : ℕ) :
    Runs base (treeAuction initial refs struct fuel h) (TreeAuction.auction initial m struct fuel)
      (fun a b h' => match a, b with
        | none, none => True
        | some t, some t' => TreeTradeShows base h' t t'
        | _, _ => False) := by
  rw [treeAuction, TreeAuction.auction]
  refine Runs.bind (run_clone (Own.nil he) hs) ?_
  intro rs m' h' hq he'
  obtain ⟨_, own⟩ := hq
  simp only [List.nil_append] at own
  have hlen : rs.length = m'.numCategories := own.length
  rw [hlen]
  refine Runs.read he' lift_run ?_
  intro t ht
  refine Runs.read he' lift_run ?_
  intro recipes _
  refine Runs.read he' (treeOptimalTrade_ok own.shows t) ?_
  intro _ _
  refine Runs.read he' lift_run ?_
  intro p0 _
  refine Runs.read he' lift_run ?_
  intro prices _
  refine Runs.bind (run_treeLoop t fuel own) ?_
  intro a b h3 hq3 he3
  cases a with
  | none =>
    cases b with
    | none => exact Runs.pure he3 trivial
    | some b => exact hq3.elim
  | some a =>
    cases b with
    | none => exact hq3.elim
    | some b =>
      obtain ⟨b1, b2⟩ := b
      obtain ⟨rfl, own3⟩ := hq3
      simp only
      obtain ⟨h4, g1, g2⟩ := treeGFT_run (t := t) own3.shows (by
        intro i hi
        rw [hlen]
        exact init_nodes_lt ht i hi)
      rw [newTreeTrade, bind_assoc', bind_ok (sizes_ok own3.shows)]
      simp only [bind_assoc']
      rw [bind_ok g1, sizeAt_fun]
      exact ⟨he3.trans g2, own3.extend g2, rfl, rfl, rfl, rfl, rfl, rfl⟩

/-! ### The integer tree -/

/-- Sorting a sorted list object in place changes nothing. -/
theorem sort_in_place {h : Heap} {l : ℕ} {vs : List ℚ} (hl : h.lists[l]? = some vs) (hs : SortedDesc vs) :
    writeList l (sortDesc vs) h = (.ok (), h) := by
  rw [writeList_run, sortDesc_of_sorted hs]
  obtain ⟨hi, rfl⟩ := List.getElem?_eq_some_iff.1 hl
  rw [List.set_getElem_self]

theorem integerCombinedValues_ok {h : Heap} {cats : List ℕ} {cs : List AgentCategory} (hs : Shows h cats cs)
    (hsort : ∀ c ∈ cs, SortedDesc c.values) (cnt : ℕ → ℕ) : ∀ (f : Forest), (∀ i ∈ nodes f, i < cats.length) →
    integerCombinedValues cats cnt f h = (.ok (IntegerTree.combinedValues cnt (TreeAuction.valuesAt cs) f), h) := by
  intro f
  induction f with
  | nil => intro _; rfl
  | cons i ch s ihc ihs =>
    intro hn
    obtain ⟨c, o, g1, g2, g3, g4, g5, g6⟩ := hs.at (hn i (by simp [nodes]))
    have hval : TreeAuction.valuesAt cs i = c.values := by rw [TreeAuction.valuesAt, g2]
    have hc : SortedDesc c.values := hsort c (List.mem_of_getElem? g2)
    have hlift : lift (pyGet cats i) h = (.ok (cats[i]'(hn i (by simp [nodes]))), h) := by
      rw [lift_run, pyGet_some g1]
    have hch := ihc (fun k hk => hn k (by simp only [nodes, List.mem_cons, List.mem_append]; tauto))
    have hss := ihs (fun k hk => hn k (by simp only [nodes, List.mem_cons, List.mem_append]; tauto))
    cases ch with
    | nil =>
      rw [integerCombinedValues, bind_ok hlift, bind_ok (readCat_ok g4), bind_ok (readList_ok g6), bind_ok (sort_in_place g6 hc),
        bind_ok (readList_ok g6)]
      simp only
      rw [bind_ok pure_run, bind_ok hss, IntegerTree.combinedValues, hval, sortDesc_of_sorted hc]
      rfl
    | cons j c2 s2 =>
      rw [integerCombinedValues, bind_ok hlift, bind_ok (readCat_ok g4), bind_ok (readList_ok g6), bind_ok (sort_in_place g6 hc),
        bind_ok (readList_ok g6)]
      simp only [bind_assoc']
      rw [bind_ok hch, bind_ok pure_run, bind_ok hss, IntegerTree.combinedValues, hval, sortDesc_of_sorted hc]
      rfl

theorem integerOptimalTrade_ok {h : Heap} {cats : List ℕ} {cs : List AgentCategory} (hs : Shows h cats cs)
    (hsort : ∀ c ∈ cs, SortedDesc c.values) (cnt : ℕ → ℕ) (t : RecipeTree) (ht : ∀ i ∈ nodes t.forest, i < cats.length) :
    integerOptimalTrade cats cnt t h = (.ok (IntegerTree.optimalTrade t cnt (TreeAuction.valuesAt cs)), h) := by
  have hi : t.index < cats.length := ht t.index (by simp [nodes, RecipeTree.forest])
  obtain ⟨c, o, g1, g2, g3, g4, g5, g6⟩ := hs.at hi
  have hval : TreeAuction.valuesAt cs t.index = c.values := by rw [TreeAuction.valuesAt, g2]
  have hc : SortedDesc c.values := hsort c (List.mem_of_getElem? g2)
  have hlift : lift (pyGet cats t.index) h = (.ok cats[t.index], h) := by
    rw [lift_run, pyGet_some g1]
  have hch := integerCombinedValues_ok hs hsort cnt t.children (fun k hk => ht k (by simp [nodes, RecipeTree.forest, hk]))
  have hd : integerCombinedValuesDetailed cats cnt t h
      = (.ok (IntegerTree.combinedValuesDetailed t cnt (TreeAuction.valuesAt cs)), h) := by
    rw [integerCombinedValuesDetailed, bind_ok hlift, bind_ok (readCat_ok g4), bind_ok (readList_ok g6), bind_ok (sort_in_place g6 hc),
      bind_ok (readList_ok g6), IntegerTree.combinedValuesDetailed, hval, sortDesc_of_sorted hc]
    cases hcc : t.children with
    | nil => rfl
    | cons j c2 s2 =>
      rw [hcc] at hch
      simp only
      rw [bind_ok hch]
      rfl
  rw [integerOptimalTrade, bind_ok hd]
  rfl

theorem integerGFT_ok {h : Heap} {cats : List ℕ} {cs : List AgentCategory} (hs : Shows h cats cs)
    (hsort : ∀ c ∈ cs, SortedDesc c.values) (cnt : ℕ → ℕ) (t : RecipeTree) (ht : ∀ i ∈ nodes t.forest, i < cats.length) :
    integerGFT cats cnt t h = (.ok (IntegerTree.optimalTradeGFT t cnt (TreeAuction.valuesAt cs)), h) := by
  rw [integerGFT, bind_ok (integerCombinedValues_ok hs hsort cnt t.forest ht)]
  rfl

theorem removeLosers_sorted : ∀ {cs cs' : List AgentCategory} {ps : List ℚ}, TreeAuction.removeLosers cs ps = .ok cs' →
    (∀ c ∈ cs, SortedDesc c.values) → ∀ c ∈ cs', SortedDesc c.values := by
  intro cs
  induction cs with
  | nil =>
    intro cs' ps h _
    simp only [TreeAuction.removeLosers, Except.ok.injEq] at h
    subst h
    simp
  | cons c cs ih =>
    intro cs' ps h hsort
    cases ps with
    | nil => simp [TreeAuction.removeLosers] at h
    | cons p ps =>
      have fin : ∀ c', SortedDesc c'.values → (TreeAuction.removeLosers cs ps >>= fun r => (Except.ok (c' :: r) : Py _)) = .ok cs' →
          ∀ c ∈ cs', SortedDesc c.values := by
        intro c' hc' he
        cases hr : TreeAuction.removeLosers cs ps with
        | error e => rw [hr] at he; cases he
        | ok r =>
          rw [hr] at he
          have : c' :: r = cs' := Except.ok.inj he
          subst this
          intro x hx
          rcases List.mem_cons.1 hx with rfl | hx
          · exact hc'
          · exact ih hr (fun y hy => hsort y (List.mem_cons_of_mem _ hy)) x hx
      have hc := hsort c List.mem_cons_self
      rw [TreeAuction.removeLosers] at h
      by_cases hz : c.size > 0
      · rw [if_pos hz] at h
        cases hlow : c.lowestAgentValue with
        | error e => rw [hlow] at h; cases h
        | ok low =>
          rw [hlow] at h
          change (if low ≤ p then _ else _) = _ at h
          by_cases hp : low ≤ p
          · rw [if_pos hp] at h
            cases hrem : c.removeLowestAgent with
            | error e => rw [hrem] at h; cases h
            | ok c' =>
              rw [hrem] at h
              refine fin c' ?_ h
              rw [AgentCategory.removeLowestAgent] at hrem
              cases hv : c.values with
              | nil => rw [hv] at hrem; cases hrem
              | cons v vs =>
                rw [hv] at hrem
                have := Except.ok.inj hrem
                subst this
                rw [hv] at hc
                exact Spec.SortedDesc.dropLast hc
          · rw [if_neg hp] at h
            exact fin c hc h
      · rw [if_neg hz] at h
        exact fin c hc h

theorem run_integerLoop {base : Heap} {refs : List ℕ} (cnt : ℕ → ℕ) (t : RecipeTree) : ∀ (fuel : ℕ)
    {prices : IntegerPrices.SimultaneousAscendingPriceVectors} {cs : List AgentCategory} {h : Heap}, Own base h refs cs →
    (∀ c ∈ cs, SortedDesc c.values) →
    Runs base (integerLoop refs cnt t fuel prices h) (IntegerAuction.loop cnt t fuel cs prices)
      (fun a b h' => match a, b with
        | none, none => True
        | some p, some q => p = q.2 ∧ Own base h' refs q.1 ∧ ∀ c ∈ q.1, SortedDesc c.values
        | _, _ => False) := by
  intro fuel
  induction fuel with
  | zero =>
    intro prices cs h own _
    rw [integerLoop, IntegerAuction.loop]
    exact Runs.pure own.ext trivial
  | succ fuel ih =>
    intro prices cs h own hsort
    rw [integerLoop, IntegerAuction.loop, bind_ok (sizes_ok own.shows), sizeAt_fun]
    simp only
    by_cases hz : (IntegerTree.largestCategories cnt (TreeAuction.sizeAt cs) t.forest).2.1 = 0
    · rw [if_pos hz, if_pos hz]
      exact Runs.pure own.ext ⟨rfl, own, hsort⟩
    · rw [if_neg hz, if_neg hz]
      refine Runs.read own.ext (increases_ok own.shows _) ?_
      intro incs _
      refine Runs.read own.ext lift_run ?_
      intro prices' _
      by_cases hst : prices'.status = some .stoppedAtZeroSum
      · rw [if_pos hst, if_pos hst]
        exact Runs.pure own.ext ⟨rfl, own, hsort⟩
      · rw [if_neg hst, if_neg hst]
        refine Runs.bind (Q := fun _ cs' h' => Own base h' refs cs' ∧ ∀ c ∈ cs', SortedDesc c.values) ?_ ?_
        · obtain ⟨h1, h2⟩ := run_removeLosers' (ps := prices'.prices) own
          refine ⟨h1, ?_⟩
          have hall := fun cs' => removeLosers_sorted (cs := cs) (cs' := cs') (ps := prices'.prices)
          revert h1 h2 hall
          generalize removeLosers refs prices'.prices h = y
          generalize TreeAuction.removeLosers cs prices'.prices = q
          obtain ⟨y1, y2⟩ := y
          intro h1 h2 hall
          cases y1 <;> cases q
          · exact h2
          · exact h2.elim
          · exact h2.elim
          · exact ⟨h2, hall _ rfl hsort⟩
        · intro _ cs' h' hq _
          exact ih hq.1 hq.2

theorem clone_sorted {m m' : Market} (h : m.clone = .ok m') : ∀ c ∈ m'.categories, SortedDesc c.values := by
  have : m'.categories = m.categories.map AgentCategory.clone := by
    rw [Market.clone] at h
    cases hm : m.categories with
    | nil => rw [hm] at h; cases h
    | cons c cs =>
      rw [hm] at h
      have := Except.ok.inj h
      subst this
      rfl
  rw [this]
  intro c hc
  obtain ⟨x, _, rfl⟩ := List.mem_map.1 hc
  exact sortDesc_sorted _

theorem run_integerAuction {base h : Heap} {refs : List ℕ} {m : Market} (he : Ext base h) (hs : Shows h refs m.categories)
    (struct : List PyObj) (agentCounts : List ℕ) (fuel : ℕ) :
    Runs base (integerAuction refs struct agentCounts fuel h) (IntegerAuction.auction m struct agentCounts fuel)
      (fun a b h' => match a, b with
        | none, none => True
        | some t, some t' => TreeTradeShows base h' t t'
        | _, _ => False) := by
  rw [integerAuction, IntegerAuction.auction]
  refine Runs.bind (Q := fun rs m' h' => Own base h' rs m'.categories ∧ ∀ c ∈ m'.categories, SortedDesc c.values) ?_ ?_
  · obtain ⟨h1, h2⟩ := run_clone (Own.nil he) hs
    refine ⟨h1, ?_⟩
    have hall := fun m' => clone_sorted (m := m) (m' := m')
    revert h1 h2 hall
    generalize clone refs h = y
    generalize m.clone = q
    obtain ⟨y1, y2⟩ := y
    intro h1 h2 hall
    cases y1 <;> cases q
    · exact h2
    · exact h2.elim
    · exact h2.elim
    · exact ⟨by simpa using h2.2, hall _ rfl⟩
  · rintro rs m' h' ⟨own, hsort⟩ he'
    have hlen : rs.length = m'.numCategories := own.length
    rw [hlen]
    refine Runs.read he' lift_run ?_
    intro t ht
    have hnodes : ∀ i ∈ nodes t.forest, i < rs.length := by
      intro i hi
      have := init_nodes_lt (n := if agentCounts = [] then m'.numCategories else min m'.numCategories agentCounts.length) (l := struct) ht i hi
      rw [hlen]
      split at this <;> omega
    refine Runs.read he' lift_run ?_
    intro recipes _
    rw [bind_ok (integerOptimalTrade_ok own.shows hsort _ t hnodes)]
    refine Runs.read he' lift_run ?_
    intro prices _
    refine Runs.bind (run_integerLoop _ t fuel own hsort) ?_
    intro a b h3 hq3 he3
    cases a with
    | none =>
      cases b with
      | none => exact Runs.pure he3 trivial
      | some b => exact hq3.elim
    | some a =>
      cases b with
      | none => exact hq3.elim
      | some b =>
        obtain ⟨b1, b2⟩ := b
        obtain ⟨rfl, own3, hsort3⟩ := hq3
        simp only
        rw [newIntegerTrade, bind_assoc', bind_ok (sizes_ok own3.shows)]
        simp only [bind_assoc']
        rw [bind_ok (integerGFT_ok own3.shows hsort3 _ t hnodes), sizeAt_fun]
        exact ⟨he3, own3, rfl, rfl, rfl, rfl, rfl, rfl⟩

end Auctions.Heap
