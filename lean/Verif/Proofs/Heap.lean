import Verif.Spec.Heap
import Mathlib.Data.List.Forall2
import Mathlib.Data.List.Basic

set_option autoImplicit false

/-!
# The protocols with objects: separation and simulation
-/

namespace Auctions.Heap

open Auctions

/-- Every object of `base` is still there, unchanged. -/
structure Ext (base h : Heap) : Prop where
  lists : base.lists <+: h.lists
  cats : base.cats <+: h.cats

theorem Ext.refl (h : Heap) : Ext h h := ⟨List.prefix_refl _, List.prefix_refl _⟩

theorem Ext.trans {a b c : Heap} (h1 : Ext a b) (h2 : Ext b c) : Ext a c := ⟨h1.1.trans h2.1, h1.2.trans h2.2⟩

theorem prefix_get {α : Type} {l l' : List α} (h : l <+: l') {i : ℕ} {x : α} (hx : l[i]? = some x) : l'[i]? = some x := by
  obtain ⟨t, rfl⟩ := h
  rw [List.getElem?_append_left]
  · exact hx
  · exact (List.getElem?_eq_some_iff.1 hx).1

theorem category_some {h : Heap} {r : ℕ} {c : AgentCategory} :
    category h r = some c ↔ ∃ o, h.cats[r]? = some o ∧ o.name = c.name ∧ h.lists[o.values]? = some c.values := by
  unfold category
  cases hc : h.cats[r]? with
  | none => simp
  | some o =>
    cases hl : h.lists[o.values]? with
    | none => simp [hl]
    | some vs =>
      obtain ⟨n, cv⟩ := c
      simp [hl]

theorem Ext.category {base h : Heap} (e : Ext base h) {r : ℕ} {c : AgentCategory} (hc : category base r = some c) :
    category h r = some c := by
  rw [category_some] at hc ⊢
  obtain ⟨o, h1, h2, h3⟩ := hc
  exact ⟨o, prefix_get e.cats h1, h2, prefix_get e.lists h3⟩

theorem Ext.unchanged {base h : Heap} (e : Ext base h) : Unchanged base h := fun _ _ hc => e.category hc

theorem Ext.shows {base h : Heap} (e : Ext base h) {refs : List ℕ} {cs : List AgentCategory} (hs : Shows base refs cs) : Shows h refs cs :=
  hs.imp (fun _ _ hc => e.category hc)

/-- The objects `refs`, which show `cs`, were created after `base` and share nothing; `base` is unchanged. -/
structure Own (base h : Heap) (refs : List ℕ) (cs : List AgentCategory) : Prop where
  ext : Ext base h
  shows : Shows h refs cs
  nodup : refs.Nodup
  fresh : ∀ r ∈ refs, ∀ o, h.cats[r]? = some o → base.lists.length ≤ o.values
  inj : ∀ r ∈ refs, ∀ r' ∈ refs, ∀ o o', h.cats[r]? = some o → h.cats[r']? = some o' → o.values = o'.values → r = r'

theorem Own.nil {base h : Heap} (e : Ext base h) : Own base h [] [] :=
  ⟨e, List.Forall₂.nil, List.nodup_nil, by simp, by simp⟩

theorem prefix_set {α : Type} {l l' : List α} (h : l <+: l') {i : ℕ} (hi : l.length ≤ i) (x : α) : l <+: l'.set i x := by
  obtain ⟨t, rfl⟩ := h
  rw [List.set_append_right _ _ hi]
  exact List.prefix_append _ _

/-- The run `x` keeps `base`, and ends like `p`. -/
def Runs {α β : Type} (base : Heap) (x : Py α × Heap) (p : Py β) (Q : α → β → Heap → Prop) : Prop := Ext base x.2 ∧ Ends x p Q

theorem Runs.bind {α β γ δ : Type} {base h : Heap} {x : HPy α} {p : Py β} {Q : α → β → Heap → Prop} {f : α → HPy γ} {g : β → Py δ}
    {Q' : γ → δ → Heap → Prop} (hx : Runs base (x h) p Q) (hf : ∀ a b h', Q a b h' → Ext base h' → Runs base (f a h') (g b) Q') :
    Runs base ((x >>= f) h) (p >>= g) Q' := by
  obtain ⟨he, hx⟩ := hx
  show Runs base (match x h with
    | (.ok a, h') => f a h'
    | (.error e, h') => (.error e, h')) (p >>= g) Q'
  revert he hx
  generalize x h = y
  obtain ⟨r, h'⟩ := y
  intro he hx
  cases r with
  | error e =>
    cases p with
    | error e' => exact ⟨he, hx⟩
    | ok b => exact hx.elim
  | ok a =>
    cases p with
    | error e' => exact hx.elim
    | ok b => exact hf a b h' hx he

/-- A step that has no counterpart in the program without objects. -/
theorem Runs.step {α γ δ : Type} {base h : Heap} {x : HPy α} {Q : α → Unit → Heap → Prop} {f : α → HPy γ} {g : Py δ}
    {Q' : γ → δ → Heap → Prop} (hx : Runs base (x h) (.ok () : Py Unit) Q)
    (hf : ∀ a h', Q a () h' → Ext base h' → Runs base (f a h') g Q') : Runs base ((x >>= f) h) g Q' :=
  Runs.bind (g := fun _ => g) hx (fun a _ h' hq he => hf a h' hq he)

theorem Runs.pure {α β : Type} {base h : Heap} {a : α} {b : β} {Q : α → β → Heap → Prop} (he : Ext base h) (hq : Q a b h) :
    Runs base ((Pure.pure a : HPy α) h) (.ok b) Q := ⟨he, hq⟩

theorem Runs.lift {α : Type} {base h : Heap} {p : Py α} (he : Ext base h) : Runs base (Heap.lift p h) p (fun a b h' => a = b ∧ h' = h) := by
  refine ⟨he, ?_⟩
  cases p with
  | error e => rfl
  | ok a => exact ⟨rfl, rfl⟩

theorem Runs.mono {α β : Type} {base : Heap} {x : Py α × Heap} {p : Py β} {Q Q' : α → β → Heap → Prop} (hx : Runs base x p Q)
    (hq : ∀ a b h, Q a b h → Q' a b h) : Runs base x p Q' := by
  obtain ⟨he, hx⟩ := hx
  refine ⟨he, ?_⟩
  obtain ⟨r, h'⟩ := x
  cases r <;> cases p
  · exact hx
  · exact hx.elim
  · exact hx.elim
  · exact hq _ _ _ hx

theorem runs_error {α β : Type} {base h : Heap} {e : PyErr} {Q : α → β → Heap → Prop} (he : Ext base h) :
    Runs base ((Heap.lift (.error e) : HPy α) h) (.error e) Q := ⟨he, rfl⟩

/-! ### Reading -/

theorem pyGet_some {α : Type} {l : List α} {i : ℕ} {x : α} (h : l[i]? = some x) : pyGet l i = .ok x := by
  rw [pyGet, h]

theorem bind_ok {α β : Type} {x : HPy α} {f : α → HPy β} {h h' : Heap} {a : α} (hx : x h = (.ok a, h')) : (x >>= f) h = f a h' := by
  show (match x h with
    | (.ok a, h') => f a h'
    | (.error e, h') => (.error e, h')) = _
  rw [hx]

theorem readCat_ok {h : Heap} {r : ℕ} {o : CatObj} (ho : h.cats[r]? = some o) : readCat r h = (.ok o, h) := by
  rw [readCat, pyGet_some ho]

theorem readList_ok {h : Heap} {l : ℕ} {vs : List ℚ} (ho : h.lists[l]? = some vs) : readList l h = (.ok vs, h) := by
  rw [readList, pyGet_some ho]

theorem values_ok {h : Heap} {r : ℕ} {c : AgentCategory} (hc : category h r = some c) : values r h = (.ok c.values, h) := by
  obtain ⟨o, h1, h2, h3⟩ := category_some.1 hc
  rw [values, bind_ok (readCat_ok h1), readList_ok h3]

theorem size_ok {h : Heap} {r : ℕ} {c : AgentCategory} (hc : category h r = some c) : size r h = (.ok c.size, h) := by
  rw [size, bind_ok (values_ok hc)]; rfl

/-! ### Changing one object -/

theorem own_set {base h : Heap} {refs : List ℕ} {cs : List AgentCategory} (own : Own base h refs cs) {i r : ℕ} {o : CatObj}
    (hr : refs[i]? = some r) (ho : h.cats[r]? = some o) (vs : List ℚ) :
    Own base { h with lists := h.lists.set o.values vs } refs (cs.set i ⟨o.name, vs⟩) := by
  have hmem : r ∈ refs := List.mem_of_getElem? hr
  refine ⟨⟨prefix_set own.ext.lists (own.fresh r hmem o ho) vs, own.ext.cats⟩, ?_, own.nodup, own.fresh, own.inj⟩
  have hs := own.shows
  rw [Shows, List.forall₂_iff_get] at hs ⊢
  obtain ⟨hlen, hs⟩ := hs
  refine ⟨by simpa using hlen, ?_⟩
  intro j hj hj'
  have hjc : j < cs.length := by simpa using hj'
  have hold := hs j hj hjc
  simp only [List.get_eq_getElem] at hold ⊢
  obtain ⟨hi, hri⟩ := List.getElem?_eq_some_iff.1 hr
  by_cases hji : j = i
  · subst hji
    rw [List.getElem_set_self]
    have : refs[j] = r := hri
    rw [this] at hold ⊢
    obtain ⟨o', h1, h2, h3⟩ := category_some.1 hold
    have : o' = o := by rw [ho] at h1; exact (Option.some.inj h1).symm
    subst this
    rw [category_some]
    refine ⟨o', ho, rfl, ?_⟩
    simp only
    rw [List.getElem?_set_self]
    exact (List.getElem?_eq_some_iff.1 h3).1
  · rw [List.getElem_set_of_ne (fun e => hji e.symm)]
    obtain ⟨o', h1, h2, h3⟩ := category_some.1 hold
    rw [category_some]
    refine ⟨o', h1, h2, ?_⟩
    simp only
    rw [List.getElem?_set_ne]
    · exact h3
    · intro heq
      have : r = refs[j] := own.inj r hmem refs[j] (List.getElem_mem hj) o o' ho h1 heq
      have hij : i = j := by
        have hnd := own.nodup
        apply (List.Nodup.getElem_inj_iff hnd).1
        rw [hri, this]
      exact hji hij.symm

/-- A category object that is not among the owned ones, but is one of the old ones, or any other: reading is enough. -/
theorem Own.get {base h : Heap} {refs : List ℕ} {cs : List AgentCategory} (own : Own base h refs cs) {i r : ℕ} {c : AgentCategory}
    (hr : refs[i]? = some r) (hc : cs[i]? = some c) : category h r = some c := by
  have hs := own.shows
  rw [Shows, List.forall₂_iff_get] at hs
  obtain ⟨hi, hri⟩ := List.getElem?_eq_some_iff.1 hr
  obtain ⟨hi', hci⟩ := List.getElem?_eq_some_iff.1 hc
  have := hs.2 i hi hi'
  simp only [List.get_eq_getElem, hri, hci] at this
  exact this

theorem Shows.length {h : Heap} {refs : List ℕ} {cs : List AgentCategory} (hs : Shows h refs cs) : refs.length = cs.length :=
  List.Forall₂.length_eq hs

theorem Own.length {base h : Heap} {refs : List ℕ} {cs : List AgentCategory} (own : Own base h refs cs) : refs.length = cs.length :=
  own.shows.length

theorem Own.obj {base h : Heap} {refs : List ℕ} {cs : List AgentCategory} (own : Own base h refs cs) {i r : ℕ} {c : AgentCategory}
    (hr : refs[i]? = some r) (hc : cs[i]? = some c) :
    ∃ o, h.cats[r]? = some o ∧ o.name = c.name ∧ h.lists[o.values]? = some c.values := category_some.1 (own.get hr hc)

theorem writeList_run {h : Heap} {l : ℕ} {vs : List ℚ} : writeList l vs h = (.ok (), { h with lists := h.lists.set l vs }) := rfl

theorem run_append {base h : Heap} {refs : List ℕ} {cs : List AgentCategory} (own : Own base h refs cs) {i r : ℕ} {c : AgentCategory}
    (hr : refs[i]? = some r) (hc : cs[i]? = some c) (v : ℚ) :
    ∃ h', append r v h = (.ok (), h') ∧ Own base h' refs (cs.set i (c.append v)) := by
  obtain ⟨o, h1, h2, h3⟩ := own.obj hr hc
  have x := own_set own hr h1 (sortDesc (c.values ++ [v]))
  rw [h2] at x
  refine ⟨_, ?_, x⟩
  rw [append, bind_ok (readCat_ok h1), bind_ok (readList_ok h3), bind_ok writeList_run, writeList_run]
  simp

theorem run_removeHighestAgents {base : Heap} {refs : List ℕ} {i r : ℕ} (hr : refs[i]? = some r) (n : ℕ) :
    ∀ {h : Heap} {cs : List AgentCategory} {c : AgentCategory}, Own base h refs cs → cs[i]? = some c →
      Runs base (removeHighestAgents r n h) (c.removeHighestAgents n) (fun _ c' h' => Own base h' refs (cs.set i c')) := by
  induction n with
  | zero =>
    intro h cs c own hc
    rw [removeHighestAgents, AgentCategory.removeHighestAgents]
    refine Runs.pure own.ext ?_
    obtain ⟨hi, hci⟩ := List.getElem?_eq_some_iff.1 hc
    rw [← hci, List.set_getElem_self]
    exact own
  | succ n ih =>
    intro h cs c own hc
    rw [removeHighestAgents, AgentCategory.removeHighestAgents]
    refine Runs.bind (Q := fun _ c' h' => Own base h' refs (cs.set i c')) ?_ ?_
    · obtain ⟨o, h1, h2, h3⟩ := own.obj hr hc
      rw [removeHighestAgent, bind_ok (readCat_ok h1), bind_ok (readList_ok h3), AgentCategory.removeHighestAgent]
      cases hv : c.values with
      | nil => exact runs_error own.ext
      | cons v vs =>
        have := own_set own hr h1 vs
        refine ⟨this.ext, ?_⟩
        show Own base _ refs _
        rw [h2] at this
        exact this
    · intro _ c' h' own' _
      have hi := (List.getElem?_eq_some_iff.1 hc).1
      refine (ih own' (c := c') ?_).mono ?_
      · rw [List.getElem?_set_self hi]
      · intro _ c'' h'' own''
        rw [List.set_set] at own''
        exact own''

theorem run_removeLowestAgent {base h : Heap} {refs : List ℕ} {cs : List AgentCategory} (own : Own base h refs cs) {i r : ℕ}
    {c : AgentCategory} (hr : refs[i]? = some r) (hc : cs[i]? = some c) :
    Runs base (removeLowestAgent r h) c.removeLowestAgent (fun _ c' h' => Own base h' refs (cs.set i c')) := by
  obtain ⟨o, h1, h2, h3⟩ := own.obj hr hc
  rw [removeLowestAgent, bind_ok (readCat_ok h1), bind_ok (readList_ok h3), AgentCategory.removeLowestAgent]
  cases hv : c.values with
  | nil => exact runs_error own.ext
  | cons v vs =>
    have := own_set own hr h1 (v :: vs).dropLast
    refine ⟨this.ext, ?_⟩
    show Own base _ refs _
    rw [h2] at this
    exact this

theorem run_lowestAgentValue {base h : Heap} {r : ℕ} {c : AgentCategory} (he : Ext base h) (hc : category h r = some c) :
    Runs base (lowestAgentValue r h) c.lowestAgentValue (fun a b h' => a = b ∧ h' = h) := by
  rw [lowestAgentValue, bind_ok (values_ok hc), AgentCategory.lowestAgentValue]
  cases hv : c.values.getLast? with
  | none => exact runs_error he
  | some v => exact Runs.pure he ⟨rfl, rfl⟩

theorem run_highestAgentValue {base h : Heap} {r : ℕ} {c : AgentCategory} (he : Ext base h) (hc : category h r = some c) :
    Runs base (highestAgentValue r h) c.highestAgentValue (fun a b h' => a = b ∧ h' = h) := by
  rw [highestAgentValue, bind_ok (values_ok hc), AgentCategory.highestAgentValue]
  cases hv : c.values with
  | nil => exact runs_error he
  | cons v vs => exact Runs.pure he ⟨rfl, rfl⟩

/-! ### New objects -/

theorem prefix_append_right {α : Type} {l l' : List α} (h : l <+: l') (x : List α) : l <+: l' ++ x := h.trans (List.prefix_append _ _)

theorem prefix_length {α : Type} {l l' : List α} (h : l <+: l') : l.length ≤ l'.length := List.IsPrefix.length_le h

/-- A new category with a new list, whose contents are `vs`. -/
theorem own_new {base h : Heap} {refs : List ℕ} {cs : List AgentCategory} (own : Own base h refs cs) (name : String) (vs : List ℚ) :
    Own base { lists := h.lists ++ [vs], cats := h.cats ++ [⟨name, h.lists.length⟩] } (refs ++ [h.cats.length]) (cs ++ [⟨name, vs⟩]) := by
  have e : Ext h { lists := h.lists ++ [vs], cats := h.cats ++ [⟨name, h.lists.length⟩] } :=
    ⟨List.prefix_append _ _, List.prefix_append _ _⟩
  have hold : ∀ r ∈ refs, ∃ o, h.cats[r]? = some o ∧ o.values < h.lists.length := by
    intro r hr
    obtain ⟨i, hi, rfl⟩ := List.getElem_of_mem hr
    have hi' : i < cs.length := own.length ▸ hi
    obtain ⟨o, h1, h2, h3⟩ := own.obj (List.getElem?_eq_getElem hi) (List.getElem?_eq_getElem hi')
    exact ⟨o, h1, (List.getElem?_eq_some_iff.1 h3).1⟩
  have hlt : ∀ r ∈ refs, r < h.cats.length := by
    intro r hr
    obtain ⟨o, h1, _⟩ := hold r hr
    exact (List.getElem?_eq_some_iff.1 h1).1
  have hcat : ∀ r ∈ refs, ∀ o, (h.cats ++ [(⟨name, h.lists.length⟩ : CatObj)])[r]? = some o → h.cats[r]? = some o := by
    intro r hr o ho
    rwa [List.getElem?_append_left (hlt r hr)] at ho
  have hnew : (h.cats ++ [(⟨name, h.lists.length⟩ : CatObj)])[h.cats.length]? = some ⟨name, h.lists.length⟩ := by simp
  refine ⟨own.ext.trans e, ?_, ?_, ?_, ?_⟩
  · refine List.rel_append (e.shows own.shows) (List.Forall₂.cons ?_ List.Forall₂.nil)
    rw [category_some]
    exact ⟨_, hnew, rfl, by simp⟩
  · rw [List.nodup_append]
    refine ⟨own.nodup, List.nodup_singleton _, ?_⟩
    intro a ha b hb
    have := hlt a ha
    simp only [List.mem_singleton] at hb
    omega
  · intro r hr o ho
    rcases List.mem_append.1 hr with hr | hr
    · exact own.fresh r hr o (hcat r hr o ho)
    · rw [List.mem_singleton] at hr
      subst hr
      simp only [hnew, Option.some.injEq] at ho
      subst ho
      exact prefix_length own.ext.lists
  · intro r hr r' hr' o o' ho ho' heq
    rcases List.mem_append.1 hr with hr | hr <;> rcases List.mem_append.1 hr' with hr' | hr'
    · exact own.inj r hr r' hr' o o' (hcat r hr o ho) (hcat r' hr' o' ho') heq
    · rw [List.mem_singleton] at hr'
      subst hr'
      simp only [hnew, Option.some.injEq] at ho'
      subst ho'
      obtain ⟨o2, h1, h2⟩ := hold r hr
      rw [hcat r hr o ho] at h1
      simp only [Option.some.injEq] at h1
      subst h1
      simp only at heq
      omega
    · rw [List.mem_singleton] at hr
      subst hr
      simp only [hnew, Option.some.injEq] at ho
      subst ho
      obtain ⟨o2, h1, h2⟩ := hold r' hr'
      rw [hcat r' hr' o' ho'] at h1
      simp only [Option.some.injEq] at h1
      subst h1
      simp only at heq
      omega
    · rw [List.mem_singleton] at hr hr'
      rw [hr, hr']

theorem Own.ext_lists {base h : Heap} {refs : List ℕ} {cs : List AgentCategory} (own : Own base h refs cs) (vs : List ℚ) :
    Own base { h with lists := h.lists ++ [vs] } refs cs := by
  have e : Ext h { h with lists := h.lists ++ [vs] } := ⟨List.prefix_append _ _, List.prefix_refl _⟩
  exact ⟨own.ext.trans e, e.shows own.shows, own.nodup, own.fresh, own.inj⟩

theorem run_initCat {base h : Heap} {refs : List ℕ} {cs : List AgentCategory} (own : Own base h refs cs) (name : String) {l : ℕ}
    {vs : List ℚ} (hl : h.lists[l]? = some vs) :
    ∃ r h', initCat name l h = (.ok r, h') ∧ Ext h h' ∧ Own base h' (refs ++ [r]) (cs ++ [AgentCategory.init name vs]) := by
  refine ⟨_, _, ?_, ?_, own_new own name (sortDesc vs)⟩
  · rw [initCat, bind_ok (readList_ok hl)]
    show ((newList vs >>= fun l' => writeList l' (sortDesc vs) >>= fun _ => newCat ⟨name, l'⟩) h) = _
    rw [bind_ok (show newList vs h = (.ok h.lists.length, { h with lists := h.lists ++ [vs] }) from rfl), bind_ok writeList_run]
    show (Except.ok h.cats.length, _) = (Except.ok h.cats.length, _)
    congr 2
    simp
  · exact ⟨List.prefix_append _ _, List.prefix_append _ _⟩

/-- Cloning objects that exist at the moment. -/
theorem run_cloneCats {base : Heap} : ∀ {srcs : List ℕ} {scs : List AgentCategory} {h : Heap} {refs : List ℕ} {cs : List AgentCategory},
    Own base h refs cs → Shows h srcs scs →
    ∃ rs h', cloneCats srcs h = (.ok rs, h') ∧ Ext h h' ∧ Own base h' (refs ++ rs) (cs ++ scs.map AgentCategory.clone) := by
  intro srcs
  induction srcs with
  | nil =>
    intro scs h refs cs own hs
    cases hs
    exact ⟨[], h, rfl, Ext.refl h, by simpa using own⟩
  | cons r srcs ih =>
    intro scs h refs cs own hs
    cases hs with
    | cons h1 h2 =>
      rename_i c scs
      obtain ⟨o, g1, g2, g3⟩ := category_some.1 h1
      obtain ⟨r', h', e1, e2, own'⟩ := run_initCat own o.name g3
      obtain ⟨rs, h'', e3, e4, own''⟩ := ih own' (e2.shows h2)
      refine ⟨r' :: rs, h'', ?_, e2.trans e4, ?_⟩
      · rw [cloneCats, bind_ok (show cloneCat r h = (.ok r', h') by rw [cloneCat, bind_ok (readCat_ok g1), e1]), bind_ok e3]
        rfl
      · rw [g2] at own''
        simpa [AgentCategory.clone, List.append_assoc] using own''

theorem run_clone {base h : Heap} {refs srcs : List ℕ} {cs : List AgentCategory} {m : Market} (own : Own base h refs cs)
    (hs : Shows h srcs m.categories) :
    Runs base (clone srcs h) m.clone (fun rs m' h' => Ext h h' ∧ Own base h' (refs ++ rs) (cs ++ m'.categories)) := by
  obtain ⟨rs, h', e1, e2, own'⟩ := run_cloneCats own hs
  rw [clone, bind_ok e1, Market.clone]
  have hl := own'.length
  have hl' := own.length
  simp only [List.length_append, List.length_map] at hl
  cases hr : rs with
  | nil =>
    have : m.categories = [] := by
      apply List.eq_nil_of_length_eq_zero
      rw [hr] at hl
      simp only [List.length_nil] at hl
      omega
    rw [this]
    exact runs_error (e := .valueError) own'.ext
  | cons r rs' =>
    cases hm : m.categories with
    | nil => rw [hr, hm] at hl; simp only [List.length_cons, List.length_nil] at hl; omega
    | cons c cs' =>
      refine Runs.pure own'.ext ⟨e2, ?_⟩
      rw [hr, hm] at own'
      exact own'

theorem run_empty {base : Heap} : ∀ {srcs : List ℕ} {scs : List AgentCategory} {h : Heap} {refs : List ℕ} {cs : List AgentCategory},
    Own base h refs cs → Shows h srcs scs →
    ∃ rs h', emptyAgentCategories srcs h = (.ok rs, h') ∧ Ext h h' ∧
      Own base h' (refs ++ rs) (cs ++ scs.map (fun c => AgentCategory.init c.name [])) := by
  intro srcs
  induction srcs with
  | nil =>
    intro scs h refs cs own hs
    cases hs
    exact ⟨[], h, rfl, Ext.refl h, by simpa using own⟩
  | cons r srcs ih =>
    intro scs h refs cs own hs
    cases hs with
    | cons h1 h2 =>
      rename_i c scs
      obtain ⟨o, g1, g2, g3⟩ := category_some.1 h1
      have own1 := own.ext_lists []
      have e0 : Ext h { h with lists := h.lists ++ [[]] } := ⟨List.prefix_append _ _, List.prefix_refl _⟩
      obtain ⟨r', h', e1, e2, own'⟩ := run_initCat own1 o.name (l := h.lists.length) (vs := []) (by simp)
      obtain ⟨rs, h'', e3, e4, own''⟩ := ih own' ((e0.trans e2).shows h2)
      refine ⟨r' :: rs, h'', ?_, (e0.trans e2).trans e4, ?_⟩
      · rw [emptyAgentCategories, bind_ok (readCat_ok g1),
          bind_ok (show newList [] h = (.ok h.lists.length, { h with lists := h.lists ++ [[]] }) from rfl), bind_ok e1, bind_ok e3]
        rfl
      · rw [g2] at own''
        simpa [List.append_assoc] using own''

end Auctions.Heap
