import Verif.Proofs.StartPricesRun

set_option autoImplicit false

/-! # Helper lemmas: forests with the same paths up to a renumbering of the categories -/

namespace Auctions.SameTree

open Auctions Spec

/-! ## Renumbering -/

/-- The forest with other category numbers. -/
def rename (σ : ℕ → ℕ) : Forest → Forest
  | .nil => .nil
  | .cons i ch s => .cons (σ i) (rename σ ch) (rename σ s)

variable {σ : ℕ → ℕ}

theorem rename_nil {f : Forest} : rename σ f = .nil ↔ f = .nil := by cases f <;> simp [rename]

theorem nodes_rename (f : Forest) : nodes (rename σ f) = (nodes f).map σ := by
  induction f with
  | nil => rfl
  | cons i ch s ih1 ih2 => simp [rename, nodes, ih1, ih2]

theorem isPath_rename {f : Forest} {q : List ℕ} : IsPath (rename σ f) q ↔ ∃ p, IsPath f p ∧ q = p.map σ := by
  induction f generalizing q with
  | nil => 
    constructor
    · intro h; exact absurd h isPath_nil
    · rintro ⟨p, h, -⟩; exact absurd h isPath_nil
  | cons i ch s ih1 ih2 =>
    rw [rename, isPath_cons]
    constructor
    · rintro (⟨h1, rfl⟩ | ⟨q', rfl, h⟩ | h)
      · exact ⟨[i], isPath_cons.2 (Or.inl ⟨rename_nil.1 h1, rfl⟩), rfl⟩
      · obtain ⟨p, hp, rfl⟩ := ih1.1 h
        exact ⟨i :: p, isPath_cons.2 (Or.inr (Or.inl ⟨p, rfl, hp⟩)), rfl⟩
      · obtain ⟨p, hp, rfl⟩ := ih2.1 h
        exact ⟨p, isPath_cons.2 (Or.inr (Or.inr hp)), rfl⟩
    · rintro ⟨p, hp, rfl⟩
      rw [isPath_cons] at hp
      rcases hp with ⟨h1, rfl⟩ | ⟨p', rfl, h⟩ | h
      · exact Or.inl ⟨rename_nil.2 h1, rfl⟩
      · exact Or.inr (Or.inl ⟨p'.map σ, rfl, ih1.2 ⟨p', h, rfl⟩⟩)
      · exact Or.inr (Or.inr (ih2.2 ⟨p, h, rfl⟩))

theorem roots_rename (size : ℕ → ℕ) (f : Forest) : (rename σ f).rootSizes size = f.rootSizes (fun i => size (σ i)) := by
  induction f with
  | nil => rfl
  | cons i ch s _ ih2 => rw [rename, Forest.rootSizes, Forest.rootSizes, ih2]

theorem largest_rename (size : ℕ → ℕ) (f : Forest) :
    ((rename σ f).largestCategories size).2.2 = (f.largestCategories (fun i => size (σ i))).2.2.map σ := by
  induction f with
  | nil => rfl
  | cons i ch s ih1 ih2 =>
    rw [rename, Forest.largestCategories, Forest.largestCategories]
    dsimp only
    rw [roots_rename]
    split <;> simp [ih1, ih2]

/-- The entry of a tree in `numOfDealsExplained`. -/
def entry (size : ℕ → ℕ) (i : ℕ) (ch : Forest) : ℕ × ℕ × ℕ :=
  if ch = .nil then (size i, size i, size i)
  else (min ((ch.numOfDealsExplained size).map (·.1)).sum (size i), ((ch.numOfDealsExplained size).map (·.2.1)).min?.getD 0,
    ((ch.numOfDealsExplained size).map (·.2.2)).max?.getD 0)

theorem explained_cons (size : ℕ → ℕ) (i : ℕ) (ch s : Forest) : (Forest.cons i ch s).numOfDealsExplained size = entry size i ch :: s.numOfDealsExplained size := by
  cases ch with
  | nil => simp [Forest.numOfDealsExplained, entry]
  | cons j a b => rw [Forest.numOfDealsExplained]; simp [entry]

theorem explained_rename (size : ℕ → ℕ) (f : Forest) :
    (rename σ f).numOfDealsExplained size = f.numOfDealsExplained (fun i => size (σ i)) := by
  induction f with
  | nil => rfl
  | cons i ch s ih1 ih2 =>
    rw [rename, explained_cons, explained_cons, ih2]
    congr 1
    unfold entry
    rw [ih1]
    simp only [rename_nil]

/-! ## Another order of the trees -/

/-- The forests have the same trees, in different orders, at all levels. -/
inductive Shuffled : Forest → Forest → Prop
  | nil : Shuffled .nil .nil
  | cons {i : ℕ} {ch ch' s s' : Forest} : Shuffled ch ch' → Shuffled s s' → Shuffled (.cons i ch s) (.cons i ch' s')
  | swap (i j : ℕ) (a b s : Forest) : Shuffled (.cons i a (.cons j b s)) (.cons j b (.cons i a s))
  | trans {f g h : Forest} : Shuffled f g → Shuffled g h → Shuffled f h

theorem Shuffled.refl (f : Forest) : Shuffled f f := by
  induction f with
  | nil => exact .nil
  | cons i ch s ih1 ih2 => exact .cons ih1 ih2

variable {f g : Forest}

theorem Shuffled.symm (h : Shuffled f g) : Shuffled g f := by
  induction h with
  | nil => exact .nil
  | cons _ _ ih1 ih2 => exact .cons ih1 ih2
  | swap i j a b s => exact .swap j i b a s
  | trans _ _ ih1 ih2 => exact .trans ih2 ih1

theorem Shuffled.eq_nil (h : Shuffled f g) : f = .nil ↔ g = .nil := by
  induction h with
  | nil => rfl
  | cons _ _ _ _ => simp
  | swap i j a b s => simp
  | trans _ _ ih1 ih2 => exact ih1.trans ih2

theorem Shuffled.nodes (h : Shuffled f g) : (nodes f).Perm (nodes g) := by
  induction h with
  | nil => exact .nil
  | cons _ _ ih1 ih2 => simp only [Spec.nodes]; exact (ih1.append ih2).cons _
  | swap i j a b s =>
    rw [List.perm_iff_count]
    intro x
    simp only [Spec.nodes, List.count_cons, List.count_append]
    omega
  | trans _ _ ih1 ih2 => exact ih1.trans ih2

theorem Shuffled.path (h : Shuffled f g) {p : List ℕ} (hp : IsPath f p) : IsPath g p := by
  induction h generalizing p with
  | nil => exact hp
  | cons h1 _ ih1 ih2 =>
    rw [isPath_cons] at hp ⊢
    rcases hp with ⟨a, rfl⟩ | ⟨q, rfl, a⟩ | a
    · exact Or.inl ⟨h1.eq_nil.1 a, rfl⟩
    · exact Or.inr (Or.inl ⟨q, rfl, ih1 a⟩)
    · exact Or.inr (Or.inr (ih2 a))
  | swap i j a b s =>
    simp only [isPath_cons] at hp ⊢
    rcases hp with h | h | h | h | h
    · exact Or.inr (Or.inr (Or.inl h))
    · exact Or.inr (Or.inr (Or.inr (Or.inl h)))
    · exact Or.inl h
    · exact Or.inr (Or.inl h)
    · exact Or.inr (Or.inr (Or.inr (Or.inr h)))
  | trans _ _ ih1 ih2 => exact ih2 (ih1 hp)

theorem Shuffled.roots (h : Shuffled f g) (size : ℕ → ℕ) : f.rootSizes size = g.rootSizes size := by
  induction h with
  | nil => rfl
  | cons _ _ _ ih2 => rw [Forest.rootSizes, Forest.rootSizes, ih2]
  | swap i j a b s => simp only [Forest.rootSizes]; omega
  | trans _ _ ih1 ih2 => exact ih1.trans ih2

theorem largest_cons (size : ℕ → ℕ) (i : ℕ) (ch s : Forest) : ((Forest.cons i ch s).largestCategories size).2.2 =
    (if size i > ch.rootSizes size ∨ ch.rootSizes size = 0 then [i] else (ch.largestCategories size).2.2) ++ (s.largestCategories size).2.2 := by
  rw [Forest.largestCategories]
  dsimp only
  split <;> rfl

theorem Shuffled.largest (h : Shuffled f g) (size : ℕ → ℕ) : (f.largestCategories size).2.2.Perm (g.largestCategories size).2.2 := by
  induction h with
  | nil => exact .nil
  | cons h1 _ ih1 ih2 =>
    rw [largest_cons, largest_cons, h1.roots]
    split
    · exact ih2.append_left _
    · exact ih1.append ih2
  | swap i j a b s =>
    simp only [largest_cons]
    exact List.perm_append_comm_assoc _ _ _
  | trans _ _ ih1 ih2 => exact ih1.trans ih2

theorem min_perm {l l' : List ℕ} (h : l.Perm l') : l.min? = l'.min? := by
  cases hl : l'.min? with
  | none =>
    rw [List.min?_eq_none_iff] at hl ⊢
    subst hl
    exact h.eq_nil
  | some a =>
    rw [List.min?_eq_some_iff] at hl ⊢
    exact ⟨h.mem_iff.2 hl.1, fun b hb => hl.2 b (h.mem_iff.1 hb)⟩

theorem max_perm {l l' : List ℕ} (h : l.Perm l') : l.max? = l'.max? := by
  cases hl : l'.max? with
  | none =>
    rw [List.max?_eq_none_iff] at hl ⊢
    subst hl
    exact h.eq_nil
  | some a =>
    rw [List.max?_eq_some_iff] at hl ⊢
    exact ⟨h.mem_iff.2 hl.1, fun b hb => hl.2 b (h.mem_iff.1 hb)⟩

theorem Shuffled.explained (h : Shuffled f g) (size : ℕ → ℕ) : (f.numOfDealsExplained size).Perm (g.numOfDealsExplained size) := by
  induction h with
  | nil => exact .nil
  | @cons i ch ch' s s' h1 _ ih1 ih2 =>
    rw [explained_cons, explained_cons]
    have : entry size i ch = entry size i ch' := by
      unfold entry
      rw [(ih1.map _).sum_eq, min_perm (ih1.map _), max_perm (ih1.map _)]
      simp only [h1.eq_nil]
    rw [this]
    exact ih2.cons _
  | swap i j a b s =>
    simp only [explained_cons]
    exact .swap _ _ _
  | trans _ _ ih1 ih2 => exact ih1.trans ih2

theorem Shuffled.bal (h : Shuffled f g) {p : ℕ → ℚ} {s : ℚ} (hb : StartPrices.Bal f p s) : StartPrices.Bal g p s := fun l hl => hb l (h.symm.path hl)

/-! ## The paths determine the forest -/

/-- The tree at a root can be moved to the front. -/
theorem front {p : List ℕ} {i : ℕ} (h : IsPath f (i :: p)) : ∃ ch s, Shuffled f (.cons i ch s) := by
  induction f with
  | nil => exact absurd h isPath_nil
  | cons j ch s _ ih2 =>
    rw [isPath_cons] at h
    rcases h with ⟨_, h⟩ | ⟨q, h, _⟩ | h
    · obtain ⟨rfl, -⟩ := List.cons.inj h
      exact ⟨ch, s, .refl _⟩
    · obtain ⟨rfl, -⟩ := List.cons.inj h
      exact ⟨ch, s, .refl _⟩
    · obtain ⟨ch', s', hs⟩ := ih2 h
      exact ⟨ch', .cons j ch s', .trans (.cons (.refl ch) hs) (.swap _ _ _ _ _)⟩

theorem head_mem {p : List ℕ} {i : ℕ} (h : IsPath f (i :: p)) : i ∈ nodes f := isPath_subset h i (by simp)

/-- Forests of different categories with the same paths have the same trees. -/
theorem shuffled_of_paths (hf : (nodes f).Nodup) (hg : (nodes g).Nodup) (h : ∀ p, IsPath f p ↔ IsPath g p) : Shuffled f g := by
  induction f generalizing g with
  | nil =>
    by_cases hg0 : g = .nil
    · rw [hg0]; exact .nil
    · obtain ⟨p, hp⟩ := exists_path hg0
      exact absurd ((h p).2 hp) isPath_nil
  | cons i ch s ih1 ih2 =>
    obtain ⟨p, hp⟩ : ∃ p, IsPath (.cons i ch s) (i :: p) := by
      by_cases hc : ch = .nil
      · exact ⟨[], isPath_cons.2 (Or.inl ⟨hc, rfl⟩)⟩
      · obtain ⟨q, hq⟩ := exists_path hc
        exact ⟨q, isPath_cons.2 (Or.inr (Or.inl ⟨q, rfl, hq⟩))⟩
    obtain ⟨ch', s', hg'⟩ := front ((h _).1 hp)
    have hn' : (nodes (.cons i ch' s')).Nodup := hg'.nodes.nodup_iff.1 hg
    obtain ⟨f1, f2, f3, f4, f5⟩ := StartPrices.nodup_parts hf
    obtain ⟨g1, g2, g3, g4, g5⟩ := StartPrices.nodup_parts hn'
    have h' : ∀ p, IsPath (.cons i ch s) p ↔ IsPath (.cons i ch' s') p := fun p => (h p).trans ⟨fun a => hg'.path a, fun a => hg'.symm.path a⟩
    -- what the paths say of the children and of the siblings
    have sub : ∀ {a b a' b' : Forest}, i ∉ nodes b → i ∉ nodes b' → (∀ p, IsPath (.cons i a b) p → IsPath (.cons i a' b') p) →
        (∀ p, IsPath a p → IsPath a' p) ∧ ∀ p, IsPath b p → IsPath b' p := by
      intro a b a' b' hb hb' hsub
      constructor
      · intro p hp
        have := hsub (i :: p) (isPath_cons.2 (Or.inr (Or.inl ⟨p, rfl, hp⟩)))
        rw [isPath_cons] at this
        rcases this with ⟨_, e⟩ | ⟨q, e, hq⟩ | hq
        · obtain ⟨-, rfl⟩ := List.cons.inj e
          exact absurd rfl (isPath_ne_nil hp)
        · obtain ⟨-, rfl⟩ := List.cons.inj e
          exact hq
        · exact absurd (head_mem hq) hb'
      · intro p hp
        have := hsub p (isPath_cons.2 (Or.inr (Or.inr hp)))
        rw [isPath_cons] at this
        rcases this with ⟨_, rfl⟩ | ⟨q, rfl, hq⟩ | hq
        · exact absurd (head_mem hp) hb
        · exact absurd (head_mem hp) hb
        · exact hq
    have k1 := sub f2 g2 fun p => (h' p).1
    have k2 := sub g2 f2 fun p => (h' p).2
    exact .trans (.cons (ih1 f3 g3 fun p => ⟨k1.1 p, k2.1 p⟩) (ih2 f4 g4 fun p => ⟨k1.2 p, k2.2 p⟩)) hg'.symm

end Auctions.SameTree
