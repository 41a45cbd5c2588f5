import Verif.Proofs.SameTree
import Verif.Props.Tree
import Mathlib.Algebra.BigOperators.Ring.List
import Mathlib.Tactic.FieldSimp

set_option autoImplicit false

/-! # Helper lemmas: runs of the recipe-tree auction on the same market, written differently -/

namespace Auctions.SameTree

open Auctions Spec StartPrices TreeAuction

variable {σ : ℕ → ℕ} {c : ℚ} {b : ℕ → ℚ} {vals vals' : ℕ → List ℚ} {t t' : RecipeTree}

/-- The relation between the two markets. -/
structure Same (σ : ℕ → ℕ) (c : ℚ) (b : ℕ → ℚ) (vals vals' : ℕ → List ℚ) (t t' : RecipeTree) : Prop where
  pos : 0 < c
  inj : ∀ i ∈ nodes t.forest, ∀ j ∈ nodes t.forest, σ i = σ j → i = j
  tree : Shuffled (rename σ t.forest) t'.forest
  values : ∀ i ∈ nodes t.forest, vals' (σ i) = (vals i).map (fun x => c * x + b i)

/-- The relation between the prices. -/
def Prices (σ : ℕ → ℕ) (c : ℚ) (b : ℕ → ℚ) (t : RecipeTree) (p p' : ℕ → ℚ) : Prop := ∀ i ∈ nodes t.forest, p' (σ i) = c * p i + b i

theorem Same.node (h : Same σ c b vals vals' t t') {j : ℕ} : j ∈ nodes t'.forest ↔ ∃ i ∈ nodes t.forest, σ i = j := by
  rw [← h.tree.nodes.mem_iff, nodes_rename, List.mem_map]

theorem Same.root (h : Same σ c b vals vals' t t') : t'.index = σ t.index := by
  have := h.tree.roots (fun j => if j = σ t.index then 1 else 0)
  by_contra hne
  simp [RecipeTree.forest, rename, Forest.rootSizes, hne] at this

theorem Same.lt (h : Same σ c b vals vals' t t') {x y : ℚ} {i : ℕ} : c * x + b i < c * y + b i ↔ x < y := by
  rw [add_lt_add_iff_right, mul_lt_mul_iff_right₀ h.pos]

variable {p p' : ℕ → ℚ}

theorem Same.filter (h : Same σ c b vals vals' t t') (hp : Prices σ c b t p p') {i : ℕ} (hi : i ∈ nodes t.forest) :
    (vals' (σ i)).filter (p' (σ i) < ·) = ((vals i).filter (p i < ·)).map (fun x => c * x + b i) := by
  rw [h.values i hi, List.filter_map, hp i hi]
  congr 1
  apply List.filter_congr
  intro x _
  simp only [Function.comp_apply, decide_eq_decide]
  exact h.lt

theorem Same.count (h : Same σ c b vals vals' t t') (hp : Prices σ c b t p p') {i : ℕ} (hi : i ∈ nodes t.forest) : cnt vals' p' (σ i) = cnt vals p i := by
  rw [cnt, cnt, h.filter hp hi, List.length_map]

theorem Same.cut_perm (h : Same σ c b vals vals' t t') (hp : Prices σ c b t p p') : (cut vals' t'.forest p').Perm ((cut vals t.forest p).map σ) := by
  have := (h.tree.largest (cnt vals' p')).symm
  rw [largest_rename, largest_agree (size' := cnt vals p) fun i hi => h.count hp hi] at this
  exact this

theorem Same.mem_cut (h : Same σ c b vals vals' t t') (hp : Prices σ c b t p p') {i : ℕ} (hi : i ∈ nodes t.forest) :
    σ i ∈ cut vals' t'.forest p' ↔ i ∈ cut vals t.forest p := by
  rw [(h.cut_perm hp).mem_iff, List.mem_map]
  constructor
  · rintro ⟨j, hj, e⟩
    rwa [← h.inj j (cut_sub j hj) i hi e]
  · intro hj; exact ⟨i, hj, rfl⟩

theorem Same.bump (h : Same σ c b vals vals' t t') (hp : Prices σ c b t p p') (e : ℚ) : Prices σ c b t (bump vals t p e) (bump vals' t' p' (c * e)) := by
  intro i hi
  rw [StartPrices.bump, StartPrices.bump, hp i hi]
  simp only [h.mem_cut hp hi]
  split <;> ring

theorem Same.noCross (h : Same σ c b vals vals' t t') (hp : Prices σ c b t p p') {d : ℚ} (hd : NoCross vals t.forest p d) : NoCross vals' t'.forest p' (c * d) := by
  intro j hj x hx hlt
  obtain ⟨i, hi, rfl⟩ := h.node.1 (cut_sub j hj)
  have hi' := (h.mem_cut hp hi).1 hj
  rw [h.values i hi, List.mem_map] at hx
  obtain ⟨y, hy, rfl⟩ := hx
  rw [hp i hi] at hlt ⊢
  have h1 := hd i hi' y hy (h.lt.1 hlt)
  have h2 := mul_le_mul_of_nonneg_left h1 h.pos.le
  linarith

/-- A run on the one market is a run on the other one. -/
theorem Same.chain (h : Same σ c b vals vals' t t') {s : ℚ} {fv : ℕ → List ℚ} {fp : ℕ → ℚ} {r : ℚ} (hc : Chain vals t p s fv fp r) (hp : Prices σ c b t p p') :
    ∃ fv' fp', Chain vals' t' p' (c * s) fv' fp' (c * r) ∧ Prices σ c b t fp fp' ∧ ∀ i ∈ nodes t.forest, fv' (σ i) = (fv i).map (fun x => c * x + b i) := by
  have hroot : t.index ∈ nodes t.forest := by simp [RecipeTree.forest, nodes]
  have hneg : ∀ {s : ℚ}, s < 0 → c * s < 0 := fun hs => mul_neg_of_pos_of_neg h.pos hs
  induction hc generalizing p' with
  | empty h1 h2 => exact ⟨_, _, .empty (hneg h1) (by rw [h.root, h.count hp hroot, h2]), hp, fun i hi => h.filter hp hi⟩
  | @zero p s d h1 h2 h3 h4 =>
    have h5 := h.bump hp (-s)
    have h6 : -(c * s) ≤ c * d := by have := mul_le_mul_of_nonneg_left h3 h.pos.le; linarith
    refine ⟨fun i => (vals' i).filter (p' i < ·), StartPrices.bump vals' t' p' (-(c * s)), ?_, ?_, fun i hi => h.filter hp hi⟩
    · rw [mul_zero]
      exact .zero (hneg h1) (by rw [h.root, h.count hp hroot]; exact h2) h6 (h.noCross hp h4)
    · rwa [mul_neg] at h5
  | @step p s d fv fp r h1 h2 h3 h4 _ ih =>
    obtain ⟨fv', fp', a1, a2, a3⟩ := ih (h.bump hp d)
    refine ⟨fv', fp', ?_, a2, a3⟩
    exact .step (hneg h1) (by rw [h.root, h.count hp hroot]; exact h2) (mul_nonneg h.pos.le h3) (h.noCross hp h4) (by rw [← mul_add]; exact a1)

theorem Same.bal (h : Same σ c b vals vals' t t') (hb : ∀ l, IsPath t.forest l → (l.map b).sum = 0) (hp : Prices σ c b t p p') {s : ℚ} (hs : Bal t.forest p s) :
    Bal t'.forest p' (c * s) := by
  intro l hl
  obtain ⟨l, hl', rfl⟩ := isPath_rename.1 (h.tree.symm.path hl)
  rw [← hs l hl', List.map_map]
  have : l.map (p' ∘ σ) = l.map (fun i => c * p i + b i) := List.map_congr_left fun i hi => hp i (isPath_subset hl' i hi)
  rw [this, List.sum_map_add, hb l hl', add_zero, List.sum_map_mul_left]

theorem Same.explained (h : Same σ c b vals vals' t t') {size size' : ℕ → ℕ} (hs : ∀ i ∈ nodes t.forest, size' (σ i) = size i) :
    t'.numOfDealsExplained size' = t.numOfDealsExplained size := by
  have := h.tree.explained size'
  rw [explained_rename] at this
  rw [RecipeTree.numOfDealsExplained, RecipeTree.numOfDealsExplained]
  have e : t.forest.numOfDealsExplained (fun i => size' (σ i)) = t.forest.numOfDealsExplained size := explained_agree hs
  rw [e] at this
  have e1 : t.forest.numOfDealsExplained size = [entry size t.index t.children] := by rw [RecipeTree.forest, explained_cons]; rfl
  rw [e1] at this ⊢
  rw [List.perm_singleton.1 this.symm]

/-! ## The other direction -/

theorem Shuffled.rename {f g : Forest} (h : Shuffled f g) (τ : ℕ → ℕ) : Shuffled (SameTree.rename τ f) (SameTree.rename τ g) := by
  induction h with
  | nil => exact .nil
  | cons _ _ ih1 ih2 => exact .cons ih1 ih2
  | swap i j a b s => exact .swap _ _ _ _ _
  | trans _ _ ih1 ih2 => exact .trans ih1 ih2

theorem rename_rename {τ : ℕ → ℕ} {f : Forest} (h : ∀ i ∈ nodes f, τ (σ i) = i) : rename τ (rename σ f) = f := by
  induction f with
  | nil => rfl
  | cons i ch s ih1 ih2 =>
    rw [rename, rename, h i (by simp [nodes]), ih1 fun j hj => h j (by simp [nodes, hj]), ih2 fun j hj => h j (by simp [nodes, hj])]

theorem Same.symm (h : Same σ c b vals vals' t t') : ∃ τ : ℕ → ℕ, (∀ i ∈ nodes t.forest, τ (σ i) = i) ∧
    Same τ c⁻¹ (fun j => -(c⁻¹ * b (τ j))) vals' vals t' t := by
  classical
  obtain ⟨τ, hτ⟩ : ∃ τ : ℕ → ℕ, ∀ i ∈ nodes t.forest, τ (σ i) = i := by
    refine ⟨fun j => if hj : ∃ i ∈ nodes t.forest, σ i = j then hj.choose else 0, fun i hi => ?_⟩
    have hex : ∃ k ∈ nodes t.forest, σ k = σ i := ⟨i, hi, rfl⟩
    simp only [dif_pos hex]
    exact h.inj _ hex.choose_spec.1 i hi hex.choose_spec.2
  refine ⟨τ, hτ, inv_pos.2 h.pos, ?_, ?_, ?_⟩
  · intro i hi j hj e
    obtain ⟨i, hi', rfl⟩ := h.node.1 hi
    obtain ⟨j, hj', rfl⟩ := h.node.1 hj
    rw [hτ i hi', hτ j hj'] at e
    rw [e]
  · have := (h.tree.rename τ).symm
    rwa [rename_rename hτ] at this
  · intro j hj
    obtain ⟨i, hi, rfl⟩ := h.node.1 hj
    rw [hτ i hi, h.values i hi, List.map_map]
    have hc := h.pos.ne'
    conv_lhs => rw [← List.map_id (vals i)]
    apply List.map_congr_left
    intro x _
    simp only [id, Function.comp_apply]
    field_simp
    ring

/-! ## Gain -/

/-- A deal on the other market. -/
def convert (σ : ℕ → ℕ) (c : ℚ) (b : ℕ → ℚ) (d : TreeDeal) : TreeDeal := d.map (fun a => (σ a.1, c * a.2 + b a.1))

theorem convert_gain (d : TreeDeal) : treeGain (convert σ c b d) = c * treeGain d + ((d.map Prod.fst).map b).sum := by
  induction d with
  | nil => simp [convert, treeGain]
  | cons a d ih =>
    simp only [convert, treeGain, List.map_cons, List.sum_cons] at ih ⊢
    rw [ih]; ring

theorem Same.feasible (h : Same σ c b vals vals' t t') (hb : ∀ l, IsPath t.forest l → (l.map b).sum = 0) {deals : List TreeDeal} (hd : FeasibleDeals t vals deals) :
    FeasibleDeals t' vals' (deals.map (convert σ c b)) ∧ treeTotalGain (deals.map (convert σ c b)) = c * treeTotalGain deals := by
  obtain ⟨h1, h2⟩ := hd
  have hin : ∀ a ∈ deals.flatten, a.1 ∈ nodes t.forest := by
    intro a ha
    obtain ⟨d, hd, had⟩ := List.mem_flatten.1 ha
    exact isPath_subset (h1 d hd) a.1 (List.mem_map_of_mem had)
  refine ⟨⟨?_, ?_⟩, ?_⟩
  · intro d hd
    obtain ⟨e, he, rfl⟩ := List.mem_map.1 hd
    apply h.tree.path
    rw [isPath_rename]
    refine ⟨_, h1 e he, ?_⟩
    simp [convert]
  · intro j
    have hflat : (deals.map (convert σ c b)).flatten = deals.flatten.map (fun a => (σ a.1, c * a.2 + b a.1)) := by
      rw [List.map_flatten]; rfl
    rw [hflat, agentsOf, List.filter_map, List.map_map]
    by_cases hj : ∃ i ∈ nodes t.forest, σ i = j
    · obtain ⟨i, hi, rfl⟩ := hj
      have e : deals.flatten.filter ((fun a : ℕ × ℚ => decide (a.1 = σ i)) ∘ fun a => (σ a.1, c * a.2 + b a.1)) = deals.flatten.filter (fun a => a.1 = i) := by
        apply List.filter_congr
        intro a ha
        simp only [Function.comp_apply, decide_eq_decide]
        exact ⟨fun e => h.inj _ (hin a ha) _ hi e, fun e => by rw [e]⟩
      rw [e, h.values i hi]
      have e2 : (deals.flatten.filter (fun a => a.1 = i)).map (Prod.snd ∘ fun a : ℕ × ℚ => (σ a.1, c * a.2 + b a.1)) =
          (agentsOf i deals.flatten).map (fun x => c * x + b i) := by
        rw [agentsOf, List.map_map]
        apply List.map_congr_left
        intro a ha
        have : a.1 = i := by simpa using (List.mem_filter.1 ha).2
        simp [this]
      rw [e2]
      obtain ⟨l, hl, hsub⟩ := h2 i
      exact ⟨_, hl.map _, hsub.map _⟩
    · have e : deals.flatten.filter ((fun a : ℕ × ℚ => decide (a.1 = j)) ∘ fun a => (σ a.1, c * a.2 + b a.1)) = [] := by
        rw [List.filter_eq_nil_iff]
        intro a ha
        simp only [Function.comp_apply, decide_eq_true_eq]
        exact fun e => hj ⟨a.1, hin a ha, e⟩
      rw [e]
      exact List.nil_subperm
  · rw [treeTotalGain, treeTotalGain, List.map_map, ← List.sum_map_mul_left]
    congr 1
    apply List.map_congr_left
    intro d hd
    rw [Function.comp_apply, convert_gain, hb _ (h1 d hd), add_zero]

theorem Same.cancel (h : Same σ c b vals vals' t t') (hb : ∀ l, IsPath t.forest l → (l.map b).sum = 0) {τ : ℕ → ℕ} (hτ : ∀ i ∈ nodes t.forest, τ (σ i) = i) :
    ∀ l, IsPath t'.forest l → (l.map fun j => -(c⁻¹ * b (τ j))).sum = 0 := by
  intro l hl
  obtain ⟨l, hl', rfl⟩ := isPath_rename.1 (h.tree.symm.path hl)
  rw [List.map_map]
  have : l.map ((fun j => -(c⁻¹ * b (τ j))) ∘ σ) = l.map (fun i => -c⁻¹ * b i) := by
    apply List.map_congr_left
    intro i hi
    simp only [Function.comp_apply, hτ i (isPath_subset hl' i hi)]; ring
  rw [this, List.sum_map_mul_left, hb l hl', mul_zero]

/-- The largest gain. -/
theorem Same.gain (h : Same σ c b vals vals' t t') (hn : (treeNodes t).Nodup) (hn' : (treeNodes t').Nodup) (hb : ∀ l, IsPath t.forest l → (l.map b).sum = 0)
    (hs : ∀ i ∈ treeNodes t, SortedDesc (vals i)) (hs' : ∀ i ∈ treeNodes t', SortedDesc (vals' i)) : t'.optimalTradeGFT vals' = c * t.optimalTradeGFT vals := by
  obtain ⟨⟨d, hd, hdg⟩, hmax⟩ := Props.tree_gft_is_maximum hn hs
  obtain ⟨⟨d', hd', hdg'⟩, hmax'⟩ := Props.tree_gft_is_maximum hn' hs'
  obtain ⟨τ, hτ, hsym⟩ := h.symm
  have h1 := hmax' ⟨_, h.feasible hb hd⟩
  have h2 := hmax ⟨_, hsym.feasible (h.cancel hb hτ) hd'⟩
  rw [hdg] at h1
  rw [hdg', inv_mul_le_iff₀ h.pos] at h2
  exact le_antisymm h2 h1

end Auctions.SameTree
