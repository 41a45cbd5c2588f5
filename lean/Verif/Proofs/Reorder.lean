import Verif.Proofs.McAfee
import Verif.Spec.Reorder

set_option autoImplicit false

/-!
# The same market with the categories in another order
-/

namespace Auctions

open Spec

theorem blk_flatMap (cs : List AgentCategory) (r : List ℕ) (j : ℕ) : blk cs r j = (cs.zip r).flatMap (fun x => seg x.1.values x.2 j) := by
  induction cs generalizing r with
  | nil => cases r <;> simp [blk]
  | cons c cs ih => cases r <;> simp [blk, ih]

theorem dropBlocks_zip (cs : List AgentCategory) (r : List ℕ) (j : ℕ) :
    (dropBlocks cs r j).zip r = (cs.zip r).map (fun x => ({ x.1 with values := x.1.values.drop (j * x.2) }, x.2)) := by
  induction cs generalizing r with
  | nil => cases r <;> simp [dropBlocks]
  | cons c cs ih => cases r <;> simp [dropBlocks, ih]

theorem avail_zip {cs : List AgentCategory} {r : List ℕ} (h : r.length = cs.length) (j : ℕ) :
    Avail cs r j ↔ ∀ x ∈ cs.zip r, (j + 1) * x.2 ≤ x.1.values.length := by
  induction cs generalizing r with
  | nil => simp [Avail]
  | cons c cs ih =>
    cases r with
    | nil => simp at h
    | cons a r =>
      rw [List.zip_cons_cons, List.forall_mem_cons, ← ih (by simpa using h)]
      constructor
      · intro h1
        exact ⟨by simpa using h1 0 (by simp), fun i hi => by simpa using h1 (i + 1) (by simpa using hi)⟩
      · rintro ⟨h1, h2⟩ i hi
        cases i with
        | zero => simpa using h1
        | succ i => simpa using h2 i (by simpa using hi)

theorem Spec.Reordered.sorted {m m' : Market} {r r' : List ℕ} (h : Reordered m r m' r') : (m'.sorted.zip r').Perm (m.sorted.zip r) := by
  have e : ∀ (k : Market) (a : List ℕ), k.sorted.zip a = (k.categories.zip a).map (fun x => (x.1.clone, x.2)) := by
    intro k a
    unfold Market.sorted
    rw [List.zip_map_left]
    rfl
  rw [e, e]
  exact h.same.map _

theorem Spec.Reordered.blk {m m' : Market} {r r' : List ℕ} (h : Reordered m r m' r') (j : ℕ) : (blk m'.sorted r' j).Perm (blk m.sorted r j) := by
  rw [blk_flatMap, blk_flatMap]
  exact h.sorted.flatMap_right _

theorem Spec.Reordered.avail {m m' : Market} {r r' : List ℕ} (h : Reordered m r m' r') (j : ℕ) : Avail m'.sorted r' j ↔ Avail m.sorted r j := by
  rw [avail_zip (by rw [m'.sorted_length]; exact h.fits'), avail_zip (by rw [m.sorted_length]; exact h.fits)]
  constructor
  · exact fun h1 x hx => h1 x (h.sorted.mem_iff.2 hx)
  · exact fun h1 x hx => h1 x (h.sorted.mem_iff.1 hx)

theorem Spec.Reordered.greedy {m m' : Market} {r r' : List ℕ} (h : Reordered m r m' r') {N : ℕ} {z : Bool} {k : ℕ} (hk : GreedyStop m' r' N z k) :
    GreedyStop m r N z k := by
  refine ⟨hk.le_max, fun t ht => ?_, fun hlt => ?_⟩
  · obtain ⟨h1, h2⟩ := hk.taken t ht
    rw [h.avail] at h1
    rw [(h.blk t).sum_eq] at h2
    exact ⟨h1, h2⟩
  · have h1 := hk.stop hlt
    rwa [h.avail, (h.blk k).sum_eq] at h1

theorem Spec.Reordered.length {m m' : Market} {r r' : List ℕ} (h : Reordered m r m' r') : m'.categories.length = m.categories.length := by
  have := h.same.length_eq
  rw [List.length_zip, List.length_zip, h.fits, h.fits'] at this
  simpa using this

theorem Spec.Reordered.categories {m m' : Market} {r r' : List ℕ} (h : Reordered m r m' r') : m'.categories.Perm m.categories := by
  have := h.same.map Prod.fst
  rwa [List.map_fst_zip (by rw [h.fits']), List.map_fst_zip (by rw [h.fits])] at this

end Auctions
