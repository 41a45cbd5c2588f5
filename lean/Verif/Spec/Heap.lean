import Verif.Model.HeapTree

set_option autoImplicit false

/-!
# What a user can observe of category objects
-/

namespace Auctions.Heap

/-- What `str(category)` shows: the name and the values of the category object with reference `r`. -/
def category (h : Heap) (r : ℕ) : Option AgentCategory :=
  match h.cats[r]? with
  | none => none
  | some o => match h.lists[o.values]? with
    | none => none
    | some vs => some ⟨o.name, vs⟩

/-- The objects `refs` have the contents `cs`. -/
def Shows (h : Heap) (refs : List ℕ) (cs : List AgentCategory) : Prop := List.Forall₂ (fun r c => category h r = some c) refs cs

/-- Every category object of `h` has in `h'` the same name and the same values. -/
def Unchanged (h h' : Heap) : Prop := ∀ r c, category h r = some c → category h' r = some c

/-- The objects `refs` are pairwise distinct, and whatever is written into the list of one of them, every category that existed in `old`
looks as it did in `old`, and so do the other objects of `refs`. -/
def Private (old h : Heap) (refs : List ℕ) : Prop :=
  refs.Nodup ∧ ∀ r ∈ refs, ∀ o, h.cats[r]? = some o → ∀ vs,
    Unchanged old { h with lists := h.lists.set o.values vs } ∧
    ∀ r' ∈ refs, r' ≠ r → category { h with lists := h.lists.set o.values vs } r' = category h r'

/-- The run `x` of the program with objects ends like the run `p` of the program without objects: with the same exception, or with
results that are related by `Q` in the final heap. -/
def Ends {α β : Type} (x : Py α × Heap) (p : Py β) (Q : α → β → Heap → Prop) : Prop :=
  match x.1, p with
  | .ok a, .ok b => Q a b x.2
  | .error e, .error e' => e = e'
  | _, _ => False

/-- The calls by which a user can run a computation on a market. -/
inductive Call
  | optimalTrade (psRecipe : List ℕ) (maxIterations : ℕ) (includeZero : Bool)
  | ascendingAuction (psRecipe : List ℕ) (fuel maxIterations : ℕ)
  | mcafee (psRecipe : List ℕ) (priceHeuristic : Bool)
  | tradeReduction (psRecipe : List ℕ) (includingGft0 : Bool)
  | treeAuction (initialPrices : List (List ℕ) → ℚ → Py (List ℚ)) (struct : List PyObj) (fuel : ℕ)
  | integerAuction (struct : List PyObj) (agentCounts : List ℕ) (fuel : ℕ)
  | clone

/-- The heap after the call on the market with the categories `m`, whether or not it raised an exception. -/
def Call.after (m : List ℕ) (h : Heap) : Call → Heap
  | .optimalTrade r n z => (Heap.optimalTrade m r n z h).2
  | .ascendingAuction r fuel n => (Heap.ascendingAuction m r fuel n h).2
  | .mcafee r b => (Heap.mcafee m r b h).2
  | .tradeReduction r b => (Heap.tradeReduction m r b h).2
  | .treeAuction ip struct fuel => (Heap.treeAuction ip m struct fuel h).2
  | .integerAuction struct counts fuel => (Heap.integerAuction m struct counts fuel h).2
  | .clone => (Heap.clone m h).2

end Auctions.Heap
