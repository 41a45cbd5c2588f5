import Verif.Proofs.FloatingExact

set_option autoImplicit false

/-! # Numbers that are never rounded, such as `fractions.Fraction`: the model with rounding is the exact model -/

namespace Auctions.Props

/-- The functions with rounding, with the rounding that changes nothing, are the functions without rounding: results and exceptions are the same. -/
theorem no_rounding (m : Market) (r : List ℕ) (n fuel : ℕ) (z : Bool) :
    Floating.optimalTrade id m r n z = m.optimalTrade r n z ∧
    Floating.ascendingAuction id m r fuel n = Ascending.auction m r fuel n ∧
    Floating.mcafeeTradeReduction id m r z = McAfee.mcafeeTradeReduction m r z ∧
    Floating.tradeReduction id m r z = TradeReduction.tradeReduction m r z ∧
    ∀ t : TradeWithMaterialBalance, Floating.materialGain id t = t.gainFromTrade :=
  ⟨Floating.optimalTrade_id m r n z, Floating.ascendingAuction_id m r fuel n, Floating.mcafee_id m r z, Floating.tradeReduction_id m r z, Floating.materialGain_id⟩

/-- The same for the tree auction and for the optimal trade of a recipe tree. -/
theorem no_rounding_tree (g : List (List ℕ) → ℚ → Py (List ℚ)) (m : Market) (struct : List PyObj) (fuel : ℕ) (t : RecipeTree) (vals : ℕ → List ℚ) :
    Floating.treeAuction id g m struct fuel = TreeAuction.auction g m struct fuel ∧
    Floating.treeOptimalTrade id t vals = t.optimalTrade vals ∧ Floating.treeOptimalTradeGFT id t vals = t.optimalTradeGFT vals :=
  ⟨Floating.treeAuction_id g m struct fuel, Floating.treeOptimalTrade_id t vals, Floating.treeGFT_id t vals⟩

end Auctions.Props
