import Verif.Py
import Verif.Model.Agents
import Verif.Model.Trade
import Verif.Model.Markets
import Verif.Model.Prices
import Verif.Model.Ascending
import Verif.Model.McAfee
import Verif.Model.TradeReduction
import Verif.Model.RecipeTree
import Verif.Model.TreeAuction
import Verif.Props.Agents
import Verif.Props.Markets
import Verif.Props.Competition
import Verif.Props.Trade
import Verif.Props.Prices
import Verif.Props.Ascending
import Verif.Props.AscendingGain
import Verif.Props.AscendingTruthful
import Verif.Props.McAfee
import Verif.Props.TradeReduction
import Verif.Props.TradeReductionTruthful
import Verif.Props.Errors
import Verif.Props.MarketOps
import Verif.Props.Tree
import Verif.Proofs.TreeAuction
import Verif.Props.TreeAuction
import Verif.Props.TreeTermination
import Verif.Props.IntegerTree
import Verif.Props.IntegerPrices
import Verif.Props.IntegerAuction
import Verif.Props.IntegerRational
import Verif.Props.IntegerTermination
import Verif.Props.TreeCalculations
import Verif.Props.Heap
import Verif.Props.CountedPrices
import Verif.Props.Counters
import Verif.Props.TreeTruthful
import Verif.Props.IntegerTruthful
import Verif.Spec.Ties
import Verif.Proofs.TreeCounts
import Verif.Proofs.TreeCountsStep
import Verif.Proofs.TreeCountsDown
import Verif.Proofs.TreeCountsLoop
import Verif.Proofs.TreeReplace
import Verif.Props.TreeGain
import Verif.Props.McAfeeHeuristic
import Verif.Spec.Order
import Verif.Props.Order
import Verif.Model.Reports
import Verif.Spec.Lottery
import Verif.Proofs.Reports
import Verif.Props.Reports
import Verif.Spec.PriceLine
import Verif.Proofs.PriceText
import Verif.Props.PriceText
import Verif.Props.IntegerText
import Verif.Model.Experiment
import Verif.Spec.Experiment
import Verif.Proofs.Experiment
import Verif.Props.Experiment
import Verif.Proofs.Comparison
import Verif.Props.Comparison
import Verif.Model.ComparingExperiment
import Verif.Spec.Comparison
import Verif.Props.ComparingExperiment
import Verif.Fidelity.Basics
import Verif.Fidelity.Single
import Verif.Fidelity.UnitTests
import Verif.Fidelity.Trees
import Verif.Fidelity.IntegerTrees
import Verif.Fidelity.TreeAuctions
import Verif.Fidelity.Recorded
import Verif.Spec.Monotone
import Verif.Proofs.Monotone
import Verif.Props.Monotone
import Verif.Model.TreeExperiment
import Verif.Spec.TreeExperiment
import Verif.Proofs.TreeExperiment
import Verif.Props.TreeExperiment
import Verif.Model.TreeStockExperiment
import Verif.Spec.TreeStockExperiment
import Verif.Proofs.TreeStockExperiment
import Verif.Props.TreeStockExperiment
import Verif.Model.IntegerExperiment
import Verif.Props.IntegerExperiment
import Verif.Model.StockExperiment
import Verif.Spec.StockExperiment
import Verif.Props.StockExperiment
import Verif.Model.GetPrices
import Verif.Props.GetPrices
import Verif.Props.StockFiles
import Verif.Model.CompareIterations
import Verif.Spec.CompareIterations
import Verif.Proofs.CompareIterations
import Verif.Props.CompareIterations
import Verif.Props.ContestPredictions
import Verif.Spec.Coalition
import Verif.Proofs.Coalition
import Verif.Props.Coalition
import Verif.Props.CoalitionMcAfee
import Verif.Props.CoalitionTradeReduction
import Verif.Proofs.TreeCoalition
import Verif.Props.TreeCoalition
import Verif.Model.Multibuyer
import Verif.Spec.Multibuyer
import Verif.Proofs.Multibuyer
import Verif.Props.Multibuyer
import Verif.Spec.Threshold
import Verif.Props.AscendingThreshold
import Verif.Props.TreeThreshold
import Verif.Spec.Reorder
import Verif.Proofs.Reorder
import Verif.Props.Reorder
import Verif.Model.Multirecipe
import Verif.Spec.Multirecipe
import Verif.Proofs.Multirecipe
import Verif.Props.Multirecipe
import Verif.Proofs.MultirecipeSingle
import Verif.Props.MultirecipeSingle
import Verif.Proofs.MultirecipeDisjoint
import Verif.Props.MultirecipeDisjoint
import Verif.Spec.Units
import Verif.Proofs.Units
import Verif.Proofs.UnitsMcAfee
import Verif.Proofs.UnitsTradeReduction
import Verif.Props.Units
import Verif.Model.OldPrices
import Verif.Spec.OldPrices
import Verif.Proofs.OldPrices
import Verif.Props.OldPrices
import Verif.Model.OldRecipeTree
import Verif.Spec.Cut
import Verif.Proofs.Cut
import Verif.Props.OldRecipeTree
import Verif.Model.BadInputSearch
import Verif.Spec.BadInputSearch
import Verif.Props.BadInputSearch
import Verif.Model.StockSizes
import Verif.Spec.StockSizes
import Verif.Props.StockSizes
import Verif.Model.ShuffledStock
import Verif.Spec.ShuffledStock
import Verif.Proofs.ShuffledStock
import Verif.Props.ShuffledStock
import Verif.Model.Floating
import Verif.Spec.Floating
import Verif.Proofs.FloatingBasic
import Verif.Proofs.Floating
import Verif.Proofs.FloatingProtocols
import Verif.Proofs.FloatingMcAfee
import Verif.Proofs.FloatingRounding
import Verif.Props.Floating
import Verif.Model.FloatingTree
import Verif.Proofs.FloatingTree
import Verif.Props.FloatingTree
import Verif.Spec.Unneeded
import Verif.Proofs.Unneeded
import Verif.Proofs.UnneededTradeReduction
import Verif.Proofs.UnneededTree
import Verif.Props.Unneeded
import Verif.Proofs.StartPrices
import Verif.Proofs.StartPricesRun
import Verif.Props.StartPrices
import Verif.Spec.SameMarket
import Verif.Proofs.SameTree
import Verif.Proofs.SameTreeRun
import Verif.Props.SameMarket
import Verif.Props.SameMarketTies
import Verif.Props.ZeroGain
import Verif.Props.FloatingDecimals
import Verif.Props.FloatingOptimal
import Verif.Props.FloatingExact
import Verif.Proofs.FloatingMcAfeeRun
import Verif.Props.FloatingMcAfee
import Verif.Proofs.Competitor
import Verif.Props.Competitor
import Verif.Spec.Offers
import Verif.Proofs.TreeClearing
import Verif.Props.TreeClearing
import Verif.Props.TreePricesClear
import Verif.Spec.LeafParents
import Verif.Proofs.TreeLost
import Verif.Props.TreeLost
import Verif.Proofs.FloatingReduction
import Verif.Proofs.FloatingReductionOrder
import Verif.Props.FloatingReduction
import Verif.Proofs.FloatingTreeRun
import Verif.Props.FloatingTreeDecimals
import Verif.Proofs.FloatingTruthful
import Verif.Props.FloatingTruthful
import Verif.Model.FloatingTrade
import Verif.Spec.FloatingTrade
import Verif.Props.FloatingTrade
import Verif.Props.FloatingAscendingGain
import Verif.Props.FloatingMcAfeeTruthful
