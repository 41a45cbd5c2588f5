# Formal model of dvirg/auctions in Lean 4

## 1. What is modelled, and how

The model is in `lean/Verif/Model/`, one file per Python module; every definition cites the file and
lines it models. The specification vocabulary (feasible trades, budget balance, ...) is in
`lean/Verif/Spec/` and does not import the protocols. Helper lemmas are in `lean/Verif/Proofs/`,
and the theorems listed in MANIFEST.json, with their non-vacuity examples, are in `lean/Verif/Props/`.

Conventions:

* **Numbers.** Python ints/floats are rationals `ℚ`. Float rounding, overflow, `nan`, `inf` are NOT modelled, except in C95, C96 and C102-C104, C110-C114: `Model/Floating` repeats the single-recipe protocols with a rounding after every operation, and C95 proves that for whole-number reports of moderate size all decisions are the same as with exact numbers, and each price is the exact one, rounded once (so that e.g. budget balance holds up to that rounding). C96 does the same for the recipe-tree auction, which does not round at all on whole-number reports and whole initial prices.
  `math.floor(size/count)` is natural-number division.
* **Recipes** are `List ℕ` (negative counts are not modelled).
* **Exceptions** are values: `Except PyErr α`, with constructors for the Python exception classes raised
  (`ValueError`, `IndexError`, `ZeroDivisionError`, `TypeError`). Where Python raises after mutating an object, the
  half-mutated object is not observable in the model (except in the heap model, C39).
* **Loops.** `for i in range(n)` is structural recursion. `while True` takes a fuel argument and returns
  `none` when fuel runs out; termination theorems show a sufficient amount of fuel, and the correctness theorems
  hold for every fuel with which the run ends.
* **Sorting** is Mathlib's stable `List.insertionSort`, `≥` for `reverse=True`.
* **Mutation.** Objects are immutable values, mutators return the new value. C39 and C54 are proved in a separate
  heap model in which categories and their `values` lists are objects with identities; it also shows that the programs with
  objects end like the programs without, so the theorems about the latter carry over.
* **Logging and printing** are not modelled, nor are CSV files, pandas, the random number generator (an arbitrary function in `Model/Experiment`, `Model/ComparingExperiment`, `Model/StockExperiment`, `Model/CompareIterations`, `Model/TreeExperiment`, `Model/TreeStockExperiment` and `Model/IntegerExperiment`), the demos and the experiment scripts other than `experiment.py`, `experiment_comparing_sbb.py`, `stock/experiment_stock.py`, `stock/experiment_compare_iterations_autions.py`, `stock/experiment_compare_iterations_autions_without_mcafee.py`, `stock/experiment_compare_sbb_shufled_stock.py`, `experiment_ascending_auction_recipetree_random.py`, `…_recipetree_stock.py` and `…_recipetree_integer_random.py` (`…_integer_stock.py` has the loop of the stock experiment and the non-integer protocol). The texts made by `__repr__` of the two kinds of trades are modelled as lists of lines with their numbers (`Model/Reports`), not as strings.
* **scipy `linprog`** (`prices.py:calculate_initial_prices`) is an external call: the tree auction model takes the
  initial price vector as a parameter; the theorems assume only the documented contract (equal recipe sums, each
  price <= -MAX_VALUE).
* **The folder `old`**: the multi-buyer protocol (C83), the multi-recipe protocol (C86-C88) and the old simultaneous price-vectors (C90; the result of
  `linprog` is a parameter) are modelled; the order in which
  Python runs through a set of category indices is an arbitrary permutation (`order` in `Model/Multirecipe`).

## 2. Plan per property

| id | modelled | proof |
|---|---|---|
| C01,C02 | `Model/Agents` | refinement to multisets; induction on the op list |
| C03-C06 | `Model/Markets` `optimalTrade` | closed form of the greedy loop (block j of each category); exchange argument: any sub-multiset of size n of a sorted list has sum <= its n-prefix |
| C07,C08 | all entry points | case analysis; closed forms show no error branch is reached |
| C09,C10 | `bestContainingPS`, `pricesByExternalCompetition` | induction over categories, algebra |
| C11-C13 | `Model/Trade` | arithmetic; C13 by double counting over `List.sublistsLen` |
| C14,C15 | `Model/Prices` | algebra; C15 invariant over sequences of calls |
| C16-C19 | `Model/Ascending` | loop invariant: remaining = prefix, price of untouched category = -MAX, price <= lowest remaining, sum < 0; fuel measure = number of agents |
| C20,C21 | same + `optimalTrade` | invariant size_i >= r_i*M - 1 for raised categories (M = current max ratio); values shifted by prices |
| C22 | same | coupling of the run with report v and the run with report b: identical until the clock of that category passes min(v,b) |
| C23-C25 | `Model/McAfee` | from the closed form of optimalTrade; deficit refuted by kernel evaluation of a witness |
| C46, C47 | `Model/McAfee` | truthfulness without the heuristic from the closed form (the price is set by an agent that does not trade); witness against truthfulness with the heuristic and three categories |
| C48 | `Model/Trade` | induction over the loop of `gain_from_trade`; witness run |
| C26-C29,C45 | `Model/TradeReduction` | invariants of the pivot loop; witness for non-truthfulness |
| C30-C33,C38 | `Model/RecipeTree` (first-child/next-sibling trees) | structural induction; matroid-like greedy exchange for C31 |
| C34-C37 | `Model/TreeAuction` | loop invariants, on top of C15 and C33; C37: termination measure and a diverging market |
| C39 | `Model/Heap`, `Model/HeapTree` | all six protocols again as programs on a heap of category objects and list objects; the objects of the run are new and unshared (ownership invariant), the run ends like the model without objects |
| C40 | `Model/TreeAuctionInteger` | lock-step equivalence of the two loops when all counts are 1 |
| C41 | same | invariant of the loop (price at most every remaining value); balance by C40 and C34; witnesses by kernel evaluation |
| C42 | `Model/PricesInteger` | invariant of the loop over recipes, under "no recipe uses the last category of another"; paths of a tree with increasing indices satisfy it |
| C51 | `Model/RecipeTreeInteger` | structural induction over the forest: greedy pairing of blocks dominates every feasible set of deals |
| C52 | same | structural induction |
| C53 | `Model/TreeAuctionInteger` | each iteration on a chain removes an agent; a witness run that reaches a state which an iteration does not change |
| C54 | `Model/Heap`, `Model/HeapTree` | same; sorting a sorted list object in place is the identity on the heap; a witness for an unsorted one |
| C55 | `Model/PricesInteger` | weighted sums with one price replaced; induction over the increases; witnesses by evaluation |
| C56 | `Model/Counters` | a store of counter objects; the paths of the tree and the counters correspond one to one (induction over the forest); case distinction over the exceptions |
| C49, C50 | `Model/Markets`, `Model/Prices` | induction over the loop of `append_PS`; case analysis (added after seeded bugs survived) |
| C43,C44 | `Model/TreeCalculations` | structural induction |
| C57 | `Model/TreeAuction` | two runs in lockstep: as long as the price is below the true value and the report has not left, both raise the same prices and remove the same agents |
| C58 | `Model/TreeAuctionInteger` | from C40 and C57; witness by evaluation |
| C59 | Model/TreeAuction, Model/RecipeTree, Model/Counters; Spec/Ties | Invariant of the price loop: the optimal deals restricted to what lies above the current prices; no ties means each removal drops at most one agent; then an exchange argument replaces the optimal deals minus the worst of each path by deals of remaining agents |
| C60 | `Model/McAfee` | a report that trades at a price below the true value can be exchanged for the true value without changing anything below the agents that trade, so both runs have the same number of deals and the same price; witness by evaluation |
| C61 | `Model/Agents`, `Model/Markets`, all protocols; `Spec/Order` | every protocol works on a clone of the market, whose categories are sorted; a sorted permutation is unique |
| C62 | `Model/Reports`; `Spec/Lottery` | induction on the forest with a weakest precondition for following the lines; witness by evaluation |
| C63 | `Model/Reports`; `Spec/PriceLine` | induction on the categories; combined with C17, C18, C23, C25–C27 |
| C64 | `Model/Reports` | induction on the forest and C40; witness by evaluation, with the maximality of the number of deals (C52) |
| C65 | Model/Experiment: random numbers are an arbitrary function; rows are lists of exact numbers; round() is half-to-even on exact numbers; the CSV file is not modelled | induction over the iterations and the rows; each row is compared with a separate specification (Spec/Experiment) |
| C66 | Model/Experiment with the models of the three auctions | guarantees of one market (C20, C21, C24-C28, C12, C48) summed over the iterations; monotonicity of the rounding; counterexample evaluated by the kernel |
| C67 | Model/Ascending, Model/TradeReduction | the stopping state of one auction is compared with the state before the last raise of the other; ties by the order of the categories |
| C68 | Model/Ascending, Model/TradeReduction | the clock loop cannot pass the state in which trade reduction stops, and stops there with the same prices |
| C69 | Model/ComparingExperiment: random numbers are an arbitrary function; the CSV file and the screen output are not modelled | C67 and C68 summed over the iterations; induction over sizes and recipes |
| C70 | Model/Market, Model/RecipeTree; Spec/Monotone | threshold counting is preserved by concatenation and by pairing sorted lists; induction on the tree |
| C71 | Model/TreeAuction, Model/Counters | every combination of the remaining agents has gain at least the sum of the prices on its path, which is 0; then C70 for the subset of agents |
| C72 | Model/TreeExperiment: random numbers and solver are arbitrary functions; the CSV file and the screen output (except the number of warnings) are not modelled | induction over iterations and rows; the sums are those of the measurements |
| C73 | Model/TreeExperiment | C71 and C59 summed over the iterations; the counterexamples are evaluated by the kernel |
| C74 | Model/TreeStockExperiment: prices, shuffles and solver are arbitrary; the CSV file and the screen output (except warnings) are not modelled; experiment_ascending_auction_recipetree_integer_stock.py contains the same loop | invariant of the dictionary of results over sizes, iterations and stocks; C71 summed over the measurements; counterexample evaluated by the kernel |
| C75 | Model/TreeStockExperiment: the contents of the file as columns of exact numbers | induction over the categories; floors of a partition of the total add up to more than the total minus their number |
| C76 | Model/IntegerExperiment | the first set built at an inner node already fails (C56); if there is a complete set in every category the failure is the TypeError |
| C77 | Model/StockExperiment: prices and auction are arbitrary; the CSV file and the screen output (except the number of warnings) are not modelled | case analysis of one row, induction over the stocks; C65's statement Fine for the three auctions; counterexamples evaluated by the kernel |
| C78 | Model/GetPrices: the columns of the file as lists of exact numbers | invariant of the loop that deals the prices out; one of L*s consecutive numbers in s has a given remainder; case analysis over the branches |
| C79 | Model/CompareIterations: prices, auctions, shuffles and random numbers are arbitrary; the CSV table is the list of its numbers, the diff files are numbers of notes | the nested loops as sums over the list of contests (induction over iterations, sizes, stocks); Fine of C65 per contest, means of inequalities; C66 for the diff files; counterexamples evaluated by the kernel |
| C80 | Model/Ascending, Spec/Coalition (a market with additional agents, who stays, expected utility) | if all members gained, all stay at prices below their values; then with the true values the same agents leave in the same order (path and ending congruence), so prices and chances are the same |
| C81 | Model/McAfee, Model/TradeReduction, Spec/Coalition | McAfee: the greedy rounds below the last trading agents are unchanged (SameBelow), the heuristic price as well; trade reduction: equality with the ascending auction (C66) and C80 |
| C82 | Model/TreeAuction, Spec/Coalition | lockstep of the two runs: as long as all members are in and prices are below their values, both runs raise the same prices and remove the same agents; monotonicity of prices and departures |
| C83 | Model/Multibuyer: the conversion of recipes, the nested loops (with fuel), the resulting trade; recipes are lists of non-negative integers, the text of trades with deals is not modelled | induction over recipes; measure agents + 2*target for the nested loops; the sellers' loop never empties the market, and the buyers' loop reads the lowest value of every category before each removal |
| C84 | Model/Ascending, Model/TreeAuction; Spec/Threshold | The states on the way are determined by the numbers of agents as long as the prices are below balance, prices only rise, so it is enough to look at the last state; trees: the lock-step argument of C82. |
| C85 | Model/Markets, Model/McAfee, Model/Ascending, Model/TradeReduction; Spec/Reorder | the j-th deal of the greedy algorithm is a concatenation over the list of pairs (category, recipe entry), so a permutation of that list permutes it; with C20 and C28 for the auctions. |
| C86 | Model/Multirecipe (parameters: the order of sets, the solver); Spec/Multirecipe | an invariant of the loop (rationality, balance, equal sums), an analysis of the recipes, and induction on the number of recipes for the restarts. |
| C87 | Model/Multirecipe, Model/Ascending | a simulation: both loops keep the same agents and the same prices of the used categories. |
| C88 | Model/Multirecipe, Model/Markets | an invariant per recipe: a category that lost an agent is at most one smaller than the largest one; agents who left have values of at most prices with a negative sum. |
| C89 | existing models of the optimal trade and of the three protocols; Spec/Units (changed, CancelOut, Moderate) | the greedy rounds, the path of the clock, and the visits of the trade-reduction protocol are shown to correspond step by step: every compared sum is multiplied by c, or contains a dummy -MAX_VALUE and is negative in both markets |
| C90 | Model/OldPrices: the old class with the list of prices that its vectors share; Spec/OldPrices (PerRecipe) | closed form of the loop that raises the vectors one after the other (a second raise of the same category changes nothing), then comparison with the closed form of the rewrite (C15) |
| C91 | Model/OldRecipeTree: the methods of recipetree.old.py that differ from recipetree.py; Spec/Cut (IsCut, ExactSizes) | structural induction over forests; both choices are instances of one inductive description of cuts |
| C92 | Model/BadInputSearch: the script, with random.shuffle as an arbitrary function; Spec/BadInputSearch (withoutMultiples) | induction over the rounds; each round by C20 |
| C93 | Model/StockSizes: the script, with the prices and the sizes as arguments; Spec/StockSizes (MarketOfSize, shownSizes, TrialOn, ReportsTrial, RowAsPredicted) | induction over sizes and stocks; the predictions from C79 (contest_fine) on each market |
| C94 | Model/ShuffledStock: the script, with its dictionaries as functions that are changed in place, and the prices as argument; getAllPricesShuffled with an arbitrary shuffle. Names of auctions that contain mcafee or ratio are excluded; Spec/ShuffledStock (MarketFrom, rowsFor, ShowsTrial, ShowsAverage, ShuffledAsPredicted) | closed form of the loops over iterations and sizes; the measurement is a function of the market, so equal rows; predictions from C93 (trial_fine), closed under sums, divisions and rounding |
| C95 | Model/Floating: the functions of the three protocols once more, with a rounding fl after every arithmetic operation on numbers that may be floats; Spec/Floating (Double, Rounding, WholeReports, withRoundedPrices, nearestFloat = round to nearest even with 53 binary digits). Sums of floats are from left to right (before Python 3.12; later versions add a correction, which is zero when nothing is rounded). The recipe-tree auction is covered by C96; TradeWithSinglePrice.gain_from_trade is not covered | every intermediate result is a whole number below 2**53 and thus unchanged by rounding, except quotients, which are compared only with quotients or whole numbers that differ by more than the spacing of floats; the last price is the only rounded one |
| C96 | Model/FloatingTree: the functions of the recipe-tree auction once more, with a rounding fl after every addition and subtraction; Spec/Floating (WholeTreeReports, WholePrices, InUnits). The solver of the initial prices is an assumption (its contract, and that it returns whole prices, as in the doctests) | invariant of the loop: all prices are whole numbers between -P and 100000000 and all price sums are whole numbers below 2**53, hence no operation rounds; the version with units is an invariant of the exact loop |
| C97 | existing models of the protocols; Spec/Unneeded (needed, neededMarket, neededTrade, AgreeAt, SameTreeOutcome) | simulation of the run on the whole market by the run on the smaller market, with renumbered categories; for trees congruence of all tree functions in the categories of the tree and lockstep of the two runs |
| C98 | existing model of the recipe-tree auction (the solver is a parameter); helper notions Chain, Inv, Good in Proofs/StartPrices* | a run is a chain of raises of cuts that never pass a value; an intrinsic description (Good) of the settled prices of a subtree in terms of their sum determines them uniquely; an invariant (Inv) is kept by raises of any size and implies Good once the sum is above a limit that is passed before the auction can end; the moments of two runs with the same sum therefore coincide |
| C99 | Existing model of the auction; separate specification `SameMarket` in Spec/SameMarket (paths of the trees, values as multisets). | The paths of a tree of different categories determine it up to the order of siblings; the choice of categories to raise commutes with renumbering, reordering and conversion, so a run on one market is a run on the other one, from converted prices. Those prices need not be low enough, so a third run with very low initial prices (which exist) is used, and C98 identifies its outcome with that of the given runs. |
| C100 | Existing model of the auction loop. | Simulation: a relation between the states of the two loops is kept by every iteration; the raise of an iteration is the smallest possible one over the chosen categories, and these correspond. |
| C101 | tradeReduction with its flag z (Model/TradeReduction), the model of trade_reduction_protocol.py 34-262. | Simulation between the two runs on the abstract machine of Proofs/TradeReduction: both are at the same place, or the run with the option has stopped earlier (higher ranks). Equality when no weighted sum is 0 because both tests then agree at every visit. Literal markets for the gain; a family of markets for the loss, with C28 for the lower bound. |
| C102 | ascendingAuction of Model/Floating, in which every operation on floats is rounded (the corrected summation of Python 3.12 is not modelled); FloatReports, NoNearlyWorthlessDeal in Spec/Floating | the rounded loop visits size vectors like the exact one (Proofs/FloatingDecimals); the error of each sum is bounded by induction over the categories, and a sum of two floats is never rounded to zero (Proofs/FloatingError); counterexamples by computation in the kernel |
| C103 | optimalTrade and materialGain of Model/Floating, in which every operation on floats is rounded; FloatReports in Spec/Floating; Feasible, totalGain of Spec/Trades | the rounded loop takes the blocks of the exact one up to some index (Proofs/FloatingOptimal); error of a rounded sum by induction over the list; greedy comparison of the sums of blocks as in C05, with an error for each block |
| C104 | mcafeeTradeReduction and optimalTrade of Model/Floating, in which every operation on floats is rounded; FloatReports in Spec/Floating; IsTop of Spec/Agents | the trade consists of the agents of given ranks (pick, Proofs/FloatingMcAfeeRun); a deal of higher rank with a computed gain not below that of another one is nearly as good for each agent; sums of two floats have the right sign |
| C105 | Ascending.auction, TradeReduction.tradeReduction, McAfee.mcafeeTradeReduction; AsGood of Spec/Monotone; singlePrice, singleRemaining, singleChance of Spec/Coalition | every state of the auction in the better market corresponds to a state of the auction in the other one (Better.path, Proofs/Competitor): the clock that moves next depends on the sizes only, and price sums are larger; so it stops earlier; balance then moves the price of the better category up |
| C106 | TreeAuction.auction; offers, Clears, gainfulPairs of Spec/Offers | the invariant of C59 (the number of agents of a node is the number of combined values above its clock) with the actual final prices; whichever of root and children was raised last fixes the price (root_price, arun_end in Proofs/TreeClearing) |
| C107 | TreeAuction.auction; AsGood of Spec/Monotone | from C106: better offers only make more prices clear the market, better agents of the root fewer (offers_asGood, clears_mono) |
| C108 | TreeAuction.auction; offers, ClearsFor, PricesClear, Reached of Spec/Offers | the invariant of C59 at every node (node_price of Proofs/TreeClearing), by induction over the tree with the total that is left; a node's clock and its children's clocks are within one raise of each other, and whichever was raised last fixes the price |
| C109 | TreeAuction.auction; RecipeTree.optimalTrade; leafParents of Spec/LeafParents | with the invariant of C59 at a moment just before the end: the offers of a group of siblings that reach the clock are at most those the remaining agents can make, plus one for every group with a leaf in it (lost_le of Proofs/TreeLost, by induction over the tree); with one group the remaining offers are the best ones (top_offers) |
| C110 | Floating.tradeReduction, Floating.optimalTrade with any rounding fl; Rounding, FloatReports of Spec/Floating | the protocol is a walk over the agents of the deals, which are taken in the order of the rounded optimum (visits_order): agents are rejected while the rounded competition fails (Rejected), the first success fixes the prices; a trader's value is at least that of an agent the competition accepted, up to errors of the dot product; a deal worth more than the error cannot be rejected as a whole (rejected_blk) |
| C111 | Floating.treeAuction, Floating.treeLoop, Floating.increasePrices with a rounding fl; Rounding, DecimalTreeReports, NearInitialPrices of Spec/Floating | invariant FInv of the loop: all path sums are within 2 eps plus an error growing by a constant number of units per iteration of each other, every raised category of an iteration is raised by the same amount up to a unit, no value is above the price after removal; if the loop stops at zero sum the first path's sum is at most a few units from zero |
| C112 | Floating.ascendingAuction with a rounding fl; withAgent and utility of Spec/Truthful; Rounding, FloatReports of Spec/Floating | if the false report gains more than the error by which an agent that left can be above the price, then the true value is above all agents that left, so the run with the true report goes through the same states (flPath_congr) and the clock stops at the same state: the computed sum at the true value is not negative because the rounded balancing price is below that value and both numbers are floats (stops_above); the run is unique (FlEnding.unique) |
| C113 | Floating.gainFromTrade of Model/FloatingTrade (after every operation a rounding fl); FloatTrade of Spec/FloatingTrade | induction over the categories with the exact and the computed partial sum: the sum of s values has an error of s units, the probability is a float between 0 and 1 with an error of 2^-53, which times the sum is at most one unit, and there are four more roundings per category; with fl = id the function is that of the exact model |
| C114 | Floating.mcafeeTradeReduction of Model/Floating (after every operation a rounding fl) | an agent that gains by more than its price trades in both runs: above its price, a changed report leaves all agents after the last deal in place and makes no deal worse (rounded sums are monotone), so both runs make the same number of optimal deals; the last deal of the true report has at most the price of the false one, and the dropped deal is at most 2n/2^k better than the last |

None of the listed properties is considered inexpressible. Properties about floating-point rounding beyond C95, the logger and the file system
are not listed because the model has no such notions (random generators are arbitrary functions, files are their contents).

## 3. Trusted base

* Lean 4.33.0 kernel; axioms `propext`, `Classical.choice`, `Quot.sound` only.
* The reading of the Python code into the definitions of `Verif/Model` (no Python is run here), and the idealisations above.

### Evidence for the reading of the code

`Verif/Fidelity` compares the model with the behaviour that the repository itself records: all doctests of the three single-recipe protocols, of
`recipetree.py`, of `recipetree_integer.py` and of the tree auctions, the unit tests of the auctions (`tools/doctests.py` generates these files
from the text of `/repo`; no code of `/repo` is run), and the doctests of the basic classes (by hand). They are about 400 kernel-checked examples: tests of the
model, not proofs, and no claim in `MANIFEST.json` rests on them. They found one error of the model (`recipe_from_path` without counts, corrected) and the following
records that contradict the code as written; there the model follows the code:

* `ascending_auction_test.py:85-91, 99-105`: the expected prices are those of the tree auction on a chain, not of the single-recipe auction.
* `prices_integer.py:266-267`: expects -200 where line 287 computes -150.
* `recipetree_integer.py`: the doctests of `combined_values_detailed_with_counters` omit the counters that it returns.
* `ascending_auction_recipetree_protocol.py:92, 103`: printed markets that are not the ones created, and a missing result.

The recorded experiments in `stock/results_bak` and the markets in `stock/diff_in_sbbs_gft.txt` (`Fidelity/Recorded`, generated by `tools/recorded.py`): the nine
recorded markets and about 440 rows of the tables are checked by the kernel; all 3234 rows with at most 25 procurement-sets were checked once with the
compiled model. Optimum, McAfee's protocol (with and without its heuristic) and the ascending auction agree in every row. The columns of trade reduction in the tables
were made with an older version of the protocol (they break C67) and are not used; in `diff_in_sbbs_gft.txt`, which is newer, they agree.
