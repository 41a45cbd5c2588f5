{"id": "C01", "title": "A category is a sorted multiset under every history", "statement": "After AgentCategory(name, values) followed by any sequence of append(x), append([..]), remove_highest_agent(), remove_highest_agents(n), remove_lowest_agent() and clone(), the category's values are in descending order, and as a multiset they are exactly: the initial values, plus everything appended, minus the maximum / the n largest / the minimum at each removal. A removal from an empty category (or of more agents than exist) raises IndexError and nothing else raises.", "quantifier": "all initial value lists and all finite operation sequences", "why_tests_cant": "the auctions index values[0] and values[-1] on the assumption that every past operation kept the list sorted; the histories are unbounded", "anchors": ["agents.py:AgentCategory.__init__", "agents.py:AgentCategory.append", "agents.py:AgentCategory.remove_highest_agent", "agents.py:AgentCategory.remove_highest_agents", "agents.py:AgentCategory.remove_lowest_agent", "agents.py:AgentCategory.clone"]}
{"id": "C02", "title": "Highest and lowest queries answer for the whole category", "statement": "highest_agent_value() is an element of the category that is >= every element, lowest_agent_value() one that is <= every element, highest_agent_values(n) is the n largest elements in descending order (all of them if n exceeds the size); the two single-value queries raise IndexError exactly on an empty category.", "quantifier": "all categories reachable by any history, all n", "why_tests_cant": "needs a universally quantified statement over all reachable categories", "anchors": ["agents.py:AgentCategory.highest_agent_value", "agents.py:AgentCategory.highest_agent_values", "agents.py:AgentCategory.lowest_agent_value"]}
{"id": "C03", "title": "Optimal trade conserves agents", "statement": "For optimal_trade(recipe), the returned deals can be split per category so that every deal uses exactly recipe[i] agents of category i, and for every category the agents used in deals together with the agents left in the remaining market are, as a multiset, exactly the agents of the input category: nobody is invented, lost or traded twice.", "quantifier": "all markets, recipes of matching length, iteration limits, and both settings of include_zero_gft_ps", "why_tests_cant": "multiset conservation over all sizes of market", "anchors": ["markets.py:Market.optimal_trade", "markets.py:Market.get_highest_agents", "markets.py:Market.remove_highest_agents"]}
{"id": "C04", "title": "Optimal trade lists only gainful deals in ascending order", "statement": "Every deal returned by optimal_trade has gain-from-trade >= 0 (> 0 when include_zero_gft_ps=False) and the deals are ordered by ascending gain-from-trade. (The docstring's 'positive' holds only with include_zero_gft_ps=False: a zero deal is returned by default.)", "quantifier": "all markets, recipes, limits and both flag values", "why_tests_cant": "order and sign must hold for every market", "anchors": ["markets.py:Market.optimal_trade"]}
{"id": "C05", "title": "Optimal trade is globally optimal", "statement": "No feasible set of deals (each using recipe[i] agents of category i, no agent used twice) has a larger total gain-from-trade than the one returned by optimal_trade, provided max_iterations is at least the number of agents and the recipe uses at least one agent.", "quantifier": "all markets, all recipes, all feasible alternative sets of deals", "why_tests_cant": "optimality compares against every feasible trade, of which there are exponentially many", "anchors": ["markets.py:Market.optimal_trade", "trade.py:TradeWithMaterialBalance.gain_from_trade"]}
{"id": "C06", "title": "Optimal trade is maximal in number of deals", "statement": "Among feasible sets of deals that attain the optimal gain, the default optimal_trade has the largest number of deals and include_zero_gft_ps=False the smallest; and the best procurement-set that could be formed from the remaining market has negative (resp. non-positive) gain, or cannot be formed.", "quantifier": "all markets, recipes and optimal feasible alternatives", "why_tests_cant": "quantifies over every optimal alternative", "anchors": ["markets.py:Market.optimal_trade"]}
{"id": "C07", "title": "Recipe/market mismatch is rejected", "statement": "optimal_trade, the single-recipe ascending auction, McAfee and trade reduction raise ValueError whenever the recipe length differs from the number of categories; McAfee also raises ValueError whenever some recipe entry is not 1; a market without categories cannot be built (ValueError).", "quantifier": "all markets and recipes", "why_tests_cant": "must hold for each length combination", "anchors": ["markets.py:Market.__init__", "markets.py:Market.optimal_trade", "ascending_auction_protocol.py:budget_balanced_ascending_auction", "mcafee_protocol.py:mcafee_trade_reduction", "trade_reduction_protocol.py:budget_balanced_trade_reduction"]}
{"id": "C08", "title": "Inputs accepted by an auction never make it crash", "statement": "With a recipe of matching length using at least one agent per procurement-set, optimal_trade and the single-recipe ascending auction return a trade for every market (no exception of any kind); McAfee does so for every recipe of ones and trade reduction for every recipe of positive entries. For a recipe of zeros the ascending auction raises ValueError.", "quantifier": "all non-empty markets (categories may be empty) and recipes", "why_tests_cant": "absence of IndexError/ZeroDivisionError over all inputs", "anchors": ["ascending_auction_protocol.py:budget_balanced_ascending_auction", "mcafee_protocol.py:mcafee_trade_reduction", "trade_reduction_protocol.py:budget_balanced_trade_reduction", "trade.py:TradeWithSinglePrice.__init__"]}
{"id": "C09", "title": "Best containing procurement-set", "statement": "best_containing_PS(c, v) returns v at position c and agents of the market elsewhere, and no procurement-set with v at position c and one agent of every other category has a larger gain (with any non-negative weights ps_recipe); it raises IndexError exactly when another category is empty.", "quantifier": "all markets, categories, values and competing procurement-sets", "why_tests_cant": "compares with all other procurement-sets", "anchors": ["markets.py:Market.best_containing_PS"]}
{"id": "C10", "title": "External-competition prices balance", "statement": "calculate_prices_by_external_competition(c, v, best_containing_PS(c, v), recipe) returns prices whose recipe-weighted sum is 0; the pivot's price is at most its value exactly when the recipe-weighted sum of the containing set is >= 0; division by zero happens exactly when recipe[c]=0.", "quantifier": "all markets, pivots and recipes", "why_tests_cant": "algebraic identity over all rationals and lengths", "anchors": ["markets.py:Market.calculate_prices_by_external_competition"]}
{"id": "C11", "title": "Number of deals of a single-price trade", "statement": "TradeWithSinglePrice.num_of_deals() is the greatest m such that m deals can be staffed, i.e. m*recipe[i] <= size of category i for all i; construction raises ValueError exactly when no recipe entry (paired with a category) is positive.", "quantifier": "all category lists, recipes", "why_tests_cant": "greatest-such-m over all sizes", "anchors": ["trade.py:TradeWithSinglePrice.__init__", "trade.py:TradeWithSinglePrice.num_of_deals"]}
{"id": "C12", "title": "Trader gain plus auctioneer surplus is total gain", "statement": "gain_from_trade(True) - gain_from_trade(False) equals num_of_deals times the recipe-weighted price sum; hence they agree when prices balance, and traders get less than the total exactly when the auctioneer runs a surplus.", "quantifier": "all trades", "why_tests_cant": "identity over all sizes and rationals", "anchors": ["trade.py:TradeWithSinglePrice.gain_from_trade"]}
{"id": "C13", "title": "Reported gain is the expected gain of the random selection", "statement": "gain_from_trade(True) equals the sum over categories of the average, over all ways of choosing recipe[i]*num_of_deals agents out of category i, of the chosen agents' total value (the 'random m out of n agents trade' that the trade reports).", "quantifier": "all trades with categories non-empty", "why_tests_cant": "average over all subsets of any category", "anchors": ["trade.py:TradeWithSinglePrice.gain_from_trade", "trade.py:TradeWithSinglePrice.__repr__"]}
{"id": "C14", "title": "Raising one price never overshoots balance", "statement": "increase_price_up_to_balance(i, x, bound): if recipe[i]>0 the price sum afterwards is min(bound, sum with price x), only price i changes, and the status is STOPPED_AT_ZERO_SUM exactly when the bound is reached; if recipe[i]=0 it raises ZeroDivisionError exactly when the current sum is already >= bound and otherwise sets the price without changing the sum. A new vector holds the given prices and has no status; price_sum_after_increase(i, x) returns the sum of the vector with price x in place i and changes nothing.", "quantifier": "all price vectors, recipes, indices, targets, bounds", "why_tests_cant": "arithmetic law over all rationals", "anchors": ["prices.py:AscendingPriceVector.increase_price_up_to_balance", "prices.py:AscendingPriceVector.price_sum_without_category"]}
{"id": "C15", "title": "Simultaneous raises keep all recipes balanced together", "statement": "increase_prices(increases) raises ValueError unless every recipe contains exactly one of the increased categories (counted with multiplicity); otherwise, if all binary recipes had the same price sum before, they have the same sum afterwards, the sum is min(bound, old sum + smallest requested raise), the status tells whether the bound was reached, and categories not listed keep their price.", "quantifier": "all recipe lists, price vectors, increase lists, bounds; any sequence of calls", "why_tests_cant": "invariant over unbounded sequences of calls", "anchors": ["prices.py:SimultaneousAscendingPriceVectors.increase_prices"]}
{"id": "C16", "title": "The ascending auction always terminates", "statement": "budget_balanced_ascending_auction(market, recipe) halts for every market and recipe: the clock loop runs at most (number of agents + 1) iterations.", "quantifier": "all markets and recipes", "why_tests_cant": "a while True loop; termination cannot be tested", "anchors": ["ascending_auction_protocol.py:budget_balanced_ascending_auction"]}
{"id": "C17", "title": "The ascending auction is strongly budget balanced", "statement": "Whenever the returned trade has at least one deal, the recipe-weighted sum of the prices is exactly 0 (money only moves between traders).", "quantifier": "all markets and recipes", "why_tests_cant": "must hold at whichever iteration the clock stops", "anchors": ["ascending_auction_protocol.py:budget_balanced_ascending_auction", "prices.py:AscendingPriceVector"]}
{"id": "C18", "title": "The ascending auction is individually rational", "statement": "Every agent remaining in the returned trade has value >= the price of its category, for all categories with recipe[i]>0, provided agents' values are at least -MAX_VALUE; categories with recipe[i]=0 keep all their agents and do not trade.", "quantifier": "all markets with values >= -MAX_VALUE and all recipes", "why_tests_cant": "must hold for every agent at any stopping point", "anchors": ["ascending_auction_protocol.py:budget_balanced_ascending_auction"]}
{"id": "C19", "title": "The ascending auction keeps the best agents and envies nobody", "statement": "In each category the agents that remain are exactly a top segment of the category's sorted agents, and every agent that was dropped has value at most the final price of its category (it does not envy a trader).", "quantifier": "all markets and recipes", "why_tests_cant": "quantifies over each dropped agent of every run", "anchors": ["ascending_auction_protocol.py:budget_balanced_ascending_auction"]}
{"id": "C20", "title": "The ascending auction loses at most one deal", "statement": "If k is the number of deals of the optimal trade (including zero-gain deals), the auction makes at least k-1 deals, and never more than k (the upper bound for values >= -MAX_VALUE, as the code assumes).", "quantifier": "all markets with bounded values and all recipes", "why_tests_cant": "k-1 guarantee is a theorem of the mechanism, over all inputs", "anchors": ["ascending_auction_protocol.py:budget_balanced_ascending_auction", "experiment.py:experiment"]}
{"id": "C21", "title": "The ascending auction attains (1-1/k) of the optimal gain", "statement": "The auction's gain_from_trade() is at least (1-1/k) times the gain of the optimal trade, where k>0 is the number of deals in the optimal trade, and never more than the optimal gain.", "quantifier": "all markets with bounded values and all recipes", "why_tests_cant": "competitive-ratio bound over all inputs; experiments only sample it", "anchors": ["ascending_auction_protocol.py:budget_balanced_ascending_auction", "trade.py:TradeWithSinglePrice.gain_from_trade", "experiment.py"]}
{"id": "C22", "title": "The ascending auction is truthful", "statement": "No agent can raise its expected utility (probability of trading times (true value - price)) by being present in the market with a reported value different from its true value, whatever the other agents report.", "quantifier": "all markets, agents, true values and misreports", "why_tests_cant": "a game-theoretic claim over all profiles and deviations", "anchors": ["ascending_auction_protocol.py:budget_balanced_ascending_auction"]}
{"id": "C23", "title": "McAfee is individually rational", "statement": "Every trader in the trade returned by mcafee_trade_reduction has value >= its category's price.", "quantifier": "all markets, recipes of ones, with and without the price heuristic", "why_tests_cant": "every trader of every run", "anchors": ["mcafee_protocol.py:mcafee_trade_reduction", "mcafee_protocol.py:is_price_good_for_ps"]}
{"id": "C24", "title": "McAfee loses at most the least valuable deal", "statement": "mcafee_trade_reduction makes k or k-1 deals, where k is the number of optimal deals, using the k or k-1 highest agents of each category; without the heuristic it makes exactly k-1 (0 if k=0). Its gain is at least (1-1/k) of the optimum and at most the optimum.", "quantifier": "all markets, recipes of ones, both heuristic settings", "why_tests_cant": "ratio bound over all inputs", "anchors": ["mcafee_protocol.py:mcafee_trade_reduction"]}
{"id": "C25", "title": "McAfee never runs a deficit in a two-sided market", "statement": "In a market with two categories, or with price_heuristic=False in any market, the prices of mcafee_trade_reduction sum to at least 0. (With three or more categories and the heuristic, a deficit is possible: an explicit market is exhibited.)", "quantifier": "all two-category markets, both settings; all markets with the heuristic off", "why_tests_cant": "budget claim over all inputs", "anchors": ["mcafee_protocol.py:mcafee_trade_reduction"]}
{"id": "C26", "title": "Trade reduction is strongly budget balanced", "statement": "Whenever budget_balanced_trade_reduction returns a trade with a deal, its prices' recipe-weighted sum is exactly 0.", "quantifier": "all markets, recipes of positive integers, both including_gft_0 settings", "why_tests_cant": "holds whichever pivot finds external competition", "anchors": ["trade_reduction_protocol.py:budget_balanced_trade_reduction", "markets.py:Market.calculate_prices_by_external_competition"]}
{"id": "C27", "title": "Trade reduction is individually rational", "statement": "Every trader in the trade returned by budget_balanced_trade_reduction has value >= its category's price.", "quantifier": "all markets, recipes of positive integers, both settings", "why_tests_cant": "every trader of every run", "anchors": ["trade_reduction_protocol.py:budget_balanced_trade_reduction"]}
{"id": "C28", "title": "Trade reduction loses at most one deal", "statement": "budget_balanced_trade_reduction (default including_gft_0) makes k or k-1 deals, where k is the number of deals of the optimal trade, and attains at least (1-1/k) of the optimal gain.", "quantifier": "all markets, recipes of positive integers", "why_tests_cant": "ratio bound over all inputs", "anchors": ["trade_reduction_protocol.py:budget_balanced_trade_reduction"]}
{"id": "C29", "title": "Pivot indexing is consistent", "statement": "The two ways trade reduction maps a position in a procurement-set to a category agree: for every position p < sum(recipe), convert_category_index(recipe, p) is the category whose block of recipe[i] consecutive positions contains p, and the order in which positions are visited enumerates each position exactly once.", "quantifier": "all recipes (zeros allowed) and positions", "why_tests_cant": "off-by-one claim over all recipes", "anchors": ["trade_reduction_protocol.py:convert_category_index", "trade_reduction_protocol.py:budget_balanced_trade_reduction"]}
{"id": "C30", "title": "Recipe tree enumerates exactly its root-leaf recipes", "statement": "RecipeTree(categories, struct).recipes() lists, in left-to-right order, one 0/1 vector per root-to-leaf path, having 1 exactly at the categories on the path; paths_to_leaf lists those paths. A structure whose length is odd raises ValueError and an out-of-range category index raises IndexError.", "quantifier": "all nested structures and numbers of categories", "why_tests_cant": "trees of unbounded size and depth", "anchors": ["recipetree.py:RecipeTree.__init__", "recipetree.py:RecipeTree.paths_to_leaf", "recipetree.py:RecipeTree.recipe_from_path", "recipetree.py:RecipeTree.recipes"]}
{"id": "C31", "title": "Tree optimal gain is the maximum over all feasible trades", "statement": "optimal_trade_GFT() equals the largest total value of any feasible set of deals, where each deal takes one agent from every category of some root-leaf path and no agent is used twice; optimal_trade() returns deals attaining that gain, and its count is their number.", "quantifier": "all trees with distinct categories, all agent values, all feasible trades", "why_tests_cant": "exponentially many feasible trades", "anchors": ["recipetree.py:RecipeTree.combined_values", "recipetree.py:RecipeTree.optimal_trade_GFT", "recipetree.py:RecipeTree.optimal_trade", "recipetree.py:RecipeTree.combined_values_detailed"]}
{"id": "C32", "title": "Tree number of deals is the maximum feasible", "statement": "num_of_deals() is the largest number of deals any feasible assignment of agents to root-leaf paths can have, and num_of_deals_explained(...)[0] is the same number; its kmin/kmax are the sizes of the smallest/largest leaf category.", "quantifier": "all trees with distinct categories and all category sizes", "why_tests_cant": "maximum over all assignments", "anchors": ["recipetree.py:RecipeTree.num_of_deals", "recipetree.py:RecipeTree.num_of_deals_explained"]}
{"id": "C33", "title": "The price-raising set cuts every recipe exactly once", "statement": "largest_categories(indices=True) returns categories such that every root-leaf path contains exactly one of them; hence the tree auction's increase_prices call never fails with 'exactly one increase per recipe'.", "quantifier": "all trees with distinct categories and all sizes", "why_tests_cant": "tree-shaped induction", "anchors": ["recipetree.py:RecipeTree.largest_categories", "prices.py:SimultaneousAscendingPriceVectors.increase_prices"]}
{"id": "C34", "title": "The tree auction is strongly budget balanced on every recipe", "statement": "Whenever the tree auction returns a trade with at least one deal, for every recipe of the tree the prices of its categories sum to exactly 0.", "quantifier": "all markets, trees with distinct categories, and all initial prices meeting the documented contract", "why_tests_cant": "invariant over the unbounded loop", "anchors": ["ascending_auction_recipetree_protocol.py:budget_balanced_ascending_auction", "prices.py:SimultaneousAscendingPriceVectors"]}
{"id": "C35", "title": "The tree auction is individually rational", "statement": "Every agent remaining in the tree auction's outcome has value >= the final price of its category (values above the initial prices), and the remaining agents of each category are its top agents.", "quantifier": "all markets, trees, initial prices", "why_tests_cant": "every agent, every stopping point", "anchors": ["ascending_auction_recipetree_protocol.py:budget_balanced_ascending_auction"]}
{"id": "C36", "title": "The tree auction never reports more than the optimum", "statement": "The tree auction's gain_from_trade() is at most the optimal gain of the market and num_of_deals() at most the maximum number of deals of the market.", "quantifier": "all markets and trees", "why_tests_cant": "monotonicity over all runs", "anchors": ["ascending_auction_recipetree_protocol.py:TradeWithMultipleRecipes"]}
{"id": "C37", "title": "When the tree auction terminates", "statement": "If every category that has a sibling in the tree is a leaf, or has a subtree in which all categories have agents with pairwise different values, and values are small compared with MAX_VALUE (V*(2L-1) < MAX_VALUE for longest path length L), then the tree auction returns after at most one more iteration than there are agents. The condition cannot be dropped: there are markets (one with empty categories; one without empty categories, with small values and three equal agents in one category) on which the auction loops forever.", "quantifier": "all trees, markets within the condition, all solvers for the initial prices", "why_tests_cant": "termination and divergence of while True", "anchors": ["ascending_auction_recipetree_protocol.py:budget_balanced_ascending_auction"]}
{"id": "C38", "title": "A tree with a single category crashes the tree auction", "statement": "optimal_trade() of a tree whose root has no children raises TypeError whenever the category is non-empty (it sums a number), so the tree auction raises TypeError on every such market instead of returning a trade.", "quantifier": "all markets, all single-node structures", "why_tests_cant": "characterises all failing inputs", "anchors": ["recipetree.py:RecipeTree.optimal_trade", "ascending_auction_recipetree_protocol.py:budget_balanced_ascending_auction"]}
{"id": "C39", "title": "Auctions do not modify the caller's market", "statement": "Running optimal_trade, McAfee, trade reduction or an ascending auction leaves every category of the caller's market unchanged, although categories are mutable objects that are modified in place during the run.", "quantifier": "all markets, recipes, all runs, in a model with explicit object identities", "why_tests_cant": "aliasing must be excluded in every run", "anchors": ["markets.py:Market.clone", "agents.py:AgentCategory.clone", "ascending_auction_protocol.py:budget_balanced_ascending_auction", "markets.py:Market.optimal_trade"]}
{"id": "C40", "title": "Integer tree auction agrees with the binary one when all counts are 1", "statement": "With agent_counts all 1 (or omitted) and equal initial prices, the integer recipe-tree auction returns the same remaining agents, prices, number of deals and gain as the binary one.", "quantifier": "all markets and trees", "why_tests_cant": "equivalence of two implementations over all inputs", "anchors": ["ascending_auction_recipetree_integer_protocol.py:budget_balanced_ascending_auction", "recipetree_integer.py:RecipeTree", "prices_integer.py"]}
{"id": "C41", "title": "Integer tree auction: rational but not budget balanced", "statement": "The integer tree auction is individually rational for every agent_counts; but because agent_counts is not passed on to the price vectors it is not budget balanced: explicit markets with a surplus and with a deficit are exhibited; with counts 1 it is balanced if the category indices increase along every path of the tree, and otherwise not always; it raises nothing once the tree and the initial prices are constructed.", "quantifier": "all markets, trees, counts (rationality); existential (imbalance)", "why_tests_cant": "claim over all runs plus a concrete refutation", "anchors": ["ascending_auction_recipetree_integer_protocol.py:budget_balanced_ascending_auction", "prices_integer.py:SimultaneousAscendingPriceVectors"]}
{"id": "C42", "title": "Explicit initial prices are balanced", "statement": "prices_integer.calculate_initial_prices returns, whenever the last category of each recipe is not used by another recipe, prices that are all <= the (negative) bound and give all recipes the same sum; otherwise it may raise ValueError or silently return unbalanced prices (explicit instance).", "quantifier": "all recipe lists", "why_tests_cant": "over all numbers of recipes and categories", "anchors": ["prices_integer.py:calculate_initial_prices"]}
{"id": "C43", "title": "Tree measurements", "statement": "get_depth_and_agents_size(t) returns the number of categories on the longest root-leaf path and the largest category index; get_children_counts gives each category its number of children (1 for None). get_agents_analyze, on a tree with root 0 and another category, returns counts that have the same sum, twice the depth minus 2, on every path to a leaf.", "quantifier": "all nested structures", "why_tests_cant": "unbounded trees", "anchors": ["tree_calculations.py:get_depth_and_agents_size", "tree_calculations.py:calculate_children_counts"]}
{"id": "C44", "title": "Chain structures represent their recipe", "statement": "For a 0/1 recipe with at least one 1, the tree built from ps_recipe_to_recipe_struct(recipe) has exactly one recipe, and it is that recipe; its path has category 0 last and the others in increasing order. A recipe of zeros gives None.", "quantifier": "all 0/1 recipes", "why_tests_cant": "all lengths", "anchors": ["ascending_auction_recipetree_test.py:ps_recipe_to_recipe_struct", "recipetree.py:RecipeTree.recipes"]}
{"id": "C45", "title": "Trade reduction is truthful for recipes of ones, not for general recipes", "statement": "If every recipe count is 1 and values are moderate, no agent can increase its expected utility in budget_balanced_trade_reduction by reporting a value other than its true one, and truth-telling never gives a negative utility. With recipe [1,2] this fails: there is a market in which an agent strictly gains by misreporting.", "quantifier": "all markets, categories, true values and reports, both including_gft_0 settings (recipes of ones); existential (recipe [1,2])", "why_tests_cant": "quantifies over all misreports in all markets, and a refutation by witness", "anchors": ["trade_reduction_protocol.py:budget_balanced_trade_reduction"]}
{"id": "C46", "title": "McAfee without the heuristic is truthful", "statement": "With price_heuristic=False, no agent in any category can increase its utility (value minus price if it trades, else 0) by reporting a value other than its true one to mcafee_trade_reduction; and truth-telling never gives a negative utility.", "quantifier": "all markets, categories, true values and reports", "why_tests_cant": "quantifies over all misreports in all markets", "anchors": ["mcafee_protocol.py:mcafee_trade_reduction"]}
{"id": "C47", "title": "The price heuristic breaks truthfulness with three categories", "statement": "With price_heuristic=True and three categories there is a market in which an agent strictly gains from misreporting to mcafee_trade_reduction.", "quantifier": "existential", "why_tests_cant": "shows that the guarantee of C46 cannot be extended to the heuristic; a passing test suite would suggest otherwise", "anchors": ["mcafee_protocol.py:mcafee_trade_reduction", "mcafee_protocol.py:is_price_good_for_ps"]}
{"id": "C48", "title": "When the gain of a single-price trade is defined", "statement": "For a TradeWithSinglePrice with a deal, gain_from_trade() returns a number if every category has a trader and raises ZeroDivisionError if some category has none. The latter is reachable: an ascending auction on a market with an empty category that the recipe does not use returns such a trade.", "quantifier": "all trades, both values of including_auctioneer; existential (reachability)", "why_tests_cant": "all shapes of trades", "anchors": ["trade.py:TradeWithSinglePrice.gain_from_trade"]}
{"id": "C49", "title": "Adding agents to a market", "statement": "append_trader(i,v) raises IndexError if there is no category i, otherwise it adds one agent of value v to category i, keeps it sorted and changes no other category. append_PS(ps) raises ValueError unless ps has one value per category, otherwise adds to every category exactly one agent with its value in ps. has_empty_category() is True exactly when some category has no agent; empty_agent_categories() has the same names and no agents.", "quantifier": "all markets, indices, values and procurement-sets", "why_tests_cant": "all sizes and values", "anchors": ["markets.py:Market.append_trader", "markets.py:Market.append_PS", "markets.py:Market.has_empty_category", "markets.py:Market.empty_agent_categories"]}
{"id": "C50", "title": "Which recipe lists a simultaneous price vector accepts", "statement": "SimultaneousAscendingPriceVectors(ps_recipes, ...) raises ValueError exactly when the list is empty or two recipes have different lengths; otherwise it holds the recipes, the initial prices and no status.", "quantifier": "all lists of recipes", "why_tests_cant": "all lists", "anchors": ["prices.py:SimultaneousAscendingPriceVectors.__init__"]}
{"id": "C51", "title": "Integer tree: the computed gain is the maximum", "statement": "For a recipe tree whose nodes are different categories, with positive agent_counts, in which a deal of a path takes agent_counts[i] agents of every category i on it, optimal_trade returns deals that use no agent twice, each of a path of the tree, and its gain is the maximum over all such sets of deals; optimal_trade_GFT returns the same gain.", "quantifier": "all trees with different categories, all positive counts, all values", "why_tests_cant": "optimality over all trades of all trees and counts", "anchors": ["recipetree_integer.py:RecipeTree.optimal_trade", "recipetree_integer.py:RecipeTree.combined_values", "recipetree_integer.py:RecipeTree.optimal_trade_GFT"]}
{"id": "C52", "title": "Integer tree: construction, recipes, numbers of deals and chosen categories", "statement": "RecipeTree(categories, struct, agent_counts) succeeds exactly on well-formed structures whose indices are in range of both lists; recipes() lists, for each path to a leaf, the vector with agent_counts[i] at the categories i of the path; num_of_deals() is the maximum number of deals; num_of_deals_explained() reports it, the smallest positive and the largest number of complete groups in a leaf; largest_categories chooses different categories, exactly one on every path.", "quantifier": "all structures, counts and category sizes", "why_tests_cant": "unbounded trees", "anchors": ["recipetree_integer.py:RecipeTree.__init__", "recipetree_integer.py:RecipeTree.recipes", "recipetree_integer.py:RecipeTree.num_of_deals", "recipetree_integer.py:RecipeTree.num_of_deals_explained", "recipetree_integer.py:RecipeTree.largest_categories"]}
{"id": "C53", "title": "Integer tree auction: when it ends", "statement": "The integer tree auction ends, within as many iterations as there are agents plus one, on every market if no category of the tree has two children, whatever the (positive) counts; in general it does not always end: there is a market with agents of different small values in every category on which it runs forever.", "quantifier": "all markets, chains and counts; existential (divergence)", "why_tests_cant": "termination of every run, and a run that never ends", "anchors": ["ascending_auction_recipetree_integer_protocol.py:budget_balanced_ascending_auction"]}
{"id": "C54", "title": "Recipe-tree queries and shared category objects", "statement": "A recipe tree refers to the category objects it was built on. optimal_trade_GFT leaves every category as it was, although combined_values of a leaf returns the category's own list. The integer tree's optimal_trade and optimal_trade_GFT sort the lists of the categories in place, so they leave categories that are sorted (as AgentCategory keeps them) as they were, but modify a category whose values attribute the user has set to an unsorted list. Market does not copy its categories: append_trader is seen by every holder of the category object; Market.clone() shares nothing with the original, in either direction.", "quantifier": "all heaps (any sharing of category and list objects), trees and markets; existential for the modification", "why_tests_cant": "aliasing must be excluded for every sharing pattern", "anchors": ["recipetree.py:RecipeTree.combined_values", "recipetree_integer.py:RecipeTree.combined_values", "markets.py:Market.clone", "markets.py:Market.append_trader", "agents.py:AgentCategory.clone"]}
{"id": "C55", "title": "Price vectors with agent counts", "statement": "For a vector of prices_integer.py, price_sum() and price_sum_after_increase(i,x) weight every price with the recipe and the agent counts. increase_price_up_to_balance ignores the count of the raised category: it stops where the sum with one agent in the category hits the bound; so the reported stop at the bound is correct for a category with one agent, and for a category with several agents only if the other categories alone have that sum. increase_prices raises every listed category by the common amount times its agent count, never checks the recipes, and so can exceed the requested prices and the bound and unbalance the recipes.", "quantifier": "all vectors, counts, categories, prices and bounds; existential for the overshoots", "why_tests_cant": "all counts and prices", "anchors": ["prices_integer.py:AscendingPriceVector", "prices_integer.py:SimultaneousAscendingPriceVectors.increase_prices"]}
{"id": "C56", "title": "Optimal trade of a recipe tree with counters", "statement": "RecipeTree.optimal_trade_with_counters() of recipetree.py returns the values of the deals of optimal_trade(): a feasible collection without losses, of maximal gain from trade, with their number and total gain; the counter of each returned deal is the number of returned deals on the same path from the root to a leaf, and kmin and kmax are the smallest and the largest of these numbers (99999 and 0 when there is no deal). The method of the same name of recipetree_integer.py raises TypeError or IndexError for every tree with at least two categories, so that the experiments that call it cannot end.", "quantifier": "all trees whose nodes are different categories, all values", "why_tests_cant": "counters are mutable objects shared between deals; the claim is over all trees and values", "anchors": ["recipetree.py:RecipeTree.optimal_trade_with_counters", "recipetree.py:RecipeTree.combined_values_detailed_with_counters", "recipetree_integer.py:RecipeTree.optimal_trade_with_counters"]}
{"id": "C57", "title": "The tree auction is truthful", "statement": "In budget_balanced_ascending_auction of ascending_auction_recipetree_protocol.py, no agent of any category can increase its expected utility by reporting a value other than its true one, whatever the other agents report, and reporting the truth never gives a negative utility. Utility is the value minus the final price of the category, times the probability to be chosen among the remaining agents (any function of the numbers of remaining agents), if the agent remains, else 0.", "quantifier": "all markets, trees, categories, true values and reports within \u00b1MAX_VALUE, all lotteries; all initial prices that meet the documented contract", "why_tests_cant": "compares two runs of the auction for every market and every misreport", "anchors": ["ascending_auction_recipetree_protocol.py:budget_balanced_ascending_auction"]}
{"id": "C58", "title": "Truthfulness of the tree auction with counts", "statement": "In budget_balanced_ascending_auction of ascending_auction_recipetree_integer_protocol.py, with agent_counts omitted or all 1 and a tree whose category indices increase along every path, no agent can increase its expected utility by misreporting, and truth never gives a negative utility. With counts [1,2] this fails: prices can fall in the last step, and there is a market in which an agent strictly gains by overstating its value.", "quantifier": "all markets, trees, values and lotteries; existential for the failure", "why_tests_cant": "compares two runs of the auction for every market and every misreport", "anchors": ["ascending_auction_recipetree_integer_protocol.py:budget_balanced_ascending_auction"]}
{"id": "C59", "title": "Without ties, the recipe-tree auction keeps at least 1 - 1/kmin of the optimal gain from trade", "statement": "Let all values lie between -B and B with 3*L*B < MAX_VALUE (L = number of categories on the longest path of the tree) and let the market have no ties (different agents of a category have different values, and following two different children of a node to leaves never gives the same total). Compare the trade returned by budget_balanced_ascending_auction on a recipe tree with the deals of RecipeTree.optimal_trade(): in every category at most one agent of the optimal deals is not in the remaining market; if every path in use is used by at least k optimal deals, the gain from trade of the auction is at least (1 - 1/k) times the optimal gain; in particular it is at least (1 - 1/kmin) times the optimum for the kmin of optimal_trade_with_counters(), the bound the experiment scripts print; and the number of deals is below the optimal number by at most the number of paths in use. With ties the bound fails: there is a market with kmin = 2 and optimum 1051 where the auction does no deal.", "quantifier": "every recipe tree with distinct categories, every tie-free market with bounded values, every initial price vector satisfying the solver's contract, every run of the auction", "why_tests_cant": "The bound is a statement about the relation between two algorithms over all markets and all trees; the experiment scripts only print it for random samples.", "anchors": ["ascending_auction_recipetree_protocol.py: budget_balanced_ascending_auction", "recipetree.py: RecipeTree.optimal_trade, RecipeTree.optimal_trade_with_counters", "experiment_ascending_auction_recipetree_stock.py"]}
{"id": "C60", "title": "McAfee with the price heuristic is truthful in two-sided markets", "statement": "In a market with two categories, one with non-negative values below MAX_VALUE/2 (buyers) and one with negative values (sellers), fewer than 2000000 agents in the category of the agent: mcafee_trade_reduction with price_heuristic=True (the default) gives an agent that reports its true value at least the utility it gets from any other report of the same kind, and never a negative utility. The sign condition is needed: a seller with value exactly 0 is treated as a buyer by the heuristic, and there is a market in which it gains 3 by reporting -1 instead of 0.", "quantifier": "all two-sided markets, both categories, all true values and reports", "why_tests_cant": "Truthfulness compares two runs of the protocol for all values, reports and markets.", "anchors": ["mcafee_protocol.py: mcafee_trade_reduction, is_price_good_for_ps"]}
{"id": "C61", "title": "The outcome does not depend on the order of the reports", "statement": "If two markets have the same categories and in each category the same values in possibly different order, then optimal_trade and all five auction protocols (ascending, McAfee, trade reduction, recipe tree, recipe tree with counts) return the same trade or raise the same exception.", "quantifier": "all pairs of markets that differ in the order of the values, all recipes, recipe trees, options", "why_tests_cant": "The statement ranges over all permutations of all value lists.", "anchors": ["agents.py: AgentCategory.__init__, clone", "markets.py: Market.clone, optimal_trade", "ascending_auction_protocol.py", "mcafee_protocol.py", "trade_reduction_protocol.py", "ascending_auction_recipetree_protocol.py", "ascending_auction_recipetree_integer_protocol.py"]}
{"id": "C62", "title": "The text of a recipe-tree trade can be followed and gives the reported deals", "statement": "The text that describes the outcome of the recipe-tree auction is 'No trade' exactly when no deals are reported. Otherwise, an auctioneer who follows its lines in any way that they allow (select so many agents of this category, so many of the partial deals of its children, combine them) can always go on, and ends with exactly the reported number of deals; each deal has one agent of every category on a path from the root to a leaf, no agent is used twice, no agent pays more than its value, and the payments in each deal add up to 0; the text shows the price of every category exactly once. The gain of these deals is between 0 and gain_from_trade(), which is the gain of the best selection and need not be attained by the prescribed random one.", "quantifier": "all markets, recipe trees with distinct categories, runs of the auction, and all choices that the text leaves open", "why_tests_cant": "The text leaves choices open; the claim is about every market and every way to make these choices.", "anchors": ["recipetree.py: RecipeTree.num_of_deals_explained", "ascending_auction_recipetree_protocol.py: TradeWithMultipleRecipes.__init__, __repr__"]}
{"id": "C63", "title": "The text of a single-price trade", "statement": "The text of the outcome of the ascending auction, of trade reduction and of McAfee's protocol is 'No trade' exactly when there are no deals; otherwise it has one line for each category used by the recipe, with its price and the number of agents that the deals need, which never exceeds the number of agents of the category, and says 'random' exactly if it is smaller. Following it, the payments add up to exactly 0 for the ascending auction and trade reduction, to at least 0 for McAfee (without heuristic or with two categories), and nobody among whom the traders are drawn has a value below the price. McAfee's text never says 'random'.", "quantifier": "all markets, recipes and options of the three protocols", "why_tests_cant": "The statement is about all outcomes of three protocols.", "anchors": ["trade.py: TradeWithSinglePrice.__repr__"]}
{"id": "C64", "title": "The text of a recipe-tree trade with counts", "statement": "When no counts are given or all counts are 1, the recipe-tree auction with counts prints the same text as the one without counts started from the same initial prices. With larger counts the line 'all n traders selected' may select more agents than any set of deals can use: there is a market where 2 deals with two buyers each are reported and all 5 remaining buyers are said to be selected.", "quantifier": "all markets, recipe trees and counts 1; one market for the failure", "why_tests_cant": "Agreement of two programs on all inputs.", "anchors": ["recipetree_integer.py: RecipeTree.num_of_deals_explained", "ascending_auction_recipetree_integer_protocol.py: TradeWithMultipleRecipes.__repr__"]}
{"id": "C65", "title": "The columns of the table of an experiment", "statement": "When experiment(...) returns, the table has one row for each entry n of nums_of_agents, and each row reports num_of_iterations measurements, one per iteration, each on a market drawn for that iteration with n*recipe[c] agents in category c whose values are whole numbers of the category's range (up to rounding of its ends): the means of the numbers of deals and gains of the optimal trade and of the auction's trade to two decimals, the ratio of the deals in percent cut to two decimals, the ratios of the gains in percent to two decimals, and 0 for a ratio to zero. With num_of_iterations 0 it raises ZeroDivisionError; with a recipe that has a 0 it can raise ZeroDivisionError as soon as a deal is made.", "quantifier": "for every auction function, recipe, list of ranges, list of sizes, number of iterations and every sequence of random numbers", "why_tests_cant": "the numbers are random: a test sees one sequence of draws out of a continuum; the statement is about every draw", "anchors": ["experiment.py: experiment", "agents.py: AgentCategory.uniformly_random", "trade.py: num_of_deals, gain_from_trade"]}
{"id": "C66", "title": "Every row of the table is as theory predicts, except for the documented bound on the mean", "statement": "With positive recipe counts, ranges of values well inside MAX_VALUE, at least one iteration and at most 2000000 agents, experiment(...) never raises, for the ascending auction, for trade reduction, and for McAfee with two categories or without heuristic; and in every row: mean_auction_count <= mean_optimal_count <= mean_auction_count+1 and mean_optimal_count <= num_of_agents; count_ratio and total_gft_ratio are between 0 and 100; 0 <= mean_auction_total_gft <= mean_optimal_gft; market gain and ratio are at most the total ones, and equal to them for the ascending auction and trade reduction; if every optimal trade of the row has at least k deals, total_gft_ratio >= (1-1/k)*100 up to rounding. The bound 1-1/k documented in experiment.py for the MEAN k of the row does not hold: with k=2 the ratio can be 0.4% for all three auctions.", "quantifier": "for every recipe, ranges, sizes, number of iterations and every sequence of random numbers", "why_tests_cant": "a violation may need a rare draw (the counterexample to the documented bound has a tiny probability)", "anchors": ["experiment.py: experiment", "ascending_auction_experiment.py", "mcafee_experiment.py", "experiment_comparing_mcafee_to_sbb.py"]}
{"id": "C67", "title": "The two strongly budget balanced auctions make the same number of deals", "statement": "On every market and for every recipe on which both return, budget_balanced_ascending_auction and budget_balanced_trade_reduction report the same num_of_deals().", "quantifier": "for every market with values >= -MAX_VALUE and at most 2000000 agents, every recipe and every bound on the iterations", "why_tests_cant": "the two mechanisms visit the agents in different orders; that they never disagree on the count is a statement about all markets and recipes, and ties", "anchors": ["ascending_auction_protocol.py: budget_balanced_ascending_auction", "trade_reduction_protocol.py: budget_balanced_trade_reduction", "experiment_comparing_sbb.py"]}
{"id": "C68", "title": "For recipes (1,...,1,x) the two auctions are the same mechanism", "statement": "If all counts of the recipe but the last are 1 and the size of every category is a multiple of its count (so for every vector of ones), budget_balanced_ascending_auction and budget_balanced_trade_reduction return the same trade - the same remaining agents, the same prices, the same number of deals - or no deal in both. For other recipes, or sizes that are not multiples, either may have the larger gain.", "quantifier": "for every number of categories, every x, every market with values >= -MAX_VALUE whose sum over a recipe stays below MAX_VALUE, at most 2000000 agents", "why_tests_cant": "equality of two programs on all markets; the experiments compare them by simulation only", "anchors": ["ascending_auction_protocol.py: budget_balanced_ascending_auction", "trade_reduction_protocol.py: budget_balanced_trade_reduction", "experiment_sbb_with_vectors_of_ones.py"]}
{"id": "C69", "title": "The experiments that compare the two auctions", "statement": "Whatever the random numbers: (0) when experiment_comparing_sbb.experiment returns, each row reports, for each number of agents, a duel in which both auctions run on the same drawn markets: the columns count the sizes at which each auction has the larger total gain (and number of deals, in whole percent); (a) the tables of experiment.py for the two auctions agree in every column on the number of deals, and are equal if all counts of the recipe but the last are 1; (b) experiment_comparing_sbb.experiment fills one row per recipe in which external_wins_k = ascending_wins_k = 0 and tie_k = 100, the three columns external_wins, tie, ascending_wins add up to the number of sizes, and tie is the number of sizes (tie_gft = 100) if all counts of the recipe but the last are 1.", "quantifier": "for every recipe list, ranges, sizes, number of iterations and every sequence of random numbers within the stated bounds; the parameters of comparing_sbbs.py are among them", "why_tests_cant": "the numbers are random; a run shows one sequence of draws", "anchors": ["experiment_comparing_sbb.py: experiment", "comparing_sbbs.py", "experiment_sbb_with_vectors_of_ones.py", "experiment.py: experiment"]}
{"id": "C70", "title": "The optimum never gets worse in a better market", "statement": "If every category of market B is at least as good as the same category of market A - whatever the threshold x, at least as many of its agents have a value of x or more; in particular if agents have been added or values raised - then the optimal trade of B has at least as many deals and at least as much gain as that of A: for Market.optimal_trade of a recipe, RecipeTree.optimal_trade and RecipeTree.optimal_trade_GFT.", "quantifier": "for every pair of markets comparable category by category, every recipe, every recipe tree (also one that repeats categories)", "why_tests_cant": "a statement about all pairs of comparable markets; unit tests compare with single expected values", "anchors": ["markets.py: Market.optimal_trade", "recipetree.py: RecipeTree.optimal_trade", "recipetree.py: RecipeTree.optimal_trade_GFT"]}
{"id": "C71", "title": "The recipe-tree auction never does more deals than the optimal trade", "statement": "If no value is below -MAX_VALUE and the categories of the tree are different, budget_balanced_ascending_auction on a recipe tree reports at most as many deals as optimal_trade_with_counters (and optimal_trade) counts, and its gain is between 0 and the optimal gain; ties or not.", "quantifier": "for every market, every recipe tree with different categories, every price solver that keeps its contract, every number of loop iterations", "why_tests_cant": "the auction breaks off at a point that depends on the order of the price increases; that the deals it counts never outnumber the profitable ones holds for all markets only by the prices of the remaining agents", "anchors": ["ascending_auction_recipetree_protocol.py: budget_balanced_ascending_auction", "recipetree.py: RecipeTree.optimal_trade_with_counters", "trade.py: TradeWithMultipleRecipes.num_of_deals"]}
{"id": "C72", "title": "The table of the random recipe-tree experiment", "statement": "Whatever the random numbers and the solver, when experiment(...) of experiment_ascending_auction_recipetree_random.py returns for a tree of different categories: the table has one row per entry of nums_of_agents, and each row reports num_of_iterations measurements (optimal_trade_with_counters and the auction, run on a random market with one category more than the largest index in the tree): exact means, gftformula = max(0, (kmin-1)/(kmin+1)) of the mean kmin, ratios of the totals in percent (0 for a total of 0), and one warning per iteration with at least three deals missing. With no iterations: ZeroDivisionError. The random market has floor(counts[c]*n) agents in category c, with whole values in the range of the category times its factor.", "quantifier": "for every recipe tree of different categories, ranges, sizes, number of iterations, counts, factors, every sequence of random numbers and every solver", "why_tests_cant": "the numbers are random; a run shows one sequence of draws, and no test compares the columns with the measurements", "anchors": ["experiment_ascending_auction_recipetree_random.py: experiment, random_market"]}
{"id": "C73", "title": "What the random recipe-tree experiment shows", "statement": "In every row of a sensible experiment (two ordered ranges, counts and factors at least 0 for all categories, values not below -MAX_VALUE): the mean number of deals of the auction is at most that of the optimum, gains are not negative and not more than the optimum, the ratios lie between 0 and 100, gftformula in [0,100). With a complete solver, at least one iteration and a tree of at least two categories no exception occurs. Without ties: the auction loses on average at most one deal per leaf, no warning is printed if there are at most two leaves, the gain ratio is at least 1-1/kappa if kmin >= kappa in all iterations, and gftformula is a lower bound for totalgftratio if kmin is the same in all iterations. In general neither of the two expectations written in the module holds: with three leaves the warning is printed in a market without ties (three optimal deals, the auction does none), and gftformula can be over 99% where totalgftratio is 0%, as an optimal trade without deals counts as kmin = 99999.", "quantifier": "for every recipe tree of different categories, all sensible parameters, every sequence of random numbers, every solver that keeps its contract; the two counterexamples are concrete experiments", "why_tests_cant": "the numbers are random; the comment and the formula of the module are claims about all markets", "anchors": ["experiment_ascending_auction_recipetree_random.py: experiment"]}
{"id": "C74", "title": "The recipe-tree experiment with stock prices", "statement": "Whatever the prices, shuffles and solver, when experiment(...) of experiment_ascending_auction_recipetree_stock.py returns (different sizes, counts not negative): the table has one row per size, reporting the measurements of this size on markets made of the prices of the stock, in every iteration for every stock for which the size is measured (sizes up to the second one larger than the first price list); every 'average' is the sum over these measurements divided by the number of ALL stocks and by the number of iterations. With different categories and values not below -MAX_VALUE: 'Warning count!!!' is never printed, counts and gains of the auction are at most those of the optimum, and ratios at most 100*M/S for M of S stocks measured. With a complete solver and price lists for all categories no exception occurs. Negative result: an unmeasured stock halves the averages of a row.", "quantifier": "for every tree, prices, sizes, counts, iterations, shuffles (any permutation), solver; the negative result is a concrete experiment", "why_tests_cant": "shuffles are random; the warning is a claim about all markets; no test compares the columns with the measurements", "anchors": ["experiment_ascending_auction_recipetree_stock.py: experiment", "ascending_auction_recipetree_protocol.py: budget_balanced_ascending_auction", "recipetree.py: RecipeTree.optimal_trade_with_counters"]}
{"id": "C75", "title": "Splitting stock prices over the categories of a tree", "statement": "get_prices_tree, with prices and counts at least 0, counts not all 0 and a factor for every count, makes one list per count from disjoint parts of the prices of the file (in thousandths, rounded down), leaving over fewer prices than there are categories; category j gets a share of the prices proportional to counts[j], rounded down, each multiplied by its factor, negative except for category 0. If all counts are 0: ZeroDivisionError.", "quantifier": "for every list of prices, shuffle (any permutation), list of counts and factors", "why_tests_cant": "must hold for all files and all shuffles; there is no test of this function", "anchors": ["get_stocks_data.py: get_prices_tree"]}
{"id": "C76", "title": "The experiment on integer recipe trees always fails", "statement": "experiment(...) of experiment_ascending_auction_recipetree_integer_random.py, for a tree with at least two categories and at least one size, always raises an exception: it never returns a table and never runs an auction; with sensible parameters the exception is TypeError (from optimal_trade_with_counters of RecipeTreeInteger). In particular the script experiment_recpietree_integer.py always ends with TypeError.", "quantifier": "for every tree of at least two categories, every list of sizes, ranges, counts, factors, and every sequence of random numbers", "why_tests_cant": "a claim about all parameters and random numbers", "anchors": ["experiment_ascending_auction_recipetree_integer_random.py: experiment", "experiment_recpietree_integer.py", "recipetree_integer.py: RecipeTree.optimal_trade_with_counters"]}
{"id": "C77", "title": "The experiment on the prices of stocks", "statement": "Whatever the prices and the auction, when experiment(...) of stock/experiment_stock.py returns, the table has one row per stock, with its name, reporting the measurement on the market made of its price lists: exact counts, gains rounded to two decimals, count ratio cut to three decimals, gain ratios rounded to three, and the number of possible procurement-sets (in general a fraction) rounded to the nearest integer; and one warning for each stock where the auction does more deals than the optimum. For the ascending auction, external-competition trade reduction and McAfee's protocol (two categories, or without its price heuristic) with positive recipes and values within the limits of the code, the experiment never raises an exception, never warns, and in every row: the auction loses at most one deal, its gain is at most the optimal one and its ratio at least 1-1/k (up to rounding), and the traders' gain is at most the gain; for the first two both gains are equal. Negative results: the claim that market_gft_ratio is at least 1-1/k fails for McAfee's protocol; num_possible_trades may show 2 where there is only one procurement-set.", "quantifier": "for every recipe, list of stocks and prices, names and auction function; the predictions for the three auctions; the negative results are concrete experiments", "why_tests_cant": "the claims of the script's header are about all price files; tests run a few fixed ones", "anchors": ["stock/experiment_stock.py: experiment", "ascending_auction_protocol.py: budget_balanced_ascending_auction", "trade_reduction_protocol.py: budget_balanced_trade_reduction", "mcafee_protocol.py: mcafee_trade_reduction"]}
{"id": "C78", "title": "The market made of a stock file for a recipe", "statement": "getPrices(file, recipe), for a file with R lines of prices that are not negative and a recipe that is not empty, returns one list of whole numbers for each category, not negative for category 0 and not positive for the others. Unless the recipe is (c,c,c) with c different from 1, category j has exactly recipe[j] agents for each of R or 2R procurement-sets (R for (2,1), (1,2), (2,1,1) and (1,1,1)); for (c,c,c) every category has R agents. For recipes without a branch of their own, every buyer's value is a High or Close price times the number of sellers in a deal, every seller's is minus an Open or Low price, in thousandths, the fraction dropped. No number is larger than the largest price times 1000 times the number of agents in a deal, so, with limits on lines and prices, getStocksPrices gives prices for which the predictions of the stock experiment (C77) hold. Negative results: for (2,2,2) a file with one line has no possible deal; with (1,1,2) and an even number of prices category 1 only sees every other price, twice.", "quantifier": "for every file (four columns of the same length), every recipe, every list of files; negative results are concrete", "why_tests_cant": "must hold for all files and recipes; there is no test of this function", "anchors": ["get_stocks_data.py: getPrices", "get_stocks_data.py: getStocksPrices", "stock/experiment_stock.py: experiment"]}
{"id": "C79", "title": "The experiment that compares auctions over shuffled stocks or random markets", "statement": "For every list of auctions, recipe, sizes, prices, number of iterations and random numbers: when experiment(...) of stock/experiment_compare_iterations_autions.py returns, every row reports the means (cut to two decimals; three for the gain ratios) over the contests of that size, one per stock and iteration, in each of which every auction is measured on one and the same market; with stock prices that market deals the price list, repeated 2^e times and shuffled, in consecutive blocks (buyers times tail-sum/recipe[0], sellers times -1, fractions dropped), otherwise it is drawn from the stated ranges; and the two diff files get exactly the notes the contests call for. With positive recipes, different sizes, and values within the limits of the code, and with the ascending auction, trade reduction and McAfee's protocol, the experiment always returns; in every row gftratioformula <= totalgftratio <= 100 (up to the cut), the auctions lose at most one deal on average, the two optima have equal gain; diff_in_sbbs_k.txt is never written, and diff_in_sbbs_gft.txt is not for recipes (1,...,1,x). It returns only if no size occurs twice. A stock without prices makes it run forever. Negative results: withoutgftzerocountratio can exceed 100; marketgftratio of McAfee's protocol can be below gftratioformula, against the script's comment; for recipe (2,1) the gains of the two strongly budget balanced auctions can differ.", "quantifier": "for every list of auctions, recipe, list of sizes, stocks and prices, number of iterations, shuffles and random numbers; the predictions for the three auctions; the negative results are concrete experiments", "why_tests_cant": "claims about all price lists and all shuffles; there is no test of this script, and a run shows a few random markets", "anchors": ["stock/experiment_compare_iterations_autions.py: experiment", "stock/experiment_compare_iterations_autions.py: padding_zeroes", "stock/experiment_comparing_mcafee_to_sbb_stock.py"]}
{"id": "C80", "title": "No coalition makes all its members better off: the ascending auction", "statement": "Whatever the other agents report: let any agents, of any categories and with any true values of at least -MAX_VALUE, agree on any reports. In the single-recipe ascending auction no member loses by the truth when all members tell the truth, and for at least one member the truth of all members is at least as good as the agreement (expected utility: chance to trade times gain, whoever remains among agents with equal reports). Negative result: a member who gains nothing anyway can help another one at no loss, so 'all members are strictly better off' cannot be weakened to 'some are better off and none worse off'.", "quantifier": "for every market, recipe, coalition of any size over any categories, true values and reports, and every way to choose the remaining agents among equal ones", "why_tests_cant": "ranges over all coalitions and all joint reports; tests of truthfulness change one bid on a handful of markets", "anchors": ["ascending_auction_protocol.py: budget_balanced_ascending_auction"]}
{"id": "C81", "title": "No coalition makes all its members better off: McAfee's protocol and trade reduction", "statement": "As C80, for McAfee's protocol without the price heuristic, and with it in two-sided markets (buyers' values non-negative, sellers' negative), and for trade reduction by external competition with recipes (1,...,1,x) when the size of each category is a multiple of its count.", "quantifier": "for every market, coalition of any size over any categories, true values and reports within the stated limits", "why_tests_cant": "ranges over all coalitions and all joint reports", "anchors": ["mcafee_protocol.py: mcafee_trade_reduction", "trade_reduction_protocol.py: budget_balanced_trade_reduction"]}
{"id": "C82", "title": "No coalition makes all its members better off: the auction with a recipe tree", "statement": "Whatever the other agents report: let any agents, of any categories and with true values and reports between -MAX_VALUE and MAX_VALUE, agree on any reports. In the auction with a recipe tree no member loses when all members tell the truth, and for at least one member the truth of all members is at least as good as the agreement (expected utility: the chance that a remaining agent of the category trades, any function of the numbers of remaining agents, times gain; whoever remains among agents with equal reports).", "quantifier": "for every market, recipe tree, initial price solver that meets its contract, coalition of any size over any categories, true values and reports, lottery, and every way to choose the remaining agents among equal ones", "why_tests_cant": "ranges over all coalitions and all joint reports; tests look at single runs", "anchors": ["ascending_auction_recipetree_protocol.py: budget_balanced_ascending_auction"]}
{"id": "C83", "title": "The old auction with several buyer categories never trades", "statement": "For every market and every recipe list: budget_balanced_ascending_auction of old/ascending_auction_multibuyer_protocol.py (with the current agents.py and prices.py) raises ValueError exactly for the recipe lists that its documentation excludes; otherwise, if no unit is wanted it returns the market unchanged at the initial prices; with one buyer category it always terminates and returns; with two or more buyer categories and a wanted unit it always terminates by an exception, ZeroDivisionError if every buyer category has agents and some has no recipe, IndexError otherwise. Whenever it returns, there is no deal: num_of_deals() is 0, the text is 'No trade' and the gain 0. Negative results: three documented examples promise trades.", "quantifier": "for every market, number of categories, recipe list", "why_tests_cant": "ranges over all markets and recipe lists; the documented examples are on six markets with one buyer category, and three of them fail", "anchors": ["old/ascending_auction_multibuyer_protocol.py: budget_balanced_ascending_auction", "old/ascending_auction_multibuyer_protocol.py: _convert_recipes_to_seller_counts", "old/ascending_auction_multibuyer_protocol.py: TradeWithMultipleRecipes"]}
{"id": "C84", "title": "The outcome does not depend on what the remaining agents report", "statement": "Single-recipe ascending auction: let it return a trade for a market. In any other market with the same numbers of agents, in which as many agents of each category report at least the price found, and the highest report among the others of the category is the same as the highest report among those that left (all reports at least -100000000), the auction finds the same prices and the same number of deals, and exactly the agents at or above the price remain. So neither what the remaining agents report nor the other reports of those that left matter. Auction with a recipe tree: if agents that all remain report something else, above the price of their category, then they remain again, the same other agents remain and all prices are the same.", "quantifier": "all pairs of markets, recipes and recipe trees, all groups of remaining agents and all their reports", "why_tests_cant": "It compares all pairs of markets with the same thresholds, of unbounded size; unit tests look at single markets.", "anchors": ["ascending_auction_protocol.py:budget_balanced_ascending_auction", "ascending_auction_recipetree_protocol.py:budget_balanced_ascending_auction"]}
{"id": "C85", "title": "The order of the categories", "statement": "Take any market and recipe, and the same market with the categories and their recipe entries in another order. Optimal trade: the deals are the same (with their agents in another order), so are their number, the gain and what is left. McAfee's protocol, with and without the heuristic: the same number of deals, and every category has the same traders and the same price. Ascending auction and trade reduction: the numbers of deals differ by at most one, and they can differ: with one buyer (18) and two sellers (-5, -6) there is one deal if the buyers come first and none if the sellers do.", "quantifier": "all markets, recipes and reorderings of the categories", "why_tests_cant": "It compares all markets with all reorderings of their categories; a unit test compares two literals.", "anchors": ["markets.py:Market.optimal_trade", "mcafee_protocol.py:mcafee_trade_reduction", "ascending_auction_protocol.py:budget_balanced_ascending_auction", "trade_reduction_protocol.py:budget_balanced_trade_reduction"]}
{"id": "C86", "title": "The old auction with several recipes of zeros and ones", "statement": "old/ascending_auction_multirecipe_protocol.py, run with the current prices.py. Recipes of a wrong length, with numbers other than 0 and 1, or with a category that is needed by some but not all of several recipes, are rejected with ValueError; if a recipe has no category of its own, the auction never returns. Otherwise it ends: it returns a trade for some of the given recipes, or raises ValueError, the latter only if some category is needed by all of at least two recipes. In a returned trade with deals the prices of each recipe sum to 0, every remaining agent has at least the price of its category, those who left at most that price, and no agent is added or lost; that many procurement-sets can be formed from the remaining agents, and never more. If the returned trade is for several recipes with a common category it has no deals; and if the common category has at least as many agents as the own categories of the recipes together (as with the two recipes of the unit tests), the auction raises ValueError. Whatever the order in which Python runs through sets.", "quantifier": "all markets with values of at least -MAX_VALUE, lists of recipes, orders of sets and solvers for the initial prices that meet the documented contract", "why_tests_cant": "It ranges over all markets, recipes, orders of sets and solvers; a unit test has literals.", "anchors": ["old/ascending_auction_multirecipe_protocol.py:budget_balanced_ascending_auction", "old/ascending_auction_multirecipe_protocol.py:_analyze_recipes", "old/ascending_auction_multirecipe_protocol.py:TradeWithMultipleRecipes", "old/ascending_auction_multirecipe_test.py", "prices.py:SimultaneousAscendingPriceVectors"]}
{"id": "C87", "title": "One recipe given to the old auction for several recipes", "statement": "Given one recipe of zeros and ones (not only zeros), on a market without ties within a category, and with the best initial prices, the old auction for several recipes ends like the auction for one recipe, as its unit tests expect: the same agents remain, the prices of all categories that are used are the same, and so is the number of deals. With ties they can differ: with [2], [-1,-1,-3], [-1,-1] and recipe [1,1,1] the one has a deal and the other has none.", "quantifier": "all markets with values above -MAX_VALUE and without ties within a category, all recipes of zeros and ones", "why_tests_cant": "It compares two programs on all markets; the unit tests compare them on literals.", "anchors": ["old/ascending_auction_multirecipe_test.py:TestAscendingAuctionWithSingleRecipe", "old/ascending_auction_multirecipe_protocol.py:budget_balanced_ascending_auction", "ascending_auction_protocol.py:budget_balanced_ascending_auction"]}
{"id": "C88", "title": "The old auction with several recipes that share no category", "statement": "If no two of the given recipes share a category, the old multi-recipe auction deletes a recipe only if no procurement-set of it has a gain of at least 0; and on a market without ties within a category it loses, of each remaining recipe, at most one deal compared with the optimal trade for this recipe alone, and has no more deals than it; the number of deals is the sum over the recipes.", "quantifier": "all markets with values above -MAX_VALUE, recipes without a shared category, orders of sets and solvers that meet the documented contract", "why_tests_cant": "It compares the outcome with the optimal trades for all recipes on all markets.", "anchors": ["old/ascending_auction_multirecipe_protocol.py:budget_balanced_ascending_auction", "markets.py:Market.optimal_trade"]}
{"id": "C89", "title": "Another currency, and fees that cancel out", "statement": "If all values of a market are multiplied by a positive c (another currency) and the agents of each category i get an additional amount b_i, where the amounts b_i of the agents in a deal sum to 0 (fees that cancel out), then the optimal trade makes the same deals, its gain is multiplied by c, and the same agents are left. The ascending auction and the trade-reduction protocol leave the same agents in the market, make the same number of deals and change each price p of a used category to c*p + b_i (in the trade-reduction protocol, when a deal is made), provided that in both markets all values are at least -MAX_VALUE and a deal of agents with the highest value is worth less than MAX_VALUE. McAfee's protocol without the heuristic does so without any condition on the values. With the heuristic it is invariant to another currency (under the same condition), but not to fees that cancel out.", "quantifier": "all markets, recipes, positive factors c (rational) and amounts b per category that cancel out, all loop bounds, both options of McAfee's protocol and of the trade-reduction protocol", "why_tests_cant": "Equality of the outcomes of two runs on all pairs of markets related by an affine change of the values; tests compare a run with a literal result", "anchors": ["markets.py:Market.optimal_trade", "ascending_auction_protocol.py:budget_balanced_ascending_auction", "trade_reduction_protocol.py:budget_balanced_trade_reduction", "mcafee_protocol.py:mcafee_trade_reduction"]}
{"id": "C90", "title": "The old price-vectors and their rewrite", "statement": "The old class of simultaneous price-vectors raises ValueError for an empty list of recipes, for recipes of different lengths, and for a number of increases different from the number of recipes. In it, the table of prices never finds two different prices for a category; it has the price of every category in some recipe and None for the others. When all recipes (of zeros and ones) have the same price-sum s and the increases name for each recipe the one increase whose category is in the recipe, increase_prices succeeds: no price goes above its target, the prices of other categories do not change, all sums stay at most 0 and differ by less than 10^-11, the status is 'zero sum' iff all sums are above -10^-11, and after any other status the sums are exactly equal again. The rewritten class in prices.py, given the same increases listed once per category, gives the same prices and the same status, unless the sum it reaches is not 0 but closer to 0 than 10^-11. If a category named for one recipe is also in another, the old class leaves different sums, and the rewrite raises ValueError.", "quantifier": "all lists of recipes of zeros and ones, price vectors with equal sums, and lists of increases with exactly one per recipe", "why_tests_cant": "Equivalence of two implementations on all inputs, and an invariant of all later increases; the doctests show three increases", "anchors": ["old/SimultaneousAscendingPriceVector.py:SimultaneousAscendingPriceVectors.increase_prices", "old/SimultaneousAscendingPriceVector.py:SimultaneousAscendingPriceVectors.map_category_index_to_price", "prices.py:SimultaneousAscendingPriceVectors.increase_prices"]}
{"id": "C91", "title": "The old recipe tree, and spare agents in the chosen categories", "statement": "The optimal trade of the old recipe tree (recipetree.old.py) makes exactly the deals of the new one whose gain is not 0; the total gain is the same, optimal_trade_GFT too, and both fail on the same inputs. The old largest_categories chooses different categories of the tree such that every path from the root to a leaf contains exactly one, and reports the size of a largest chosen category and the number of deals that the tree allows. The chosen categories together have more agents than the number of possible deals (so the auction can remove an agent without losing a deal), unless every category has exactly as many agents as its children together. For the new largest_categories the same holds if no category is empty, and the chosen categories have at least as many agents as the root; with an empty category it can fail.", "quantifier": "all recipe trees, all value lists and all category sizes", "why_tests_cant": "Equivalence of two implementations and a structural property of a recursive choice on all trees; the doctests show some trees", "anchors": ["recipetree.old.py:RecipeTree.largest_categories", "recipetree.old.py:RecipeTree.optimal_trade", "recipetree.old.py:RecipeTree.optimal_trade_GFT", "recipetree.py:RecipeTree.largest_categories"]}
{"id": "C92", "title": "The search for a market with too many deals finds nothing", "statement": "The script that looks for a market in which the ascending auction makes more deals than the optimal trade makes exactly nine rounds, whatever the shuffles return, and ends with reduce_number = 10 without having found one; in every round the auction makes as many deals as the optimal trade or one less. In round r the market has the values at the positions not divisible by r+1 of the shuffled lists: after the last round two buyers and eight sellers. The same holds for any other two lists of values (within the limits of the auction) and any recipe of two positive counts.", "quantifier": "all outcomes of all shuffles; all lists of values with at most 2000000 agents, values at least -MAX_VALUE and sums of a deal below MAX_VALUE; all recipes of two categories", "why_tests_cant": "The script itself tests some shuffles; that no shuffle and no other list of values can end the loop early is a statement on all of them", "anchors": ["stock/finding_bad_input_for_ascending_auction.py:removeSeconds", "ascending_auction_protocol.py:budget_balanced_ascending_auction"]}
{"id": "C93", "title": "The comparison of the strongly budget balanced auctions by market size reports what it says", "statement": "When stock/experiment_compare_iterations_autions_without_mcafee.py returns, its table has one part per stock, in order, with one row per size in the given order; sizes larger than the number of buyers use the whole market once, and the list ends before the second of them. The row of size n reports the measurement on the market of the first n*recipe[j] prices of each category j: deals of the optimal trade without and with the sets that gain nothing, its gain to two decimals, and for each auction its deals, its traders' gain to two decimals, and the ratios to three decimals, the first one cut off and the second rounded. There is one warning for each entry auction_count above optimal_count_with_gft_zero. On sensible prices and with the two strongly budget balanced auctions the script always completes without any warning and each row is as theory predicts (k or k-1 deals, gain at least 1-1/k of the optimum, ratios between 0 and 100). The column num_possible_trades ignores the first count of the recipe: a market with two possible trades is shown with 2, 3 or 4.", "quantifier": "all price lists, all lists of sizes (any order, duplicates allowed), all auctions for the first part; all sensible prices and recipes of positive counts for the second", "why_tests_cant": "Tests can run the script on some prices; that no prices and no list of sizes produce a warning or an entry outside of the predictions needs a proof for all markets", "anchors": ["stock/experiment_compare_iterations_autions_without_mcafee.py:experiment"]}
{"id": "C94", "title": "The comparison on shuffled stock prices: rows, averages, and iterations that change nothing", "statement": "When stock/experiment_compare_sbb_shufled_stock.py returns (at least one iteration, different sizes, positive first count of the recipe), its table has one part per stock with a row for the first size and for every other size for which there are enough prices, each showing exactly the measures on the market cut from the first prices (buyers' prices times the number of sellers in a set, sellers' prices times minus the number of buyers, decimals dropped); then the averages of every size that occurs: sums divided by the number of all stocks, ratios cut to three decimals, the rest rounded to one. If there are enough prices for the first size, the number of iterations has no influence on the table: all iterations measure the same market. If not, that row is divided by the number of iterations. With the strongly budget balanced auctions and prices within the limits the script always completes, without a warning, and all rows and averages are as theory predicts. Averages of sizes that are missing for some stocks are too low. getAllPricesShuffled returns all prices of the file in thousandths in some order, and the same list when called again.", "quantifier": "all prices, sizes, numbers of iterations, auctions (first parts); all sensible prices (predictions); all shuffles (last part)", "why_tests_cant": "The script's own repetitions are a test that this shows to be without effect; that rows are right for all prices, sizes and numbers of iterations is not something that runs can show", "anchors": ["stock/experiment_compare_sbb_shufled_stock.py:experiment", "get_stocks_data.py:getAllPricesShuffled"]}
{"id": "C95", "title": "Floating-point arithmetic makes no difference for whole-number reports", "statement": "When the reports are whole numbers of absolute value at most M, with M at least 100000000, 4*M*sum(recipe) at most 2**53 and moderate numbers of agents, then with Python's rounding after every addition, subtraction, multiplication and division (and with any monotone symmetric rounding to floats) optimal_trade returns exactly the same trade, order of deals and remaining market as exact arithmetic, with the same gain (if traders times M stays below 2**53); budget_balanced_ascending_auction, budget_balanced_trade_reduction and mcafee_trade_reduction make all the same decisions: the same agents trade, the same number of deals, the same errors, and each price is the exact price rounded once (less than 1/2**k away when it is at most 2**(53-k)). If the recipe consists of powers of two (such as ones; for McAfee: if the number of categories is a power of two), nothing is rounded at all. Beyond 2**53 a positive gain can be lost. With number types that are never rounded (such as fractions.Fraction), every market gives exactly the outcome of exact arithmetic.", "quantifier": "all markets with whole-number reports within the limits, all recipes, all roundings that are exact on floats, monotone, symmetric and yield floats", "why_tests_cant": "Whether a rounding error flips one of the comparisons (gain at least 0, sum of prices at least 0, which quotient size/count is largest, floor of a quotient, whether the average price fits) depends on all values; tests see a few values", "anchors": ["ascending_auction_protocol.py:budget_balanced_ascending_auction", "trade_reduction_protocol.py:budget_balanced_trade_reduction", "mcafee_protocol.py:mcafee_trade_reduction", "markets.py:Market.optimal_trade", "prices.py:AscendingPriceVector.increase_price_up_to_balance", "trade.py:TradeWithSinglePrice.__init__", "trade.py:TradeWithMaterialBalance.gain_from_trade"]}
{"id": "C96", "title": "The recipe-tree auction has no rounding on whole-number reports", "statement": "When the reports are whole numbers within \u00b1100000000, 100000000*categories*(agents per category+1) is at most 2**53, and the initial prices returned by the linear program are whole numbers not below -P with (categories+3)*P at most 2**53, then the recipe-tree auction with Python's rounding (or any monotone symmetric rounding to floats) after every addition and subtraction returns exactly the outcome of exact arithmetic: the same trade, prices, deals, explanations, gain and errors, for every recipe tree with distinct categories; likewise RecipeTree.optimal_trade and optimal_trade_GFT. Without any limit on sizes: if the reports, the constant 100000000 and the initial prices are whole multiples of some unit (e.g. one cent), so are all prices of the outcome. Reports that are not whole can lose gain in the rounding.", "quantifier": "all markets with whole-number reports within the limits, all recipe trees with distinct categories, all solvers with the documented contract returning whole prices, all roundings as in C95, any number of iterations; for the second part all units", "why_tests_cant": "The prices are changed again and again, by differences of prices and reports, and compared with zero sums and agents' values; whether a rounding error accumulates over the iterations depends on the whole history", "anchors": ["ascending_auction_recipetree_protocol.py:budget_balanced_ascending_auction", "prices.py:SimultaneousAscendingPriceVectors.increase_prices", "recipetree.py:RecipeTree.optimal_trade", "recipetree.py:RecipeTree.optimal_trade_GFT", "recipetree.py:RecipeTree.combined_values"]}
{"id": "C97", "title": "Categories that are not needed make no difference", "statement": "If the recipe has count 0 for some categories (and a positive count for at least one), then leaving these categories out of the market and of the recipe changes nothing else: optimal_trade lists the same deals and leaves the same agents in the other categories; the ascending auction takes the same number of iterations and returns the same deals, prices and remaining agents of the other categories; the trade reduction returns the same deals, prices and traders, including all errors. Hence any change of the reports (or number of agents) in these categories has no influence. The ascending auction keeps all agents of such categories, and reports the same gain if none of them is empty; the trade reduction has no traders there, so that gain_from_trade raises ZeroDivisionError as soon as there is a deal. The recipe-tree auction depends only on the categories in its tree: two markets that differ only in other categories yield the same prices, numbers of deals, gain, remaining agents in the tree's categories, and errors, for any solver of the initial prices.", "quantifier": "all markets, all recipes with a positive count, all positions and contents of the other categories, all fuels and options; for trees all structures accepted by RecipeTree and all solvers", "why_tests_cant": "The categories that are not needed are present in all loops (removal of agents, padding of empty categories, best containing procurement set, weighted sums, index conversions between pivots and categories); that they never influence a comparison depends on all values and positions", "anchors": ["ascending_auction_protocol.py:budget_balanced_ascending_auction", "trade_reduction_protocol.py:budget_balanced_trade_reduction", "trade_reduction_protocol.py:convert_category_index", "markets.py:Market.optimal_trade", "markets.py:Market.best_containing_PS", "trade.py:TradeWithSinglePrice.gain_from_trade", "ascending_auction_recipetree_protocol.py:budget_balanced_ascending_auction"]}
{"id": "C98", "title": "The initial prices of the recipe-tree auction make no difference without ties", "statement": "The recipe-tree auction starts at prices returned by scipy's linear-programming solver; the linear program often has several best solutions. If every category of the tree has at least one agent and the agents of a category have different values (and all values are small compared with MAX_VALUE), the outcome does not depend on which balanced initial prices below -MAX_VALUE are returned, best or not: the same agents remain in every category, with the same prices for all categories of the tree, numbers of deals (total, min, max) and gain from trade, and both auctions end. With a tie inside a category this is false: there is a market on which one best solution of the linear program leads to one deal with gain 73 and another one to no deal. With an empty category it is false too: with one best solution the auction ends and with another it runs forever.", "quantifier": "all markets without ties and empty categories and with values between -V and V, V*(2L-1) < MAX_VALUE for a tree with paths of at most L categories; all structures of distinct categories; all pairs of solvers that meet the documented contract of calculate_initial_prices", "why_tests_cant": "The order in which agents leave different branches does depend on the initial prices, so two runs on the same market pass through different states and meet only later; that they always meet before any deal is fixed needs a proof over all trees, values and starting points", "anchors": ["ascending_auction_recipetree_protocol.py:budget_balanced_ascending_auction", "prices.py:calculate_initial_prices", "prices.py:SimultaneousAscendingPriceVectors", "recipetree.py:RecipeTree.largest_categories"]}
{"id": "C99", "title": "The recipe-tree auction depends neither on how the market is written down nor on the currency, if there are no ties", "statement": "Take a market and a recipe tree, and write them differently: give the categories other numbers, list the alternatives of the recipe tree in another order, let the agents of each category report in another order, express all values in another currency (multiply by c > 0), and give each agent of category i an additional b_i such that the amounts of every recipe (path of the tree) sum to 0. If every category of the tree has agents, all of different values, and both sets of values are small compared with MAX_VALUE, then budget_balanced_ascending_auction returns corresponding outcomes: in each category of the tree the corresponding agents remain, each price p becomes c*p + b_i, num_of_deals, kmin and kmax are the same, and gain_from_trade is multiplied by c. This holds whatever initial prices the linear-programming solver returns for the two markets, which need not correspond.", "quantifier": "all pairs of markets and recipe trees that are related in this way (any tree with different categories, any numbers of agents, any c > 0 and amounts that cancel out), all pairs of solvers that meet the documented conditions", "why_tests_cant": "A test compares two particular ways to write down one market, with the solver installed; the claim is about all markets, all trees, all ways, and all solutions that a solver may return.", "anchors": ["ascending_auction_recipetree_protocol.py:budget_balanced_ascending_auction", "recipetree.py:RecipeTree.largest_categories, num_of_deals_explained, optimal_trade_GFT", "prices.py:calculate_initial_prices"]}
{"id": "C100", "title": "From corresponding initial prices, the numbering of the categories and the order of the alternatives make no difference to the recipe-tree auction", "statement": "If a market and recipe tree are written with other category numbers and with the alternatives of the tree in another order, and the initial prices of corresponding categories are equal, then the two recipe-tree auctions go through the same iterations: after any number of iterations either both are still running, or both have ended with the same remaining agents and prices category by category and the same num_of_deals, kmin, kmax and gain. There may be ties and empty categories, and the values may be of any size.", "quantifier": "all markets, all trees of at least two different categories, all renumberings, all orders of the alternatives at all levels, all initial prices that meet the documented conditions, all numbers of iterations", "why_tests_cant": "Whether an order-dependent detail (such as the order in which prices are increased or losers are removed) affects the outcome cannot be excluded by running examples; and non-termination cannot be observed at all.", "anchors": ["ascending_auction_recipetree_protocol.py:budget_balanced_ascending_auction", "recipetree.py:RecipeTree.largest_categories", "prices.py:SimultaneousAscendingPriceVectors.increase_prices"]}
{"id": "C101", "title": "What the option including_gft_0 of the trade-reduction protocol changes", "statement": "For every market and every recipe that uses at least one agent, budget_balanced_trade_reduction(market, recipe, including_gft_0=True) makes at least as many deals as with False, and in every category the traders with False are the first of the traders with True. If no procurement-set (one value for each category, that of one of its agents or -MAX_VALUE, weighted by the recipe) has gain exactly 0, both settings return the same trade. The gain from trade can be smaller or larger with the option. Without the option arbitrarily many deals can be lost: for every n below a million there is a market with an optimal trade of n+1 deals and gain 5 in which True makes at least n deals and False none.", "quantifier": "all markets, all recipes with a positive entry, all values; all n below 1000000 for the family of bad markets", "why_tests_cant": "The option matters only on exact ties of weighted sums, which random tests almost never hit; inclusion of the traders must hold for every market and every order of visits, and the loss is unbounded.", "anchors": ["trade_reduction_protocol.py:budget_balanced_trade_reduction", "stock/trade_reduction_demo_difference_gft0_simple.py", "stock/trade_reduction_demo_difference_gft0.py"]}
{"id": "C102", "title": "The ascending auction with Python's floating-point numbers, for decimal reports", "statement": "When the reports are arbitrary floats (for example prices such as 135.9) and every addition, multiplication and division is rounded: (1) budget_balanced_ascending_auction still returns a trade after at most one iteration per agent and one more, whatever the rounding does; with reports of absolute value at most M, so that (M*sum(recipe)+1)*2^k is at most 2^53, and n categories: (2) the prices of a trade with at least one deal sum up to 0 up to (2n+2+sum(recipe))/2^k; (3) every remaining agent has a value of at least its price minus 2/2^k, and at least its price exactly if the recipe takes a power of two (such as 1) of the category; (4) every agent that left has a value of at most its price plus (4n+6)/2^k; (5) at most one of the deals of the exact optimal trade that are worth at least (2n+3)/2^k is lost; (6) if no combination of agents (or -MAX_VALUE) has a value within (2n+3)/2^k of zero, the same agents remain, the number of deals is the same and each price differs by at most (2n+3)/2^k from that of exact arithmetic. None of the errors can be dropped: there are markets with decimal numbers in which the auctioneer loses money, in which a seller loses money, and in which the number of deals is different.", "quantifier": "all markets with float reports of bounded size, all recipes, all roundings that are monotone, symmetric and exact on floats (to nearest even, towards zero); the first claim for every function as rounding", "why_tests_cant": "The doctests use whole numbers, on which nothing is rounded; the experiments run on decimal stock prices, where the sums cancel against the start price -100000000 and lose digits. An error bound must hold for every market and every sequence of roundings.", "anchors": ["ascending_auction_protocol.py:budget_balanced_ascending_auction", "prices.py:AscendingPriceVector", "prices.py:dot", "trade.py:TradeWithSinglePrice"]}
{"id": "C103", "title": "optimal_trade with Python's floating-point numbers, for decimal reports", "statement": "When sum() is rounded after every addition: (1) whatever the rounding does, optimal_trade returns a trade, its deals follow the recipe, the deals and the remaining market together are exactly the agents of the market, and the deals have nonnegative computed gains (positive without include_zero_gain) in ascending order; with float reports of absolute value at most M, with (M*R+1)*2^k at most 2^53 and R = sum(recipe) at most 2^k: (2) no feasible list of deals gains more than the returned one, up to R/2^k for each deal by which their numbers differ; (3) a returned deal loses at most R/2^k; (4) a deal that is still possible with the remaining agents gains at most R/2^k; (5) the computed gain from trade of d deals differs from the exact gain of the same deals by at most d*(R+1)/2^k', for k' at most k with (d*M*R+1)*2^k' at most 2^53. The errors cannot be dropped: there is a market with the decimal reports 0.6, -0.1, -0.5 in which every deal loses (a bit of) money and optimal_trade makes all deals.", "quantifier": "all markets with float reports of bounded size, all recipes, all numbers of iterations (at least the number of agents for optimality), both settings of include_zero_gain, all roundings that are monotone, symmetric and exact on floats; the first claim for every function as rounding", "why_tests_cant": "The doctests use whole numbers, on which nothing is rounded. Optimality up to an error is a statement about all lists of deals in all markets and all sequences of roundings.", "anchors": ["markets.py:optimal_trade", "trade.py:TradeWithMaterialBalance"]}
{"id": "C104", "title": "McAfee's protocol with Python's floating-point numbers, for decimal reports", "statement": "When every addition and division of mcafee_trade_reduction is rounded: (1) whatever the rounding does, it returns a trade in every market with at least one category; with float reports of absolute value at most M and n categories, with (M*n+1)*2^k at most 2^53 and 2n+4 at most 2^k: (2) it makes all deals of the (rounded) optimal_trade or all except one (exactly one is dropped without the heuristic), and in each category the traders are the highest agents except those of the dropped deal; (3) every trader's price is at most its value plus 2n/2^k; (4) in a two-sided market the auctioneer never pays anything, with or without the heuristic, and without the heuristic it pays at most n/2^k per deal in any market; (5) the traders' total value is at least (1-1/d) of the value of the d deals of optimal_trade, minus 2n/2^k, and at most that value plus n/2^k. The errors cannot be dropped: there are markets in which a trader gets less than its cost, and in which the auctioneer pays, by a tiny amount.", "quantifier": "all markets with float reports of bounded size, both settings of price_heuristic, all roundings that are monotone, symmetric and exact on floats; the first claim for every function as rounding", "why_tests_cant": "The doctests use whole numbers, on which nothing is rounded. With decimals, deals of different value can have the same rounded gain, and then another deal than the last one is dropped; that no trader loses more than a given amount is a statement about all markets and roundings.", "anchors": ["mcafee_protocol.py:mcafee_trade_reduction", "mcafee_protocol.py:is_price_good_for_ps"]}
{"id": "C105", "title": "Competition: what a better category does to deals and prices", "statement": "If one category of the market becomes better (agents join it, or reports in it rise) and the other categories keep their agents, the ascending auction with the same recipe makes at least as many deals, the price of that category does not fall, no other price rises, and in the other categories all agents who remained still remain. If several categories become better, the number of deals does not fall. The same holds for the number of deals of trade reduction, and for its prices when it is the same mechanism (recipes (1,...,1,x), C68) and deals were made. The McAfee protocol loses at most one deal, and none without the price heuristic. Limits: a seller's expected gain in the ascending auction can fall when a buyer joins (more sellers remain, and the traders are drawn among them), the price of the buyers in the McAfee protocol can fall when a buyer joins, with and without the heuristic, and with the heuristic the number of deals can fall; in the tree auction deals can be lost when an agent joins, and with equal agents the buyers' price can then rise.", "quantifier": "all pairs of markets that differ in this way, all recipes, all reports of at least -MAX_VALUE (at most 2000000 agents for trade reduction)", "why_tests_cant": "Comparing runs of an auction on two different markets: the clocks stop at different points, so no finite list of pairs of runs settles it.", "anchors": ["ascending_auction_protocol.py:budget_balanced_ascending_auction", "trade_reduction_protocol.py:budget_balanced_trade_reduction", "mcafee_protocol.py:mcafee_trade_reduction"]}
{"id": "C106", "title": "The tree auction finds the lowest market-clearing price of the root category", "statement": "Call what the children of the root can put together for one deal an offer (the k-th best agent of a category goes with the k-th best offer of its own children). If the market has no ties and the root has agents, the price of the root category at the end of the recipe-tree auction is the lowest price p at which no more agents of the root have a value above p than there are offers worth at least -p. The agents of the root that remain are the best ones, exactly as many as the optimal trade has deals. With ties neither holds.", "quantifier": "all trees with children, all markets without ties whose values are small compared with MAX_VALUE, all solvers that return balanced initial prices below the bound, all runs that end", "why_tests_cant": "The price comes out of many interleaved raises of clocks at all levels of the tree; that it is an optimum over all prices, for every tree, cannot be tested.", "anchors": ["ascending_auction_recipetree_protocol.py:budget_balanced_ascending_auction", "recipetree.py:largest_categories", "recipetree.py:combined_values"]}
{"id": "C107", "title": "Competition in the recipe-tree auction without ties", "statement": "In markets without ties: if agents join the categories other than the root, or their reports rise, the price of the root does not rise, and all agents of the root that remained still remain. If agents join the root or report more, the price of the root does not fall and at least as many of them remain. (The number of deals can fall, C105; with ties the price can rise.)", "quantifier": "all trees with children, all pairs of such markets without ties, all solvers that return balanced initial prices below the bound", "why_tests_cant": "It compares runs on two different markets for all pairs of markets.", "anchors": ["ascending_auction_recipetree_protocol.py:budget_balanced_ascending_auction"]}
{"id": "C108", "title": "The prices of all categories of the tree auction clear their markets", "statement": "If the market has no ties and an agent of the root remains, then the prices at the end of the recipe-tree auction are, top down, the lowest ones that clear the markets. The price of the root is the lowest one at which no more of its agents gain than there are offers of its children that make up the total 0 with it. The children, and what they trade with, then have to reach the rest of the total; the price of a child with children is again the lowest that clears the market between its agents and the offers of its own children for that total, and the price of a leaf is the total that is left. (For the categories of which agents remain, as do agents of the categories above them.) This fixes the prices, given the categories of which agents remain.", "quantifier": "all trees, all markets without ties whose values are small compared with MAX_VALUE, all solvers that return balanced initial prices below the bound, all runs that end with agents of the root", "why_tests_cant": "The prices of all levels come out of interleaved raises of many clocks; that each is an optimum over all prices, for every tree and market, cannot be tested.", "anchors": ["ascending_auction_recipetree_protocol.py:budget_balanced_ascending_auction", "recipetree.py:largest_categories", "recipetree.py:combined_values"]}
{"id": "C109", "title": "How many deals the recipe-tree auction loses", "statement": "In a market without ties, the recipe-tree auction makes as many deals as the optimal trade, less at most one for every category that has a leaf among its children; however many leaves and levels there are. If there is only one such category (a root with leaves only, or a chain that ends in a category with leaves), at most one deal is lost, and the gain from trade is at least (1 - 1/k) times the optimum, with k the number of all optimal deals (not the smallest number kmin over the paths, as in C59). The bound on the deals is attained.", "quantifier": "all trees with at least two categories, all markets without ties whose values are small compared with MAX_VALUE, all solvers that return balanced initial prices below the bound, all runs that end", "why_tests_cant": "A guarantee over all trees and markets about the difference between the auction and the optimum; the worst case cannot be found by running examples.", "anchors": ["ascending_auction_recipetree_protocol.py:budget_balanced_ascending_auction", "recipetree.py:optimal_trade", "recipetree.py:num_of_deals_explained"]}
{"id": "C110", "title": "Trade reduction with decimal reports", "statement": "With decimal reports, that Python computes in floating point, the trade-reduction protocol keeps its guarantees up to rounding errors. For any rounding whatever, it returns a trade if the recipe has an amount for every category and is not all zero. With the rounding of Python and float reports between -MAX_VALUE and M (M at least MAX_VALUE), where n is the number of categories, R the number of agents in a deal, and k satisfies (M*R+1)*2^k <= 2^53: the prices of a deal sum up to at most (2n+2+R)/2^k from zero; no trader pays more than its value plus (2R+2)/2^k, and if there are no prices (None) there are no traders; the traders and the rejected agents are the highest agents, as many as belong to the deals of optimal_trade or to one deal more; and the number of deals is at least the number of those deals of optimal_trade that are worth more than 2n/2^k, less one. All of these are inexact for some reports: the auctioneer can pay a bit, a trader can lose a bit, and two worthless deals can be lost.", "quantifier": "all markets with decimal (float) reports, all recipes whose deals fit the precision, both settings of including_gft_0", "why_tests_cant": "Tests of the protocol use a few integers; rounding errors appear only for some decimal reports, and a bound has to hold for all of them.", "anchors": ["trade_reduction_protocol.py:budget_balanced_trade_reduction", "markets.py:calculate_prices_by_external_competition", "markets.py:optimal_trade"]}
{"id": "C111", "title": "Recipe-tree auction with decimal reports", "statement": "With decimal reports within +-100000000, that Python computes in floating point, the recipe-tree auction keeps its guarantees up to rounding errors, as long as its loop makes at most F iterations. Let n be the number of categories, and k such that (n+4)*(P+2)*2^k <= 2^53, 4n+4 <= 2^k and 4F <= 2^k; let the linear program return initial prices between -P and -100000000 whose sums on all paths are equal up to eps. Then: the auction does not raise an exception (if the market has a category, the tree has more than the root, and the linear program finds such prices); either nothing is traded (no deals, gain 0), or the final prices on every path from the root to a leaf sum up to at most 2*eps + (2n+2F+2)/2^k from zero; no remaining agent pays more than its value plus 2/2^k; in each category the remaining agents and the agents that left are together the agents of the market, the remaining ones have the highest values, and every agent that left has at most the value of the final price plus (4n+4F)/2^k. All of these are inexact for some reports: the prices of a deal can sum up to less than zero, and a remaining agent can pay more than its value. And with the arithmetic of Python the auction can run forever on a market in which all values are different and on which it ends with exact arithmetic.", "quantifier": "all markets with decimal (float) reports within +-100000000, all recipe trees, all initial prices with almost equal path sums, all bounds on the number of iterations that fit the precision", "why_tests_cant": "Tests of the protocol use a few integers; the error depends on the history of all price increases, and a bound has to hold for every report and every number of iterations.", "anchors": ["ascending_auction_recipetree_protocol.py:budget_balanced_ascending_auction", "prices.py:increase_prices"]}
{"id": "C112", "title": "Misreporting in the ascending auction with decimal reports", "statement": "With decimal reports, that Python computes in floating point, the ascending auction is truthful up to rounding errors. Let an agent with true value v join category i of a market, and let all reports (v and b too) be floats, not below -100000000 and of absolute value at most M; n categories, (M*sum(recipe)+1)*2^k <= 2^53. Whatever the other agents report, and whatever b the agent reports instead of v: its expected utility (probability of trading times (v - price)) is either the same as that of the true report, or at most (4n+6)/2^k; with a true report it is at least -2/2^k, and at least 0 if the recipe takes a power of two (such as 1) of the category. So no false report gains more than (4n+8)/2^k. The auction is not exactly truthful: there is a market with three categories in which an agent with the value 0.5999999999999999 gets nothing by a true report and gains a positive amount by reporting 0.6.", "quantifier": "all markets with decimal (float) reports, all recipes whose deals fit the precision, all agents, all true values and false reports", "why_tests_cant": "No test compares all false reports of an agent for all reports of the others; the known counterexample differs in the last digit only.", "anchors": ["ascending_auction_protocol.py:budget_balanced_ascending_auction", "prices.py:increase_price_up_to_balance"]}
{"id": "C113", "title": "The gain from trade computed in floating point", "statement": "gain_from_trade of a single-price trade is computed with floating-point numbers. Let the reports and prices of the trade have absolute value at most M, let at most N agents remain in n categories, enough for the deals of the trade, and let (2*M*N+1)*2^k <= 2^53 and N+5n <= 2^k. Then, with and without the auctioneer, whenever the gain is defined with exact arithmetic, Python computes it without an exception, and the result differs from the exact gain (of the same floats) by at most (N+5n)/2^k. For the trade of the ascending auction with reports of absolute value at most M this holds with M*sum(recipe)+2 in place of M and with N the number of all agents. It is not always exact: with buyers 0.3, 0.2, sellers -0.1, -0.2 and the prices 0.2, -0.2 the computed gain is different.", "quantifier": "all trades of bounded size (all recipes, categories, reports, prices and numbers of deals), both settings of including_auctioneer, all roundings that are monotone, symmetric and exact on floats", "why_tests_cant": "Tests compare the gain of a few trades with small whole numbers, for which nothing is rounded.", "anchors": ["trade.py:gain_from_trade"]}
{"id": "C114", "title": "Misreporting in McAfee's protocol with decimal reports", "statement": "With decimal reports, that Python computes in floating point, mcafee_trade_reduction with price_heuristic=False is truthful up to rounding errors. Let an agent with true value v join category i of a market of n categories with fewer than two million agents, and let all reports (v and b too) be floats, not below -100000000 and of absolute value at most M (M at least 100000000), with (M*n+1)*2^k <= 2^53 and 2n+4 <= 2^k. Whatever the other agents report, and whatever b the agent reports instead of v, its utility (value minus price if it trades, else 0) is at most that of its true report plus 2n/2^k; and the utility of a true report is at least -2n/2^k. The protocol is not exactly truthful: with two buyers of value 100000000 and a seller of cost 2^-30, a seller with cost 2^-29 that tells the truth trades and gets less than its cost, and by reporting the cost 1 it does not trade.", "quantifier": "all markets of bounded size with float reports, all categories, all true values and all false reports, all roundings that are monotone, symmetric and exact on floats", "why_tests_cant": "Tests use whole-number reports and compare no two reports of one agent; the protocol breaks ties of rounded gains in an order that depends on the reports.", "anchors": ["mcafee_protocol.py:mcafee_trade_reduction"]}
