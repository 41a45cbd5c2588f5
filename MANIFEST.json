{
 "claims": [
  {
   "property": "C01",
   "status": "proved",
   "theorems": [
    "Auctions.Props.category_history"
   ],
   "note": ""
  },
  {
   "property": "C02",
   "status": "proved",
   "theorems": [
    "Auctions.Props.highest_is_max",
    "Auctions.Props.lowest_is_min",
    "Auctions.Props.highest_values_are_top"
   ],
   "note": ""
  },
  {
   "property": "C03",
   "status": "proved",
   "theorems": [
    "Auctions.Props.optimal_trade_conserves"
   ],
   "note": ""
  },
  {
   "property": "C04",
   "status": "proved",
   "theorems": [
    "Auctions.Props.optimal_trade_gainful_sorted",
    "Auctions.Props.optimal_trade_default_may_return_zero_deal"
   ],
   "note": ""
  },
  {
   "property": "C05",
   "status": "proved",
   "theorems": [
    "Auctions.Props.optimal_trade_optimal"
   ],
   "note": ""
  },
  {
   "property": "C06",
   "status": "proved",
   "theorems": [
    "Auctions.Props.optimal_trade_count",
    "Auctions.Props.optimal_trade_remaining"
   ],
   "note": ""
  },
  {
   "property": "C07",
   "status": "proved",
   "theorems": [
    "Auctions.Props.recipe_length_mismatch_rejected",
    "Auctions.Props.mcafee_rejects_other_recipes",
    "Auctions.Props.market_needs_category"
   ],
   "note": ""
  },
  {
   "property": "C08",
   "status": "proved",
   "theorems": [
    "Auctions.Props.optimal_trade_total",
    "Auctions.Props.ascending_total",
    "Auctions.Props.mcafee_total",
    "Auctions.Props.trade_reduction_total",
    "Auctions.Props.ascending_zero_recipe"
   ],
   "note": ""
  },
  {
   "property": "C09",
   "status": "proved",
   "theorems": [
    "Auctions.Props.best_containing_ps"
   ],
   "note": ""
  },
  {
   "property": "C10",
   "status": "proved",
   "theorems": [
    "Auctions.Props.external_competition_prices",
    "Auctions.Props.external_competition_zero_division"
   ],
   "note": ""
  },
  {
   "property": "C100",
   "status": "proved",
   "theorems": [
    "Auctions.Props.tree_auction_reordered_same_start"
   ],
   "note": ""
  },
  {
   "property": "C101",
   "status": "proved",
   "theorems": [
    "Auctions.Props.gft0_more_deals",
    "Auctions.Props.gft0_same",
    "Auctions.Props.gft0_gain_either_way",
    "Auctions.Props.gft0_unbounded_loss"
   ],
   "note": ""
  },
  {
   "property": "C102",
   "status": "proved",
   "theorems": [
    "Auctions.Props.float_ascending_total",
    "Auctions.Props.float_ascending_nearly_balanced",
    "Auctions.Props.float_ascending_rational",
    "Auctions.Props.float_ascending_left",
    "Auctions.Props.float_ascending_deals",
    "Auctions.Props.float_ascending_same",
    "Auctions.Props.float_ascending_deficit",
    "Auctions.Props.float_ascending_loss",
    "Auctions.Props.float_ascending_differs"
   ],
   "note": ""
  },
  {
   "property": "C103",
   "status": "proved",
   "theorems": [
    "Auctions.Props.float_optimal_total",
    "Auctions.Props.float_optimal_conserves",
    "Auctions.Props.float_optimal_sorted",
    "Auctions.Props.float_optimal_nearly",
    "Auctions.Props.float_optimal_deal",
    "Auctions.Props.float_optimal_remaining",
    "Auctions.Props.float_optimal_reported_gain",
    "Auctions.Props.float_optimal_loses"
   ],
   "note": ""
  },
  {
   "property": "C104",
   "status": "proved",
   "theorems": [
    "Auctions.Props.float_mcafee_total",
    "Auctions.Props.float_mcafee_deals",
    "Auctions.Props.float_mcafee_rational",
    "Auctions.Props.float_mcafee_deficit",
    "Auctions.Props.float_mcafee_gain",
    "Auctions.Props.float_mcafee_loss",
    "Auctions.Props.float_mcafee_pays"
   ],
   "note": ""
  },
  {
   "property": "C105",
   "status": "proved",
   "theorems": [
    "Auctions.Props.ascending_competition",
    "Auctions.Props.ascending_deals_monotone",
    "Auctions.Props.trade_reduction_deals_monotone",
    "Auctions.Props.trade_reduction_competition",
    "Auctions.Props.mcafee_deals_monotone",
    "Auctions.Props.competition_limits",
    "Auctions.Props.tree_competition_limits"
   ],
   "note": ""
  },
  {
   "property": "C106",
   "status": "proved",
   "theorems": [
    "Auctions.Props.tree_root_price",
    "Auctions.Props.tree_root_number",
    "Auctions.Props.tree_root_price_needs_tieFree"
   ],
   "note": ""
  },
  {
   "property": "C107",
   "status": "proved",
   "theorems": [
    "Auctions.Props.tree_root_supply",
    "Auctions.Props.tree_root_demand",
    "Auctions.Props.tree_root_price_needs_tieFree"
   ],
   "note": ""
  },
  {
   "property": "C108",
   "status": "proved",
   "theorems": [
    "Auctions.Props.tree_prices_clear",
    "Auctions.Props.tree_prices_determined"
   ],
   "note": ""
  },
  {
   "property": "C109",
   "status": "proved",
   "theorems": [
    "Auctions.Props.tree_deals_lost",
    "Auctions.Props.tree_gain_one_group"
   ],
   "note": ""
  },
  {
   "property": "C11",
   "status": "proved",
   "theorems": [
    "Auctions.Props.number_of_deals"
   ],
   "note": ""
  },
  {
   "property": "C110",
   "status": "proved",
   "theorems": [
    "Auctions.Props.float_reduction_total",
    "Auctions.Props.float_reduction_nearly_balanced",
    "Auctions.Props.float_reduction_rational",
    "Auctions.Props.float_reduction_traders",
    "Auctions.Props.float_reduction_deals",
    "Auctions.Props.float_reduction_deficit",
    "Auctions.Props.float_reduction_loss",
    "Auctions.Props.float_reduction_loses_two"
   ],
   "note": ""
  },
  {
   "property": "C111",
   "status": "proved",
   "theorems": [
    "Auctions.Props.float_tree_nearly_balanced",
    "Auctions.Props.float_tree_rational",
    "Auctions.Props.float_tree_never_raises",
    "Auctions.Props.float_tree_deficit",
    "Auctions.Props.float_tree_loss",
    "Auctions.Props.float_tree_runs_forever"
   ],
   "note": "Bounded by a number of iterations, which is not bounded by the market (the auction can run forever). The initial prices are assumed to be as the linear program has to return them, up to eps."
  },
  {
   "property": "C112",
   "status": "proved",
   "theorems": [
    "Auctions.Props.float_ascending_honest",
    "Auctions.Props.float_ascending_misreport",
    "Auctions.Props.float_ascending_truthful",
    "Auctions.Props.float_ascending_untruthful"
   ],
   "note": ""
  },
  {
   "property": "C113",
   "status": "proved",
   "theorems": [
    "Auctions.Props.float_gain_near",
    "Auctions.Props.float_gain_id",
    "Auctions.Props.float_gain_inexact",
    "Auctions.Props.float_ascending_trade",
    "Auctions.Props.float_ascending_gain"
   ],
   "note": ""
  },
  {
   "property": "C114",
   "status": "proved",
   "theorems": [
    "Auctions.Props.float_mcafee_truthful",
    "Auctions.Props.float_mcafee_not_truthful"
   ],
   "note": ""
  },
  {
   "property": "C12",
   "status": "proved",
   "theorems": [
    "Auctions.Props.gain_split"
   ],
   "note": ""
  },
  {
   "property": "C13",
   "status": "proved",
   "theorems": [
    "Auctions.Props.gain_is_expected_gain"
   ],
   "note": ""
  },
  {
   "property": "C14",
   "status": "proved",
   "theorems": [
    "Auctions.Props.raise_up_to_balance",
    "Auctions.Props.raise_unused_category",
    "Auctions.Props.fresh_price_vector",
    "Auctions.Props.sum_after_increase"
   ],
   "note": ""
  },
  {
   "property": "C15",
   "status": "proved",
   "theorems": [
    "Auctions.Props.simultaneous_raise",
    "Auctions.Props.simultaneous_history"
   ],
   "note": ""
  },
  {
   "property": "C16",
   "status": "proved",
   "theorems": [
    "Auctions.Props.ascending_total",
    "Auctions.Props.ascending_terminates"
   ],
   "note": ""
  },
  {
   "property": "C17",
   "status": "proved",
   "theorems": [
    "Auctions.Props.ascending_budget_balanced"
   ],
   "note": ""
  },
  {
   "property": "C18",
   "status": "proved",
   "theorems": [
    "Auctions.Props.ascending_individually_rational"
   ],
   "note": ""
  },
  {
   "property": "C19",
   "status": "proved",
   "theorems": [
    "Auctions.Props.ascending_keeps_best"
   ],
   "note": ""
  },
  {
   "property": "C20",
   "status": "proved",
   "theorems": [
    "Auctions.Props.ascending_loses_at_most_one_deal"
   ],
   "note": "Proved in a stronger form: k counts the zero-gain deals as well."
  },
  {
   "property": "C21",
   "status": "proved",
   "theorems": [
    "Auctions.Props.ascending_gain"
   ],
   "note": ""
  },
  {
   "property": "C22",
   "status": "proved",
   "theorems": [
    "Auctions.Props.ascending_truthful"
   ],
   "note": ""
  },
  {
   "property": "C23",
   "status": "proved",
   "theorems": [
    "Auctions.Props.mcafee_individually_rational"
   ],
   "note": ""
  },
  {
   "property": "C24",
   "status": "proved",
   "theorems": [
    "Auctions.Props.mcafee_deals",
    "Auctions.Props.mcafee_gain"
   ],
   "note": ""
  },
  {
   "property": "C25",
   "status": "proved",
   "theorems": [
    "Auctions.Props.mcafee_no_deficit",
    "Auctions.Props.mcafee_deficit_witness"
   ],
   "note": ""
  },
  {
   "property": "C26",
   "status": "proved",
   "theorems": [
    "Auctions.Props.trade_reduction_budget_balanced"
   ],
   "note": ""
  },
  {
   "property": "C27",
   "status": "proved",
   "theorems": [
    "Auctions.Props.trade_reduction_individually_rational"
   ],
   "note": "Assumes no value below -MAX_VALUE (the value of the dummy agents the code adds)."
  },
  {
   "property": "C28",
   "status": "proved",
   "theorems": [
    "Auctions.Props.trade_reduction_loses_at_most_one_deal",
    "Auctions.Props.trade_reduction_gain",
    "Auctions.Props.trade_reduction_gain_defined"
   ],
   "note": ""
  },
  {
   "property": "C29",
   "status": "proved",
   "theorems": [
    "Auctions.Props.pivot_indexing"
   ],
   "note": ""
  },
  {
   "property": "C30",
   "status": "proved",
   "theorems": [
    "Auctions.Props.tree_construction",
    "Auctions.Props.tree_odd_structure",
    "Auctions.Props.tree_index_out_of_range",
    "Auctions.Props.tree_rejects_malformed",
    "Auctions.Props.tree_paths",
    "Auctions.Props.tree_paths_names",
    "Auctions.Props.tree_recipes"
   ],
   "note": ""
  },
  {
   "property": "C31",
   "status": "proved",
   "theorems": [
    "Auctions.Props.tree_gft_is_maximum",
    "Auctions.Props.tree_optimal_trade",
    "Auctions.Props.tree_duplicate_category_overcounts"
   ],
   "note": ""
  },
  {
   "property": "C32",
   "status": "proved",
   "theorems": [
    "Auctions.Props.tree_num_of_deals_is_maximum",
    "Auctions.Props.tree_num_of_deals_explained",
    "Auctions.Props.tree_kmin_kmax"
   ],
   "note": ""
  },
  {
   "property": "C33",
   "status": "proved",
   "theorems": [
    "Auctions.Props.tree_cut",
    "Auctions.Props.tree_cut_duplicate_category",
    "Auctions.Props.tree_auction_never_raises",
    "Auctions.Props.tree_initial_prices_exist"
   ],
   "note": ""
  },
  {
   "property": "C34",
   "status": "proved",
   "theorems": [
    "Auctions.Props.tree_auction_budget_balanced"
   ],
   "note": "calculate_initial_prices (an external LP solver) enters through its documented contract."
  },
  {
   "property": "C35",
   "status": "proved",
   "theorems": [
    "Auctions.Props.tree_auction_individually_rational",
    "Auctions.Props.tree_auction_keeps_best"
   ],
   "note": "Values within MAX_VALUE, as the code assumes."
  },
  {
   "property": "C36",
   "status": "proved",
   "theorems": [
    "Auctions.Props.tree_auction_at_most_optimum",
    "Auctions.Props.tree_auction_outcome_feasible"
   ],
   "note": ""
  },
  {
   "property": "C37",
   "status": "proved",
   "theorems": [
    "Auctions.Props.tree_auction_terminates",
    "Auctions.Props.tree_auction_terminates_leaf_siblings",
    "Auctions.Props.tree_auction_terminates_distinct",
    "Auctions.Props.tree_auction_runs_forever_empty",
    "Auctions.Props.tree_auction_runs_forever_ties"
   ],
   "note": "Unconditional termination is false: the last two theorems are markets on which the loop never ends."
  },
  {
   "property": "C38",
   "status": "proved",
   "theorems": [
    "Auctions.Props.tree_single_category_error",
    "Auctions.Props.tree_auction_single_category"
   ],
   "note": ""
  },
  {
   "property": "C39",
   "status": "proved",
   "theorems": [
    "Auctions.Props.optimal_trade_keeps_market",
    "Auctions.Props.ascending_auction_keeps_market",
    "Auctions.Props.mcafee_keeps_market",
    "Auctions.Props.trade_reduction_keeps_market",
    "Auctions.Props.tree_auction_keeps_market",
    "Auctions.Props.integer_auction_keeps_market",
    "Auctions.Props.history_keeps_market"
   ],
   "note": "In a model with explicit objects (Model/Heap, Model/HeapTree); each theorem also states that the run ends like the run of the model without objects."
  },
  {
   "property": "C40",
   "status": "proved",
   "theorems": [
    "Auctions.Props.integer_auction_agrees"
   ],
   "note": "kmin, which the two trees define differently, is excluded."
  },
  {
   "property": "C41",
   "status": "proved",
   "theorems": [
    "Auctions.Props.integer_auction_individually_rational",
    "Auctions.Props.integer_auction_never_raises",
    "Auctions.Props.integer_auction_ones_budget_balanced",
    "Auctions.Props.integer_auction_surplus",
    "Auctions.Props.integer_auction_deficit",
    "Auctions.Props.integer_auction_ones_deficit"
   ],
   "note": "Values at least -MAX_VALUE, as the code assumes."
  },
  {
   "property": "C42",
   "status": "proved",
   "theorems": [
    "Auctions.Props.integer_initial_prices",
    "Auctions.Props.integer_initial_prices_largest",
    "Auctions.Props.integer_initial_prices_tree",
    "Auctions.Props.integer_initial_prices_unbalanced",
    "Auctions.Props.integer_initial_prices_value_error"
   ],
   "note": ""
  },
  {
   "property": "C43",
   "status": "proved",
   "theorems": [
    "Auctions.Props.depth_and_agents_size",
    "Auctions.Props.depth_of_empty_list",
    "Auctions.Props.children_counts",
    "Auctions.Props.agents_analyze"
   ],
   "note": "For structures that write leaves with None; [] as a list of children adds 1 to the depth (depth_of_empty_list)."
  },
  {
   "property": "C44",
   "status": "proved",
   "theorems": [
    "Auctions.Props.recipe_struct",
    "Auctions.Props.recipe_struct_binary",
    "Auctions.Props.recipe_struct_zero"
   ],
   "note": ""
  },
  {
   "property": "C45",
   "status": "proved",
   "theorems": [
    "Auctions.Props.trade_reduction_truthful_ones",
    "Auctions.Props.trade_reduction_not_truthful"
   ],
   "note": ""
  },
  {
   "property": "C46",
   "status": "proved",
   "theorems": [
    "Auctions.Props.mcafee_truthful"
   ],
   "note": ""
  },
  {
   "property": "C47",
   "status": "proved",
   "theorems": [
    "Auctions.Props.mcafee_heuristic_not_truthful"
   ],
   "note": ""
  },
  {
   "property": "C48",
   "status": "proved",
   "theorems": [
    "Auctions.Props.gain_defined_iff",
    "Auctions.Props.gain_zero_division_witness"
   ],
   "note": ""
  },
  {
   "property": "C49",
   "status": "proved",
   "theorems": [
    "Auctions.Props.append_trader",
    "Auctions.Props.append_ps",
    "Auctions.Props.has_empty_category",
    "Auctions.Props.empty_agent_categories"
   ],
   "note": ""
  },
  {
   "property": "C50",
   "status": "proved",
   "theorems": [
    "Auctions.Props.price_vector_constructor"
   ],
   "note": ""
  },
  {
   "property": "C51",
   "status": "proved",
   "theorems": [
    "Auctions.Props.integer_tree_gft_is_maximum",
    "Auctions.Props.integer_tree_optimal_trade"
   ],
   "note": ""
  },
  {
   "property": "C52",
   "status": "proved",
   "theorems": [
    "Auctions.Props.integer_tree_construction",
    "Auctions.Props.integer_tree_recipes",
    "Auctions.Props.integer_tree_num_of_deals_is_maximum",
    "Auctions.Props.integer_tree_num_of_deals_explained",
    "Auctions.Props.integer_tree_cut"
   ],
   "note": ""
  },
  {
   "property": "C53",
   "status": "proved",
   "theorems": [
    "Auctions.Props.integer_auction_terminates_chain",
    "Auctions.Props.integer_auction_runs_forever"
   ],
   "note": ""
  },
  {
   "property": "C54",
   "status": "proved",
   "theorems": [
    "Auctions.Props.tree_gft_keeps_categories",
    "Auctions.Props.integer_tree_keeps_sorted_categories",
    "Auctions.Props.integer_tree_sorts_categories",
    "Auctions.Props.append_trader_is_seen",
    "Auctions.Props.clone_is_independent"
   ],
   "note": ""
  },
  {
   "property": "C55",
   "status": "proved",
   "theorems": [
    "Auctions.Props.counted_price_sum",
    "Auctions.Props.counted_sum_after_increase",
    "Auctions.Props.counted_raise",
    "Auctions.Props.counted_raise_one",
    "Auctions.Props.counted_raise_balanced_iff",
    "Auctions.Props.counted_raise_overshoots",
    "Auctions.Props.counted_simultaneous_raise",
    "Auctions.Props.counted_simultaneous_raise_nothing",
    "Auctions.Props.counted_simultaneous_overshoots"
   ],
   "note": ""
  },
  {
   "property": "C56",
   "status": "proved",
   "theorems": [
    "Auctions.Props.tree_optimal_trade_with_counters",
    "Auctions.Props.integer_counters_always_fail"
   ],
   "note": ""
  },
  {
   "property": "C57",
   "status": "proved",
   "theorems": [
    "Auctions.Props.tree_auction_truthful"
   ],
   "note": ""
  },
  {
   "property": "C58",
   "status": "proved",
   "theorems": [
    "Auctions.Props.integer_auction_ones_truthful",
    "Auctions.Props.integer_auction_not_truthful"
   ],
   "note": ""
  },
  {
   "property": "C59",
   "status": "proved",
   "theorems": [
    "Auctions.Props.tree_auction_gain",
    "Auctions.Props.tree_auction_gain_kmin",
    "Auctions.Props.tree_auction_gain_needs_tieFree"
   ],
   "note": ""
  },
  {
   "property": "C60",
   "status": "proved",
   "theorems": [
    "Auctions.Props.mcafee_heuristic_truthful",
    "Auctions.Props.mcafee_heuristic_zero_seller"
   ],
   "note": ""
  },
  {
   "property": "C61",
   "status": "proved",
   "theorems": [
    "Auctions.Props.outcome_order_independent"
   ],
   "note": ""
  },
  {
   "property": "C62",
   "status": "proved",
   "theorems": [
    "Auctions.Props.tree_explanation_can_be_followed",
    "Auctions.Props.tree_auction_text_can_be_followed",
    "Auctions.Props.tree_reported_gain_may_not_be_attained"
   ],
   "note": ""
  },
  {
   "property": "C63",
   "status": "proved",
   "theorems": [
    "Auctions.Props.single_price_text",
    "Auctions.Props.ascending_text",
    "Auctions.Props.trade_reduction_text",
    "Auctions.Props.mcafee_text"
   ],
   "note": ""
  },
  {
   "property": "C64",
   "status": "proved",
   "theorems": [
    "Auctions.Props.integer_text_ones",
    "Auctions.Props.integer_auction_text_agrees",
    "Auctions.Props.integer_text_selects_too_many"
   ],
   "note": ""
  },
  {
   "property": "C65",
   "status": "proved",
   "theorems": [
    "Auctions.Props.experiment_columns",
    "Auctions.Props.random_market",
    "Auctions.Props.experiment_no_iterations",
    "Auctions.Props.experiment_zero_entry"
   ],
   "note": ""
  },
  {
   "property": "C66",
   "status": "proved",
   "theorems": [
    "Auctions.Props.experiment_ascending",
    "Auctions.Props.experiment_trade_reduction",
    "Auctions.Props.experiment_mcafee",
    "Auctions.Props.experiment_mean_bound_fails"
   ],
   "note": ""
  },
  {
   "property": "C67",
   "status": "proved",
   "theorems": [
    "Auctions.Props.sbb_same_number_of_deals"
   ],
   "note": ""
  },
  {
   "property": "C68",
   "status": "proved",
   "theorems": [
    "Auctions.Props.sbb_same_outcome",
    "Auctions.Props.sbb_gains_differ"
   ],
   "note": ""
  },
  {
   "property": "C69",
   "status": "proved",
   "theorems": [
    "Auctions.Props.experiment_comparing_sbb",
    "Auctions.Props.experiment_sbb_tables",
    "Auctions.Props.comparing_sbb_columns"
   ],
   "note": ""
  },
  {
   "property": "C70",
   "status": "proved",
   "theorems": [
    "Auctions.Props.as_good_of_added",
    "Auctions.Props.as_good_of_raised",
    "Auctions.Props.optimal_trade_monotone",
    "Auctions.Props.tree_optimum_monotone",
    "Auctions.Props.tree_gft_monotone"
   ],
   "note": ""
  },
  {
   "property": "C71",
   "status": "proved",
   "theorems": [
    "Auctions.Props.tree_auction_at_most_optimal_trade"
   ],
   "note": ""
  },
  {
   "property": "C72",
   "status": "proved",
   "theorems": [
    "Auctions.Props.tree_experiment_columns",
    "Auctions.Props.tree_experiment_no_iterations",
    "Auctions.Props.tree_random_market"
   ],
   "note": ""
  },
  {
   "property": "C73",
   "status": "proved",
   "theorems": [
    "Auctions.Props.tree_experiment_as_predicted",
    "Auctions.Props.tree_experiment_never_raises",
    "Auctions.Props.tree_experiment_without_ties",
    "Auctions.Props.tree_experiment_warning",
    "Auctions.Props.tree_experiment_formula_fails"
   ],
   "note": ""
  },
  {
   "property": "C74",
   "status": "proved",
   "theorems": [
    "Auctions.Props.tree_stock_columns",
    "Auctions.Props.tree_stock_possible",
    "Auctions.Props.tree_stock_as_predicted",
    "Auctions.Props.tree_stock_never_raises",
    "Auctions.Props.tree_stock_divides_by_all_stocks"
   ],
   "note": ""
  },
  {
   "property": "C75",
   "status": "proved",
   "theorems": [
    "Auctions.Props.get_prices_tree",
    "Auctions.Props.get_prices_tree_zero"
   ],
   "note": ""
  },
  {
   "property": "C76",
   "status": "proved",
   "theorems": [
    "Auctions.Props.integer_experiment_always_fails",
    "Auctions.Props.integer_experiment_type_error",
    "Auctions.Props.integer_experiment_script",
    "Auctions.Props.integer_counters_type_error"
   ],
   "note": ""
  },
  {
   "property": "C77",
   "status": "proved",
   "theorems": [
    "Auctions.Props.stock_columns",
    "Auctions.Props.stock_ascending",
    "Auctions.Props.stock_trade_reduction",
    "Auctions.Props.stock_mcafee",
    "Auctions.Props.stock_market_ratio_fails",
    "Auctions.Props.stock_possible_trades_rounded"
   ],
   "note": ""
  },
  {
   "property": "C78",
   "status": "proved",
   "theorems": [
    "Auctions.Props.get_prices",
    "Auctions.Props.get_prices_origin",
    "Auctions.Props.get_prices_bounded",
    "Auctions.Props.stock_files",
    "Auctions.Props.get_prices_two_two_two",
    "Auctions.Props.get_prices_alternate"
   ],
   "note": ""
  },
  {
   "property": "C79",
   "status": "proved",
   "theorems": [
    "Auctions.Props.compare_columns",
    "Auctions.Props.compare_as_predicted",
    "Auctions.Props.compare_returns_nodup",
    "Auctions.Props.compare_empty_stock",
    "Auctions.Props.compare_gains_differ",
    "Auctions.Props.compare_without_zero_exceeds_100",
    "Auctions.Props.compare_market_ratio_fails"
   ],
   "note": ""
  },
  {
   "property": "C80",
   "status": "proved",
   "theorems": [
    "Auctions.Props.ascending_coalition",
    "Auctions.Props.ascending_helper"
   ],
   "note": ""
  },
  {
   "property": "C81",
   "status": "proved",
   "theorems": [
    "Auctions.Props.mcafee_coalition",
    "Auctions.Props.trade_reduction_coalition"
   ],
   "note": ""
  },
  {
   "property": "C82",
   "status": "proved",
   "theorems": [
    "Auctions.Props.tree_coalition"
   ],
   "note": ""
  },
  {
   "property": "C83",
   "status": "proved",
   "theorems": [
    "Auctions.Props.multibuyer_recipes",
    "Auctions.Props.multibuyer_never_trades",
    "Auctions.Props.multibuyer_no_demand",
    "Auctions.Props.multibuyer_one_buyer_category",
    "Auctions.Props.multibuyer_raises",
    "Auctions.Props.multibuyer_malformed",
    "Auctions.Props.multibuyer_documented_examples"
   ],
   "note": ""
  },
  {
   "property": "C84",
   "status": "proved",
   "theorems": [
    "Auctions.Props.ascending_thresholds",
    "Auctions.Props.tree_thresholds"
   ],
   "note": ""
  },
  {
   "property": "C85",
   "status": "proved",
   "theorems": [
    "Auctions.Props.optimal_reordered",
    "Auctions.Props.mcafee_reordered",
    "Auctions.Props.ascending_reordered",
    "Auctions.Props.trade_reduction_reordered",
    "Auctions.Props.order_matters"
   ],
   "note": ""
  },
  {
   "property": "C86",
   "status": "proved",
   "theorems": [
    "Auctions.Props.multirecipe_rejects",
    "Auctions.Props.multirecipe_needs_own",
    "Auctions.Props.multirecipe_fair",
    "Auctions.Props.multirecipe_deals",
    "Auctions.Props.multirecipe_ends",
    "Auctions.Props.multirecipe_no_deals",
    "Auctions.Props.multirecipe_common_error",
    "Auctions.Props.multirecipe_unit_tests"
   ],
   "note": ""
  },
  {
   "property": "C87",
   "status": "proved",
   "theorems": [
    "Auctions.Props.multirecipe_single",
    "Auctions.Props.multirecipe_single_ties"
   ],
   "note": ""
  },
  {
   "property": "C88",
   "status": "proved",
   "theorems": [
    "Auctions.Props.multirecipe_deleted",
    "Auctions.Props.multirecipe_disjoint"
   ],
   "note": ""
  },
  {
   "property": "C89",
   "status": "proved",
   "theorems": [
    "Auctions.Props.units_optimal",
    "Auctions.Props.units_ascending",
    "Auctions.Props.units_trade_reduction",
    "Auctions.Props.units_mcafee",
    "Auctions.Props.units_mcafee_heuristic"
   ],
   "note": ""
  },
  {
   "property": "C90",
   "status": "proved",
   "theorems": [
    "Auctions.Props.old_map_prices",
    "Auctions.Props.old_raise",
    "Auctions.Props.old_raise_like_new",
    "Auctions.Props.old_refuses"
   ],
   "note": ""
  },
  {
   "property": "C91",
   "status": "proved",
   "theorems": [
    "Auctions.Props.old_tree_optimal_trade",
    "Auctions.Props.old_tree_cut",
    "Auctions.Props.old_tree_cut_spare",
    "Auctions.Props.new_tree_cut_spare"
   ],
   "note": ""
  },
  {
   "property": "C92",
   "status": "proved",
   "theorems": [
    "Auctions.Props.search_finds_nothing",
    "Auctions.Props.search_script"
   ],
   "note": ""
  },
  {
   "property": "C93",
   "status": "proved",
   "theorems": [
    "Auctions.Props.sized_columns",
    "Auctions.Props.sized_as_predicted",
    "Auctions.Props.sized_possible_trades"
   ],
   "note": ""
  },
  {
   "property": "C94",
   "status": "proved",
   "theorems": [
    "Auctions.Props.shuffled_columns",
    "Auctions.Props.shuffled_iterations_redundant",
    "Auctions.Props.shuffled_as_predicted",
    "Auctions.Props.shuffled_prices",
    "Auctions.Props.shuffled_first_size_divided",
    "Auctions.Props.shuffled_average_too_low"
   ],
   "note": ""
  },
  {
   "property": "C95",
   "status": "proved",
   "theorems": [
    "Auctions.Props.python_rounding",
    "Auctions.Props.float_optimal_trade",
    "Auctions.Props.float_optimal_gain",
    "Auctions.Props.float_ascending",
    "Auctions.Props.float_ascending_exact",
    "Auctions.Props.float_trade_reduction",
    "Auctions.Props.float_trade_reduction_exact",
    "Auctions.Props.float_mcafee",
    "Auctions.Props.float_mcafee_exact",
    "Auctions.Props.float_near",
    "Auctions.Props.float_limit",
    "Auctions.Props.no_rounding"
   ],
   "note": ""
  },
  {
   "property": "C96",
   "status": "proved",
   "theorems": [
    "Auctions.Props.float_tree_auction",
    "Auctions.Props.float_tree_optimal_trade",
    "Auctions.Props.tree_prices_in_units",
    "Auctions.Props.float_tree_limit",
    "Auctions.Props.no_rounding_tree"
   ],
   "note": ""
  },
  {
   "property": "C97",
   "status": "proved",
   "theorems": [
    "Auctions.Props.unneeded_optimal",
    "Auctions.Props.unneeded_ascending",
    "Auctions.Props.unneeded_trade_reduction",
    "Auctions.Props.unneeded_change",
    "Auctions.Props.unneeded_gain",
    "Auctions.Props.unneeded_ascending_stay",
    "Auctions.Props.unneeded_ascending_gain",
    "Auctions.Props.unneeded_trade_reduction_gain",
    "Auctions.Props.unneeded_tree"
   ],
   "note": ""
  },
  {
   "property": "C98",
   "status": "proved",
   "theorems": [
    "Auctions.Props.initial_prices_do_not_matter",
    "Auctions.Props.initial_prices_do_not_matter_total",
    "Auctions.Props.initial_prices_matter_ties",
    "Auctions.Props.initial_prices_matter_empty"
   ],
   "note": ""
  },
  {
   "property": "C99",
   "status": "proved",
   "theorems": [
    "Auctions.Props.same_market_same_outcome",
    "Auctions.Props.units_tree_auction",
    "Auctions.Props.tree_auction_reordered"
   ],
   "note": ""
  }
 ]
}