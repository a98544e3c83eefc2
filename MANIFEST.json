{
 "claims": [
  {
   "property": "C01",
   "status": "proved",
   "theorems": [
    "Dex.C01_no_exception",
    "Dex.C01_total",
    "Dex.C01_load_problem"
   ],
   "note": ""
  },
  {
   "property": "C02",
   "status": "proved",
   "theorems": [
    "Dex.C02_exact",
    "Dex.C02_kept",
    "Dex.C02_dropped",
    "Dex.C02_load_problem",
    "Dex.C02_negative_balance_counterexample"
   ],
   "note": ""
  },
  {
   "property": "C03",
   "status": "proved",
   "theorems": [
    "Dex.C03_limit_not_looser",
    "Dex.C03_loaded",
    "Dex.C03_execution"
   ],
   "note": ""
  },
  {
   "property": "C04",
   "status": "proved",
   "theorems": [
    "Dex.C04_sorted",
    "Dex.C04_deterministic"
   ],
   "note": ""
  },
  {
   "property": "C05",
   "status": "proved",
   "theorems": [
    "Dex.C05_no_exception"
   ],
   "note": ""
  },
  {
   "property": "C06",
   "status": "proved",
   "theorems": [
    "Dex.C06_balanced"
   ],
   "note": ""
  },
  {
   "property": "C07",
   "status": "proved",
   "theorems": [
    "Dex.C07_limit_rates"
   ],
   "note": ""
  },
  {
   "property": "C08",
   "status": "proved",
   "theorems": [
    "Dex.C08_max_sell"
   ],
   "note": ""
  },
  {
   "property": "C09",
   "status": "proved",
   "theorems": [
    "Dex.C09_min_tradable"
   ],
   "note": ""
  },
  {
   "property": "C10",
   "status": "proved",
   "theorems": [
    "Dex.C10_order_count"
   ],
   "note": ""
  },
  {
   "property": "C11",
   "status": "proved",
   "theorems": [
    "Dex.C11_priority",
    "Dex.C11_one_partial",
    "Dex.C11_closed_form"
   ],
   "note": ""
  },
  {
   "property": "C12",
   "status": "proved",
   "theorems": [
    "Dex.C12_optimal_at_volume",
    "Dex.C12_optimal",
    "Dex.C12_one_side_filled"
   ],
   "note": ""
  },
  {
   "property": "C13",
   "status": "proved",
   "theorems": [
    "Dex.C13_only_buy_changes",
    "Dex.C13_stale_amounts_ignored",
    "Dex.C13_idempotent"
   ],
   "note": ""
  },
  {
   "property": "C14",
   "status": "proved",
   "theorems": [
    "Dex.C14_exact",
    "Dex.C14_removed",
    "Dex.C14_both_or_none",
    "Dex.C14_idempotent",
    "Dex.C14_empty_side"
   ],
   "note": ""
  },
  {
   "property": "C15",
   "status": "proved",
   "theorems": [
    "Dex.C15_sound",
    "Dex.C15_all_patterns",
    "Dex.C15_complete"
   ],
   "note": ""
  },
  {
   "property": "C16",
   "status": "proved",
   "theorems": [
    "Dex.C16_attained_maximum"
   ],
   "note": ""
  },
  {
   "property": "C17",
   "status": "proved",
   "theorems": [
    "Dex.C17_neighbours",
    "Dex.C17_finds_peak",
    "Dex.C17_limit_rate_search"
   ],
   "note": ""
  },
  {
   "property": "C18",
   "status": "proved",
   "theorems": [
    "Dex.C18_search_aborts",
    "Dex.C18_solver_aborts"
   ],
   "note": "Negative result: a concrete well-formed instance on which the solver raises AssertionError."
  },
  {
   "property": "C19",
   "status": "proved",
   "theorems": [
    "Dex.C19_root5_balances",
    "Dex.C19_unique"
   ],
   "note": ""
  },
  {
   "property": "C20",
   "status": "proved",
   "theorems": [
    "Dex.C20_selected_price",
    "Dex.C20_choice",
    "Dex.C20_zero_division_iff",
    "Dex.C20_close"
   ],
   "note": ""
  },
  {
   "property": "C21",
   "status": "proved",
   "theorems": [
    "Dex.C21_price"
   ],
   "note": ""
  },
  {
   "property": "C22",
   "status": "proved",
   "theorems": [
    "Dex.C22_market_order_matchable",
    "Dex.C22_market_order",
    "Dex.C22_high_fee_aborts"
   ],
   "note": ""
  },
  {
   "property": "C23",
   "status": "proved",
   "theorems": [
    "Dex.C23_integer_on_clearing_price"
   ],
   "note": ""
  },
  {
   "property": "C24",
   "status": "proved",
   "theorems": [
    "Dex.C24_order_constraints",
    "Dex.C24_only_amounts_change"
   ],
   "note": ""
  },
  {
   "property": "C25",
   "status": "proved",
   "theorems": [
    "Dex.C25_tree_tokens_balanced",
    "Dex.C25_token_pair_balanced"
   ],
   "note": ""
  },
  {
   "property": "C26",
   "status": "proved",
   "theorems": [
    "Dex.C26_rounding_total"
   ],
   "note": ""
  },
  {
   "property": "C27",
   "status": "proved",
   "theorems": [
    "Dex.C27_fees_nonneg"
   ],
   "note": ""
  },
  {
   "property": "C28",
   "status": "proved",
   "theorems": [
    "Dex.C28_same_orders_executed"
   ],
   "note": ""
  },
  {
   "property": "C29",
   "status": "proved",
   "theorems": [
    "Dex.C29_enter_exact",
    "Dex.C29_strictly_smaller",
    "Dex.C29_restored"
   ],
   "note": ""
  },
  {
   "property": "C30",
   "status": "proved",
   "theorems": [
    "Dex.C30_validate_iff",
    "Dex.C30_passed_is_feasible"
   ],
   "note": ""
  },
  {
   "property": "C31",
   "status": "proved",
   "theorems": [
    "Dex.C31_returned_is_feasible",
    "Dex.C31_best_pair_feasible"
   ],
   "note": ""
  },
  {
   "property": "C32",
   "status": "proved",
   "theorems": [
    "Dex.C32_validation_never_fails",
    "Dex.C32_token_pair",
    "Dex.C32_best_pair"
   ],
   "note": ""
  },
  {
   "property": "C33",
   "status": "proved",
   "theorems": [
    "Dex.C33_agree_on_large_amounts",
    "Dex.C33_never_fails_on_large_amounts",
    "Dex.C33_disagreement"
   ],
   "note": "The positive direction and a concrete counterexample to the converse."
  },
  {
   "property": "C34",
   "status": "proved",
   "theorems": [
    "Dex.C34_round_bound",
    "Dex.C34_terminates",
    "Dex.C34_token_pair_main",
    "Dex.C34_best_pair_main"
   ],
   "note": ""
  },
  {
   "property": "C35",
   "status": "proved",
   "theorems": [
    "Dex.C35_one_sided_raises",
    "Dex.C35_both_empty"
   ],
   "note": "Negative result: an empty side raises ValueError."
  },
  {
   "property": "C36",
   "status": "proved",
   "theorems": [
    "Dex.C36_balances",
    "Dex.C36_key_error",
    "Dex.C36_validated_nonneg"
   ],
   "note": ""
  },
  {
   "property": "C37",
   "status": "proved",
   "theorems": [
    "Dex.C37_totals",
    "Dex.C37_validated"
   ],
   "note": ""
  },
  {
   "property": "C38",
   "status": "proved",
   "theorems": [
    "Dex.C38_disregarded_nonneg",
    "Dex.C38_metrics"
   ],
   "note": ""
  },
  {
   "property": "C39",
   "status": "proved",
   "theorems": [
    "Dex.C39_formula",
    "Dex.C39_bounds",
    "Dex.C39_fractional_limit_raises"
   ],
   "note": ""
  },
  {
   "property": "C40",
   "status": "proved",
   "theorems": [
    "Dex.C40_metrics_add_up"
   ],
   "note": ""
  },
  {
   "property": "C41",
   "status": "proved",
   "theorems": [
    "Dex.C41_candidates",
    "Dex.C41_nodup",
    "Dex.C41_unmatchable",
    "Dex.C41_complete"
   ],
   "note": ""
  },
  {
   "property": "C42",
   "status": "proved",
   "theorems": [
    "Dex.C42_best_of_evaluated",
    "Dex.C42_objective_of_solution"
   ],
   "note": ""
  },
  {
   "property": "C43",
   "status": "proved",
   "theorems": [
    "Dex.C43_evaluations_agree",
    "Dex.C43_any_thresholds",
    "Dex.C43_no_stale_amounts",
    "Dex.C43_shuffle_independent",
    "Dex.C43_instance"
   ],
   "note": ""
  },
  {
   "property": "C44",
   "status": "proved",
   "theorems": [
    "Dex.C44_token_pair",
    "Dex.C44_best_pair",
    "Dex.C44_exactly_touched"
   ],
   "note": ""
  },
  {
   "property": "C45",
   "status": "proved",
   "theorems": [
    "Dex.C45_positions",
    "Dex.C45_idempotent",
    "Dex.C45_int_text",
    "Dex.C45_integral_fraction"
   ],
   "note": ""
  },
  {
   "property": "C46",
   "status": "proved",
   "theorems": [
    "Dex.C46_reachable"
   ],
   "note": ""
  },
  {
   "property": "C47",
   "status": "proved",
   "theorems": [
    "Dex.C47_without_thresholds",
    "Dex.C47_prefix",
    "Dex.C47_subset",
    "Dex.C47_size",
    "Dex.C47_not_overapproximation",
    "Dex.C47_not_viable"
   ],
   "note": ""
  },
  {
   "property": "C48",
   "status": "proved",
   "theorems": [
    "Dex.C48_sign",
    "Dex.C48_max"
   ],
   "note": ""
  },
  {
   "property": "C49",
   "status": "proved",
   "theorems": [
    "Dex.C49_interval",
    "Dex.C49_room"
   ],
   "note": ""
  },
  {
   "property": "C50",
   "status": "proved",
   "theorems": [
    "Dex.C50_rate_above_price",
    "Dex.C50_zero_fee_metrics"
   ],
   "note": "Negative result for all rates above the price and for all zero-fee orders."
  },
  {
   "property": "C51",
   "status": "proved",
   "theorems": [
    "Dex.C51_threshold_crash"
   ],
   "note": "Negative result: a concrete instance and fee threshold on which the solvers raise ValueError."
  },
  {
   "property": "C52",
   "status": "proved",
   "theorems": [
    "Dex.C52_root4_maximises",
    "Dex.C52_root3_maximises"
   ],
   "note": "The square root is assumed exact on the argument it is called with."
  },
  {
   "property": "C53",
   "status": "proved",
   "theorems": [
    "Dex.C53_locally_optimal"
   ],
   "note": "The square root is assumed accurate to a stated relative error."
  },
  {
   "property": "C54",
   "status": "proved",
   "theorems": [
    "Dex.C54_not_globally_optimal"
   ],
   "note": "Negative result: a concrete sane book on which the rate found is not optimal."
  },
  {
   "property": "C55",
   "status": "proved",
   "theorems": [
    "Dex.C55_rate_search",
    "Dex.C55_any_thresholds",
    "Dex.C55_token_pair",
    "Dex.C55_best_pair",
    "Dex.C55_given_rate_total"
   ],
   "note": "The square root is a parameter; its own exceptions on non-negative arguments are listed as one of the outcomes. 9/10 <= (1-fee)^2 holds for fees up to about 5 percent."
  },
  {
   "property": "C56",
   "status": "proved",
   "theorems": [
    "Dex.C56_abort_needs_tie"
   ],
   "note": ""
  },
  {
   "property": "C57",
   "status": "proved",
   "theorems": [
    "Dex.C57_search_divides_by_zero",
    "Dex.C57_solver_divides_by_zero"
   ],
   "note": "Negative result: a concrete well-formed instance on which the solver raises ZeroDivisionError."
  },
  {
   "property": "C58",
   "status": "proved",
   "theorems": [
    "Dex.C58_greatest_volume",
    "Dex.C58_determined",
    "Dex.C58_executes_iff",
    "Dex.C58_best_greedy_fill"
   ],
   "note": ""
  },
  {
   "property": "C59",
   "status": "proved",
   "theorems": [
    "Dex.C59_gives_up_without_room",
    "Dex.C59_succeeds_with_room",
    "Dex.C59_succeeds_with_slack"
   ],
   "note": ""
  },
  {
   "property": "C60",
   "status": "proved",
   "theorems": [
    "Dex.C60_fee_order_choice"
   ],
   "note": ""
  },
  {
   "property": "C61",
   "status": "proved",
   "theorems": [
    "Dex.C61_fee_pair",
    "Dex.C61_fee_pair_second",
    "Dex.C61_not_trivial"
   ],
   "note": ""
  },
  {
   "property": "C62",
   "status": "proved",
   "theorems": [
    "Dex.C62_attempt"
   ],
   "note": ""
  },
  {
   "property": "C63",
   "status": "proved",
   "theorems": [
    "Dex.C63_run_unique",
    "Dex.C63_iff",
    "Dex.C63_fee_pair_amounts",
    "Dex.C63_run"
   ],
   "note": ""
  },
  {
   "property": "C64",
   "status": "proved",
   "theorems": [
    "Dex.C64_removes_larger_order"
   ],
   "note": ""
  },
  {
   "property": "C65",
   "status": "proved",
   "theorems": [
    "Dex.C65_read",
    "Dex.C65_run_reads",
    "Dex.C65_token_pair",
    "Dex.C65_best_pair"
   ],
   "note": ""
  },
  {
   "property": "C66",
   "status": "proved",
   "theorems": [
    "Dex.C66_token_pair",
    "Dex.C66_best_pair"
   ],
   "note": ""
  },
  {
   "property": "C67",
   "status": "proved",
   "theorems": [
    "Dex.C67_no_float",
    "Dex.C67_token_pair",
    "Dex.C67_best_pair",
    "Dex.C67_float_witness",
    "Dex.C67_orderID_witness"
   ],
   "note": "Negative result, for all instances and with concrete witnesses."
  },
  {
   "property": "C68",
   "status": "proved",
   "theorems": [
    "Dex.C68_exact_objective",
    "Dex.C68_integer_objective"
   ],
   "note": ""
  },
  {
   "property": "C69",
   "status": "proved",
   "theorems": [
    "Dex.C69_worth",
    "Dex.C69_best_of_visited",
    "Dex.C69_best_of_all"
   ],
   "note": ""
  },
  {
   "property": "C70",
   "status": "proved",
   "theorems": [
    "Dex.C70_thresholds",
    "Dex.C70_no_subcommand",
    "Dex.C70_in_time",
    "Dex.C70_stops"
   ],
   "note": ""
  },
  {
   "property": "C71",
   "status": "proved",
   "theorems": [
    "Dex.C71_other_orders",
    "Dex.C71_new_tokens",
    "Dex.C71_position_matters"
   ],
   "note": ""
  },
  {
   "property": "C72",
   "status": "proved",
   "theorems": [
    "Dex.C72_extra_order",
    "Dex.C72_extra_balance",
    "Dex.C72_tiny_order"
   ],
   "note": ""
  },
  {
   "property": "C73",
   "status": "proved",
   "theorems": [
    "Dex.C73_succeeds_with_slack",
    "Dex.C73_fails_without_cover",
    "Dex.C73_attempt"
   ],
   "note": ""
  },
  {
   "property": "C74",
   "status": "proved",
   "theorems": [
    "Dex.C74_at_most_one_partial",
    "Dex.C74_some_filled",
    "Dex.C74_rate_domain",
    "Dex.C74_imbalance",
    "Dex.C74_open_question"
   ],
   "note": ""
  },
  {
   "property": "C75",
   "status": "proved",
   "theorems": [
    "Dex.C75_bin_search_queries",
    "Dex.C75_bin_search_iterations",
    "Dex.C75_interval_count",
    "Dex.C75_rates_per_case"
   ],
   "note": ""
  },
  {
   "property": "C76",
   "status": "proved",
   "theorems": [
    "Dex.C76_in_place"
   ],
   "note": ""
  },
  {
   "property": "C77",
   "status": "proved",
   "theorems": [
    "Dex.C77_token_pair_program",
    "Dex.C77_best_program",
    "Dex.C77_token_pair_exact",
    "Dex.C77_best_exact",
    "Dex.C77_same_token"
   ],
   "note": ""
  },
  {
   "property": "C78",
   "status": "proved",
   "theorems": [
    "Dex.C78_one_direction",
    "Dex.C78_fee_pair",
    "Dex.C78_main_pair",
    "Dex.C78_fee_pair_program"
   ],
   "note": ""
  },
  {
   "property": "C79",
   "status": "proved",
   "theorems": [
    "Dex.C79_denominator",
    "Dex.C79_unit_fee",
    "Dex.C79_no_surplus",
    "Dex.C79_wrong_fee",
    "Dex.C79_scaled"
   ],
   "note": ""
  },
  {
   "property": "C80",
   "status": "proved",
   "theorems": [
    "Dex.C80_utility",
    "Dex.C80_max_utility"
   ],
   "note": ""
  },
  {
   "property": "C81",
   "status": "proved",
   "theorems": [
    "Dex.C81_matching",
    "Dex.C81_command",
    "Dex.C81_close",
    "Dex.C81_not_positive",
    "Dex.C81_not_inverted"
   ],
   "note": ""
  },
  {
   "property": "C82",
   "status": "proved",
   "theorems": [
    "Dex.C82_fee_pair",
    "Dex.C82_main_pair",
    "Dex.C82_search",
    "Dex.C82_program",
    "Dex.C82_best_pair",
    "Dex.C82_fee_pair_full",
    "Dex.C82_not_with_thresholds"
   ],
   "note": ""
  },
  {
   "property": "C83",
   "status": "proved",
   "theorems": [
    "Dex.C83_difference",
    "Dex.C83_same_exceptions",
    "Dex.C83_reported",
    "Dex.C83_default_finds_nothing"
   ],
   "note": ""
  },
  {
   "property": "C84",
   "status": "proved",
   "theorems": [
    "Dex.C84_imbalance",
    "Dex.C84_rounding",
    "Dex.C84_bought_by_fee_orders",
    "Dex.C84_empty",
    "Dex.C84_integer_objective_raises",
    "Dex.C84_type_error"
   ],
   "note": ""
  },
  {
   "property": "C85",
   "status": "proved",
   "theorems": [
    "Dex.C85_pair_solver",
    "Dex.C85_best_pair_solver",
    "Dex.C85_accounts",
    "Dex.C85_follows"
   ],
   "note": ""
  },
  {
   "property": "C86",
   "status": "proved",
   "theorems": [
    "Dex.C86_pair_solver",
    "Dex.C86_best_pair_solver",
    "Dex.C86_renamed",
    "Dex.C86_renamed_best",
    "Dex.C86_rounding_depends"
   ],
   "note": ""
  },
  {
   "property": "C87",
   "status": "proved",
   "theorems": [
    "Dex.C87_pair_solver",
    "Dex.C87_any_order",
    "Dex.C87_best_pair_solver",
    "Dex.C87_shuffles",
    "Dex.C87_ties_matter"
   ],
   "note": ""
  },
  {
   "property": "C88",
   "status": "proved",
   "theorems": [
    "Dex.C88_amounts_any",
    "Dex.C88_amounts_test",
    "Dex.C88_solver_test",
    "Dex.C88_threshold_tests",
    "Dex.C88_solver_test_can_fail",
    "Dex.C88_average_fee_test_can_fail",
    "Dex.C88_absolute_fee_test_can_fail",
    "Dex.C88_rate_test_can_fail",
    "Dex.C88_rate_test_may_not_end",
    "Dex.C88_rate_test"
   ],
   "note": ""
  },
  {
   "property": "C89",
   "status": "proved",
   "theorems": [
    "Dex.C89_two_orders",
    "Dex.C89_two_orders_second",
    "Dex.C89_program",
    "Dex.C89_more_orders_no_trade"
   ],
   "note": ""
  },
  {
   "property": "C90",
   "status": "proved",
   "theorems": [
    "Dex.C90_pair",
    "Dex.C90_best",
    "Dex.C90_user_limits",
    "Dex.C90_documented_root1"
   ],
   "note": ""
  },
  {
   "property": "C91",
   "status": "proved",
   "theorems": [
    "Dex.C91_fraction_text",
    "Dex.C91_fraction_error",
    "Dex.C91_int_text",
    "Dex.C91_int_round_trip",
    "Dex.C91_fraction_round_trip",
    "Dex.C91_agree",
    "Dex.C91_conv",
    "Dex.C91_token_pair",
    "Dex.C91_best_pair",
    "Dex.C91_different_texts"
   ],
   "note": ""
  },
  {
   "property": "C92",
   "status": "proved",
   "theorems": [
    "Dex.C92_token_pair",
    "Dex.C92_best_pair",
    "Dex.C92_bool_witness"
   ],
   "note": ""
  },
  {
   "property": "C93",
   "status": "proved",
   "theorems": [
    "Dex.C93_sides",
    "Dex.C93_objective",
    "Dex.C93_fee_breaks_it"
   ],
   "note": ""
  },
  {
   "property": "C94",
   "status": "proved",
   "theorems": [
    "Dex.C94_units",
    "Dex.C94_objective",
    "Dex.C94_minimum_matters"
   ],
   "note": ""
  },
  {
   "property": "C95",
   "status": "proved",
   "theorems": [
    "Dex.C95_limit",
    "Dex.C95_objective",
    "Dex.C95_run_not_monotone"
   ],
   "note": ""
  },
  {
   "property": "C96",
   "status": "proved",
   "theorems": [
    "Dex.C96_amounts",
    "Dex.C96_rate"
   ],
   "note": ""
  },
  {
   "property": "C97",
   "status": "proved",
   "theorems": [
    "Dex.C97_parsed",
    "Dex.C97_rejected",
    "Dex.C97_rate_rejected"
   ],
   "note": ""
  },
  {
   "property": "C98",
   "status": "proved",
   "theorems": [
    "Dex.C98_ambiguous",
    "Dex.C98_negative_fraction",
    "Dex.C98_after_subcommand",
    "Dex.C98_log_rationals",
    "Dex.C98_no_subcommand"
   ],
   "note": ""
  },
  {
   "property": "C99",
   "status": "proved",
   "theorems": [
    "Dex.C99_improved_s",
    "Dex.C99_improved_b",
    "Dex.C99_unfilled_s",
    "Dex.C99_unfilled_b",
    "Dex.C99_more_offered_sells_less",
    "Dex.C99_better_limit_sells_less",
    "Dex.C99_program"
   ],
   "note": ""
  },
  {
   "property": "C100",
   "status": "proved",
   "theorems": [
    "Dex.C100_read",
    "Dex.C100_rejects",
    "Dex.C100_unambiguous",
    "Dex.C100_repeated_account"
   ],
   "note": ""
  },
  {
   "property": "C101",
   "status": "proved",
   "theorems": [
    "Dex.C101_writes",
    "Dex.C101_round_trip",
    "Dex.C101_plain",
    "Dex.C101_faithful"
   ],
   "note": ""
  },
  {
   "property": "C102",
   "status": "proved",
   "theorems": [
    "Dex.C102_not_json",
    "Dex.C102_token_pair",
    "Dex.C102_best_pair",
    "Dex.C102_token_pair_outcome",
    "Dex.C102_best_pair_outcome",
    "Dex.C102_text_again",
    "Dex.C102_best_text_again"
   ],
   "note": ""
  },
  {
   "property": "C103",
   "status": "proved",
   "theorems": [
    "Dex.C103_only_solution",
    "Dex.C103_failure",
    "Dex.C103_success",
    "Dex.C103_command_line",
    "Dex.C103_instance_lost"
   ],
   "note": ""
  },
  {
   "property": "C104",
   "status": "proved",
   "theorems": [
    "Dex.C104_single_peak",
    "Dex.C104_one_limit_per_side",
    "Dex.C104_two_orders"
   ],
   "note": ""
  },
  {
   "property": "C105",
   "status": "proved",
   "theorems": [
    "Dex.C105_fee_share",
    "Dex.C105_token_pair",
    "Dex.C105_best_pair",
    "Dex.C105_positive"
   ],
   "note": ""
  },
  {
   "property": "C106",
   "status": "proved",
   "theorems": [
    "Dex.C106_run",
    "Dex.C106_chain",
    "Dex.C106_ends",
    "Dex.C106_exhausted",
    "Dex.C106_idle",
    "Dex.C106_limit_exceeded"
   ],
   "note": ""
  },
  {
   "property": "C107",
   "status": "proved",
   "theorems": [
    "Dex.C107_float",
    "Dex.C107_float_ties",
    "Dex.C107_float_overflow",
    "Dex.C107_root",
    "Dex.C107_sqrt_total",
    "Dex.C107_accurate",
    "Dex.C107_locally_optimal",
    "Dex.C107_single_peak",
    "Dex.C107_one_limit_per_side",
    "Dex.C107_two_orders"
   ],
   "note": ""
  },
  {
   "property": "C108",
   "status": "proved",
   "theorems": [
    "Dex.C108_exact_passes",
    "Dex.C108_passed",
    "Dex.C108_small_exact",
    "Dex.C108_below_minimum"
   ],
   "note": ""
  },
  {
   "property": "C109",
   "status": "proved",
   "theorems": [
    "Dex.C109_float_text",
    "Dex.C109_shortest",
    "Dex.C109_nearest",
    "Dex.C109_form",
    "Dex.C109_float_lib",
    "Dex.C109_fee_kept",
    "Dex.C109_fee_near",
    "Dex.C109_reads",
    "Dex.C109_chain",
    "Dex.C109_fee_changed"
   ],
   "note": ""
  },
  {
   "property": "C110",
   "status": "proved",
   "theorems": [
    "Dex.C110_exact",
    "Dex.C110_close",
    "Dex.C110_missing",
    "Dex.C110_integers",
    "Dex.C110_amount_wrong",
    "Dex.C110_amounts"
   ],
   "note": ""
  },
  {
   "property": "C111",
   "status": "proved",
   "theorems": [
    "Dex.C111_token_pair",
    "Dex.C111_best_pair",
    "Dex.C111_world",
    "Dex.C111_exceptions",
    "Dex.C111_run",
    "Dex.C111_occur"
   ],
   "note": ""
  },
  {
   "property": "C112",
   "status": "proved",
   "theorems": [
    "Dex.C112_token_pair",
    "Dex.C112_best_pair",
    "Dex.C112_no_overflow",
    "Dex.C112_run",
    "Dex.C112_size_needed"
   ],
   "note": ""
  },
  {
   "property": "C113",
   "status": "proved",
   "theorems": [
    "Dex.C113_absolute_never",
    "Dex.C113_average_only",
    "Dex.C113_complete",
    "Dex.C113_occur"
   ],
   "note": ""
  },
  {
   "property": "C114",
   "status": "proved",
   "theorems": [
    "Dex.C114_search",
    "Dex.C114_small_book",
    "Dex.C114_fee_price",
    "Dex.C114_fee_pair",
    "Dex.C114_small_run"
   ],
   "note": ""
  },
  {
   "property": "C115",
   "status": "proved",
   "theorems": [
    "Dex.C115_token_pair",
    "Dex.C115_small_run",
    "Dex.C115_best_pair",
    "Dex.C115_best_small"
   ],
   "note": ""
  },
  {
   "property": "C116",
   "status": "proved",
   "theorems": [
    "Dex.C116_same",
    "Dex.C116_pair",
    "Dex.C116_best",
    "Dex.C116_file",
    "Dex.C116_no_cross",
    "Dex.C116_no_match_although_cross",
    "Dex.C116_messages",
    "Dex.C116_before_exception"
   ],
   "note": ""
  },
  {
   "property": "C117",
   "status": "proved",
   "theorems": [
    "Dex.C117_tells",
    "Dex.C117_only",
    "Dex.C117_comma"
   ],
   "note": ""
  },
  {
   "property": "C118",
   "status": "proved",
   "theorems": [
    "Dex.C118_less_time",
    "Dex.C118_larger_limit",
    "Dex.C118_more_time_fails"
   ],
   "note": ""
  },
  {
   "property": "C119",
   "status": "proved",
   "theorems": [
    "Dex.C119_met_thresholds",
    "Dex.C119_same_file",
    "Dex.C119_same_exception",
    "Dex.C119_same_exit"
   ],
   "note": ""
  }
 ]
}