{
 "claims": [
  {
   "property": "C01",
   "status": "proved",
   "theorems": [
    "SR.C01_valid_iff_tree",
    "SR.C01_tree_unique"
   ],
   "note": "is_valid_postfix modelled exactly; tree unique."
  },
  {
   "property": "C02",
   "status": "proved",
   "theorems": [
    "SR.C02_count_depth",
    "SR.C02_mapreduce",
    "SR.C02_subtree_sizes",
    "SR.C02_subtree_range",
    "SR.C02_counts",
    "SR.C02_has",
    "SR.C02_depth_le_size",
    "SR.C02_max_arity"
   ],
   "note": "All of node_utils.rs."
  },
  {
   "property": "C03",
   "status": "proved",
   "theorems": [
    "SR.C03_eval_correct",
    "SR.C03_eval_into_correct"
   ],
   "note": ""
  },
  {
   "property": "C04",
   "status": "proved",
   "theorems": [
    "SR.C04_flag",
    "SR.C04_early_exit_irrelevant"
   ],
   "note": ""
  },
  {
   "property": "C05",
   "status": "proved",
   "theorems": [
    "SR.C05_plan_safe",
    "SR.C05_compile_rejects"
   ],
   "note": ""
  },
  {
   "property": "C06",
   "status": "proved",
   "theorems": [
    "SR.C06_deriv_context_any_arithmetic",
    "SR.C06_deriv_context_reuse",
    "SR.C06_context_reuse",
    "SR.C06_collision_counterexample"
   ],
   "note": "DEFECT in the code: unconditional claim is false for every hash function (C06_collision_counterexample); proved for value, directional and gradient contexts for every history without a 64-bit node-hash collision. The derivative contexts: in any arithmetic (C06_deriv_context_any_arithmetic)."
  },
  {
   "property": "C07",
   "status": "proved",
   "theorems": [
    "SR.C07_any_arithmetic",
    "SR.C07_flag_any_arithmetic",
    "SR.C07_diff_correct",
    "SR.C07_diff_flag"
   ],
   "note": "C07_diff_correct: chain rule where 0*x=0 and 0+x=x; C07_any_arithmetic and C07_flag_any_arithmetic: every scalar type, with the one shortcut spelled out in Spec/GradSkip."
  },
  {
   "property": "C08",
   "status": "proved",
   "theorems": [
    "SR.C08_any_arithmetic",
    "SR.C08_skips_are_sound",
    "SR.C08_agrees_any_arithmetic",
    "SR.C08_evaluators_differ",
    "SR.C08_grad_correct",
    "SR.C08_grad_agrees_diff",
    "SR.C08_zero_rows_panics"
   ],
   "note": "C08_grad_correct: chain rule where 0*x=0; C08_any_arithmetic: every scalar type, with the shortcuts spelled out. At least one row; C08_zero_rows_panics proves the zero-row gradient of a feature panics. DEFECT in the code: C08_evaluators_differ, the two evaluators disagree (NaN against 0) in floating point."
  },
  {
   "property": "C09",
   "status": "proved",
   "theorems": [
    "SR.C09_feature_derivative",
    "SR.C09_constant_derivative",
    "SR.C09_diff_true_derivative",
    "SR.C09_grad_true_derivative"
   ],
   "note": ""
  },
  {
   "property": "C10",
   "status": "proved",
   "theorems": [
    "SR.C10_partials_correct",
    "SR.C10_each_argument",
    "SR.C10_clamp_counterexample"
   ],
   "note": "All 40 built-ins over the reals on their open domains; clamp with hi<x<lo is excluded and C10_clamp_counterexample proves its declared partial is wrong there."
  },
  {
   "property": "C11",
   "status": "proved",
   "theorems": [
    "SR.C11_get_set",
    "SR.C11_set_get",
    "SR.C11_wrong_length",
    "SR.C11_eval_after_set"
   ],
   "note": ""
  },
  {
   "property": "C12",
   "status": "proved",
   "theorems": [
    "SR.C12_compress_correct",
    "SR.C12_changed_iff",
    "SR.C12_idempotent"
   ],
   "note": ""
  },
  {
   "property": "C13",
   "status": "proved",
   "theorems": [
    "SR.C13_fold_exact",
    "SR.C13_fold_same_evaluation"
   ],
   "note": ""
  },
  {
   "property": "C14",
   "status": "proved",
   "theorems": [
    "SR.C14_simplify_exact",
    "SR.C14_full_false"
   ],
   "note": "DEFECT in the code: the unconditional claim C14Full is false (C14_full_false, 1 - atanh(x) becomes 2 - x with the preset operators); proved under the hypothesis that the sub id occurs only with arity 2."
  },
  {
   "property": "C15",
   "status": "proved",
   "theorems": [
    "SR.C15_simplify_shape"
   ],
   "note": ""
  },
  {
   "property": "C16",
   "status": "proved",
   "theorems": [
    "SR.C16_apply_correct",
    "SR.C16_apply_panics_iff",
    "SR.C16_apply_total"
   ],
   "note": ""
  },
  {
   "property": "C17",
   "status": "proved",
   "theorems": [
    "SR.C17_strip",
    "SR.C17_parses_back",
    "SR.C17_unambiguous",
    "SR.C17_variable_names"
   ],
   "note": ""
  },
  {
   "property": "C18",
   "status": "proved",
   "theorems": [
    "SR.C18_trim",
    "SR.C18_lookup",
    "SR.C18_lookup_with_arity"
   ],
   "note": ""
  },
  {
   "property": "C19",
   "status": "proved",
   "theorems": [
    "SR.C19_mutations_preserve"
   ],
   "note": "All ten mutations; setting: at least one feature, arities within 1..D, fewer than 65536 constants (u16)."
  },
  {
   "property": "C20",
   "status": "proved",
   "theorems": [
    "SR.C20_mutate_operator",
    "SR.C20_operator_unconfigured",
    "SR.C20_mutate_feature",
    "SR.C20_empty",
    "SR.C20_insert",
    "SR.C20_prepend",
    "SR.C20_append",
    "SR.C20_delete",
    "SR.C20_sizes",
    "SR.C20_random_expr",
    "SR.C20_random_append"
   ],
   "note": ""
  },
  {
   "property": "C21",
   "status": "proved",
   "theorems": [
    "SR.C21_swap",
    "SR.C21_rotate",
    "SR.C21_only_rearrange"
   ],
   "note": ""
  },
  {
   "property": "C22",
   "status": "proved",
   "theorems": [
    "SR.C22_crossover",
    "SR.C22_child_value"
   ],
   "note": "Constants of donor subtrees are remapped; children described up to constant renumbering, values unchanged."
  },
  {
   "property": "C23",
   "status": "proved",
   "theorems": [
    "SR.C23_accepts_iff",
    "SR.C23_monotone",
    "SR.C23_set_op_arg",
    "SR.C23_add_nested"
   ],
   "note": ""
  },
  {
   "property": "C24",
   "status": "proved",
   "theorems": [
    "SR.C24_complexity",
    "SR.C24_empty",
    "SR.C24_default",
    "SR.C24_weights"
   ],
   "note": ""
  },
  {
   "property": "C25",
   "status": "proved",
   "theorems": [
    "SR.C25_entry",
    "SR.C25_entry_exists",
    "SR.C25_cost_monotone",
    "SR.C25_rejected",
    "SR.C25_update"
   ],
   "note": "First least-cost feasible member per complexity, over every offer history."
  },
  {
   "property": "C26",
   "status": "proved",
   "theorems": [
    "SR.C26_reachable_indexed",
    "SR.C26_strict",
    "SR.C26_exact",
    "SR.C26_not_dominated",
    "SR.C26_covers"
   ],
   "note": ""
  },
  {
   "property": "C27",
   "status": "proved",
   "theorems": [
    "SR.C27_numeric",
    "SR.C27_nan_blocks"
   ],
   "note": "DEFECT in the code: a NaN-cost member offered first to a slot is never replaced (C27_nan_blocks). NaN offered later is ignored (C27_numeric)."
  },
  {
   "property": "C28",
   "status": "proved",
   "theorems": [
    "SR.C28_binary64",
    "SR.C28_at_least_one",
    "SR.C28_freq_floor",
    "SR.C28_normalize",
    "SR.C28_normalize_zero",
    "SR.C28_new",
    "SR.C28_window",
    "SR.C28_window_enforced",
    "SR.C28_update",
    "SR.C28_normalize64"
   ],
   "note": "C28_at_least_one for every arithmetic that counts exactly to B (hypothesis CountsTo; f64 has B = 2^53); normalisation and window in exact arithmetic."
  },
  {
   "property": "C29",
   "status": "proved",
   "theorems": [
    "SR.C29_replace_oldest",
    "SR.C29_replace_two_oldest",
    "SR.C29_panics"
   ],
   "note": ""
  },
  {
   "property": "C30",
   "status": "proved",
   "theorems": [
    "SR.C30_migrate",
    "SR.C30_no_panic",
    "SR.C30_no_migrants",
    "SR.C30_best_sub_pop"
   ],
   "note": "Poisson draw abstract: the bounds hold for any count it returns; poisson_sample is modelled in Model/Random."
  },
  {
   "property": "C31",
   "status": "proved",
   "theorems": [
    "SR.C31_tournament",
    "SR.C31_best",
    "SR.C31_geometric",
    "SR.C31_no_panic",
    "SR.C31_nan_adjusted"
   ],
   "note": "DEFECT in the code: NaN adjusted cost when exp overflows and cost is zero (C31_nan_adjusted). slice::sort_by is any function meeting its documented contract (structure SortBy)."
  },
  {
   "property": "C32",
   "status": "proved",
   "theorems": [
    "SR.C32_range",
    "SR.C32_interval",
    "SR.C32_zero_never",
    "SR.C32_positive_reached",
    "SR.C32_zero_weight_binary64"
   ],
   "note": "DEFECT in the code: rounding can select a zero-weight last index (C32_zero_weight_binary64)."
  },
  {
   "property": "C33",
   "status": "proved",
   "theorems": [
    "SR.C33_shuffle_perm",
    "SR.C33_shuffle_reaches",
    "SR.C33_shuffle_unbiased",
    "SR.C33_sample",
    "SR.C33_sample_total",
    "SR.C33_sample_reaches"
   ],
   "note": "The rejection branch of sample_indices takes a fuel bound; all statements hold for every fuel."
  },
  {
   "property": "C34",
   "status": "proved",
   "theorems": [
    "SR.C34_exact",
    "SR.C34_never_raised",
    "SR.C34_impossible",
    "SR.C34_really_impossible",
    "SR.C34_exceptions",
    "SR.C34_chosen",
    "SR.C34_chosen_exact",
    "SR.C34_optimize_at_zero_weight"
   ],
   "note": "DEFECT in the code: leaf early return and rotation never disabled (C34_exceptions). The kind drawn: C34_chosen (any rounding), C34_chosen_exact (exact arithmetic, both directions), C34_optimize_at_zero_weight (exception in f64)."
  },
  {
   "property": "C35",
   "status": "proved",
   "theorems": [
    "SR.C35_generation",
    "SR.C35_generation_result",
    "SR.C35_feasible",
    "SR.C35_crossover",
    "SR.C35_exhausted"
   ],
   "note": "DEFECT in the code: all-zero conditioned weights panic (C35_exhausted); simplified children keep the parent loss (in GenSpec.scored)."
  },
  {
   "property": "C36",
   "status": "proved",
   "theorems": [
    "SR.C36_step",
    "SR.C36_cycle",
    "SR.C36_iteration"
   ],
   "note": "DEFECT in the code: tournament_selection_n = 0 (C36_cycle)."
  },
  {
   "property": "C37",
   "status": "proved",
   "theorems": [
    "SR.C37_optimize",
    "SR.C37_not_worse"
   ],
   "note": ""
  },
  {
   "property": "C38",
   "status": "proved",
   "theorems": [
    "SR.C38_steps",
    "SR.C38_default",
    "SR.C38_interpolation",
    "SR.C38_linesearch",
    "SR.C38_bfgs",
    "SR.C38_newton",
    "SR.C38_bfgs_calls",
    "SR.C38_newton_calls",
    "SR.C38_progress_lost",
    "SR.C38_newton_no_iterations"
   ],
   "note": "DEFECT in the code: progress is lost when the budget runs out inside a line search (C38_progress_lost)."
  },
  {
   "property": "C39",
   "status": "proved",
   "theorems": [
    "SR.C39_defined",
    "SR.C39_nonneg",
    "SR.C39_perfect",
    "SR.C39_average",
    "SR.C39_bounds",
    "SR.C39_textbook",
    "SR.C39_names"
   ],
   "note": "sqrt/powf/ln/cosh abstract with sign and zero assumptions (LossLib.Sane, proved for the real functions); textbook formulas over the reals."
  },
  {
   "property": "C40",
   "status": "proved",
   "theorems": [
    "SR.C40_zero_certifies",
    "SR.C40_zero_weights",
    "SR.C40_nan_targets",
    "SR.C40_underflow_binary64"
   ],
   "note": "DEFECT in the code: all-zero weights give loss 0 to every expression (C40_zero_weights); NaN targets with eps-insensitive loss (C40_nan_targets)."
  },
  {
   "property": "C41",
   "status": "proved",
   "theorems": [
    "SR.C41_formula",
    "SR.C41_exact",
    "SR.C41_monotone_loss",
    "SR.C41_monotone_complexity",
    "SR.C41_overflow_binary64"
   ],
   "note": "f64 overflow counterexample C41_overflow_binary64; failed evaluations: C55."
  },
  {
   "property": "C42",
   "status": "proved",
   "theorems": [
    "SR.C42_resample",
    "SR.C42_phase",
    "SR.C42_reaches"
   ],
   "note": ""
  },
  {
   "property": "C43",
   "status": "proved",
   "theorems": [
    "SR.C43_bounds",
    "SR.C43_monotone",
    "SR.C43_ends",
    "SR.C43_small_maxsize"
   ],
   "note": "Rounding is IEEE binary32 (round to nearest even, modelled on rationals and proved lawful); DEFECT in the code for maxsize < 3 with warm-up (debug panic; release build wraps)."
  },
  {
   "property": "C44",
   "status": "proved",
   "theorems": [
    "SR.C44_safety",
    "SR.C44_complete",
    "SR.C44_terminates",
    "SR.C44_progress"
   ],
   "note": "The two loops, channel and counters of run_scoped_search as a transition system with nondeterministic completion order; tasks are pure functions of what they capture."
  },
  {
   "property": "C45",
   "status": "proved",
   "theorems": [
    "SR.C45_compositional",
    "SR.C45_partition",
    "SR.C45_count",
    "SR.C45_run_to_completion"
   ],
   "note": ""
  },
  {
   "property": "C46",
   "status": "proved",
   "theorems": [
    "SR.C46_parallel",
    "SR.C46_stepwise"
   ],
   "note": ""
  },
  {
   "property": "C47",
   "status": "proved",
   "theorems": [
    "SR.C47_same_states",
    "SR.C47_same_result"
   ],
   "note": "At least one population (initialisation panics otherwise)."
  },
  {
   "property": "C48",
   "status": "proved",
   "theorems": [
    "SR.C48_parallel",
    "SR.C48_stepwise",
    "SR.C48_hall_may_be_better",
    "SR.C48_fallback_may_stay"
   ],
   "note": "DEFECT in the code: hall of fame may beat the reported best (C48_hall_may_be_better); an infeasible fallback best may stay (C48_fallback_may_stay)."
  },
  {
   "property": "C49",
   "status": "proved",
   "theorems": [
    "SR.C49_example",
    "SR.C49_panic_hangs",
    "SR.C49_returns"
   ],
   "note": "DEFECT in the code: a panicking task makes the multi-worker search wait for ever (C49_panic_hangs); the step-wise engine propagates the panic (Engine.step = none)."
  },
  {
   "property": "C50",
   "status": "proved",
   "theorems": [
    "SR.C50_parallel",
    "SR.C50_stepwise",
    "SR.C50_unique",
    "SR.C50_duplicates_without_skip",
    "SR.C50_hall_shares_ids"
   ],
   "note": "DEFECT in the code: duplicates without skipping (C50_duplicates_without_skip), hall of fame shares ids (C50_hall_shares_ids)."
  },
  {
   "property": "C51",
   "status": "proved",
   "theorems": [
    "SR.C51_size",
    "SR.C51_partition",
    "SR.C51_disjoint",
    "SR.C51_train_nonempty",
    "SR.C51_empty_train",
    "SR.C51_datasets"
   ],
   "note": "DEFECT in the code: the training set can be empty (C51_empty_train)."
  },
  {
   "property": "C52",
   "status": "proved",
   "theorems": [
    "SR.C52_from_names",
    "SR.C52_from_names_by_arity",
    "SR.C52_sample_arity",
    "SR.C52_sample_op",
    "SR.C52_every_op_reachable",
    "SR.C52_sample_arity_counts"
   ],
   "note": ""
  },
  {
   "property": "C53",
   "status": "proved",
   "theorems": [
    "SR.C53_one_constant",
    "SR.C53_factor",
    "SR.C53_negation_probability"
   ],
   "note": "DEFECT in the code: probability_negate_constant is inverted, the sign flips with probability 1-p (C53_negation_probability, Lebesgue measure of the draws). Factor bounds over the reals."
  },
  {
   "property": "C54",
   "status": "proved",
   "theorems": [
    "SR.C54_wrap",
    "SR.C54_row",
    "SR.C54_row_cut",
    "SR.C54_table"
   ],
   "note": "Output without colours; the text of a loss is assumed to have at most 11 characters."
  },
  {
   "property": "C55",
   "status": "proved",
   "theorems": [
    "SR.C55_evaluate",
    "SR.C55_from_expr"
   ],
   "note": ""
  },
  {
   "property": "C56",
   "status": "proved",
   "theorems": [
    "SR.C56_pointwise",
    "SR.C56_chain",
    "SR.C56_rmse"
   ],
   "note": "Over the reals, exact arithmetic."
  },
  {
   "property": "C57",
   "status": "proved",
   "theorems": [
    "SR.C57_evaluate",
    "SR.C57_evolution",
    "SR.C57_task",
    "SR.C57_whole_search"
   ],
   "note": "DEFECT in the code: mini-batching panics (or evaluates nothing) unless the batch size equals the number of rows, because nothing resizes the prediction buffer before evolution (C57_evolution, C57_whole_search)."
  },
  {
   "property": "C58",
   "status": "proved",
   "theorems": [
    "SR.C58_rescored",
    "SR.C58_total",
    "SR.C58_may_break_constraints"
   ],
   "note": "DEFECT in the code: constraints not rechecked (C58_may_break_constraints). Never-fails is proved without constant optimisation; with it, results are partial-correctness (Post)."
  },
  {
   "property": "C59",
   "status": "proved",
   "theorems": [
    "SR.C59_init",
    "SR.C59_parallel",
    "SR.C59_stepwise"
   ],
   "note": ""
  },
  {
   "property": "C60",
   "status": "proved",
   "theorems": [
    "SR.C60_table"
   ],
   "note": ""
  },
  {
   "property": "C61",
   "status": "proved",
   "theorems": [
    "SR.C61_evaluate",
    "SR.C61_unknown",
    "SR.C61_wrong_equation"
   ],
   "note": "DEFECT in the code: an identifier does not determine an equation (C61_wrong_equation)."
  },
  {
   "property": "C62",
   "status": "proved",
   "theorems": [
    "SR.C62_formulas",
    "SR.C62_range",
    "SR.C62_pearson",
    "SR.C62_perfect",
    "SR.C62_constant_target",
    "SR.C62_weighted_corr",
    "SR.C62_total",
    "SR.C62_extremes",
    "SR.C62_nonpositive_weights"
   ],
   "note": "DEFECT in the code: C62_constant_target, C62_weighted_corr, C62_nonpositive_weights. sqrt is the real square root in the exact theorems."
  },
  {
   "property": "C63",
   "status": "proved",
   "theorems": [
    "SR.C63_refines",
    "SR.C63_terminates",
    "SR.C63_returns",
    "SR.C63_one_thread_hangs",
    "SR.C63_start",
    "SR.C63_single_core"
   ],
   "note": "DEFECT in the code: C63_single_core. The semantics of rayon::scope and of the channel are part of the trusted model (Model/Pool.lean)."
  },
  {
   "property": "C64",
   "status": "proved",
   "theorems": [
    "SR.C64_completes",
    "SR.C64_parallel",
    "SR.C64_pool",
    "SR.C64_stepwise",
    "SR.C64_stepwise_without_migration",
    "SR.C64_pool_without_migration"
   ],
   "note": "Holds for every hash function. CountsTo: member counts stay exact in f64 (true below 2^53). SmallSorts (needed only when the exponential of the frequency scaling overflows): the stable sort of the pinned toolchain sorts up to 20 elements by insertion and so returns whatever the comparison does; longer slices with NaN costs may make it panic."
  },
  {
   "property": "C65",
   "status": "proved",
   "theorems": [
    "SR.C65_baseline",
    "SR.C65_search_data",
    "SR.C65_cost"
   ],
   "note": "C65_baseline and C65_search_data hold for every rounding; C65_cost is in exact arithmetic."
  },
  {
   "property": "C66",
   "status": "proved",
   "theorems": [
    "SR.C66_constructors",
    "SR.C66_mean",
    "SR.C66_unweighted",
    "SR.C66_least_squares",
    "SR.C66_between",
    "SR.C66_zero_weights"
   ],
   "note": "DEFECT in the code: C66_zero_weights. avg_y is public but not used by the search."
  },
  {
   "property": "C67",
   "status": "proved",
   "theorems": [
    "SR.C67_formula",
    "SR.C67_descent",
    "SR.C67_textbook"
   ],
   "note": "Exact arithmetic, objectives that return finite numbers or fail; rounding errors are not modelled here (C38 holds for every rounding)."
  },
  {
   "property": "C68",
   "status": "proved",
   "theorems": [
    "SR.C68_newton_quadratic"
   ],
   "note": "Exact arithmetic; the square root of the machine epsilon is any positive number q."
  },
  {
   "property": "C69",
   "status": "proved",
   "theorems": [
    "SR.C69_task",
    "SR.C69_hall_keeps_batch_loss"
   ],
   "note": "DEFECT in the code: C69_hall_keeps_batch_loss."
  },
  {
   "property": "C70",
   "status": "proved",
   "theorems": [
    "SR.C70_donors"
   ],
   "note": "Both drivers are covered because every run of either is a History (ParRun.history, Engine.step_history)."
  },
  {
   "property": "C71",
   "status": "proved",
   "theorems": [
    "SR.C71_declared",
    "SR.C71_only_declared",
    "SR.C71_enumeration",
    "SR.C71_constructor",
    "SR.C71_arithmetic",
    "SR.C71_preset",
    "SR.C71_flags",
    "SR.C71_preset_names",
    "SR.C71_builder",
    "SR.C71_custom",
    "SR.C71_repeated_arity"
   ],
   "note": "DEFECT in the code: C71_repeated_arity. Arithmetic is stated over the reals."
  },
  {
   "property": "C72",
   "status": "proved",
   "theorems": [
    "SR.C72_metropolis",
    "SR.C72_laws",
    "SR.C72_cold",
    "SR.C72_free",
    "SR.C72_infinite_parent",
    "SR.C72_schedule",
    "SR.C72_cooling"
   ],
   "note": "The exponential is any function with the listed properties (ExpLike). Finding: evaluations spent on a candidate without finite cost are dropped from the count (Verdict.unscorable)."
  },
  {
   "property": "C73",
   "status": "proved",
   "theorems": [
    "SR.C73_number",
    "SR.C73_id_text",
    "SR.C73_loss",
    "SR.C73_data",
    "SR.C73_refused",
    "SR.C73_opened",
    "SR.C73_opens",
    "SR.C73_state",
    "SR.C73_step",
    "SR.C73_equations",
    "SR.C73_evaluate_refused",
    "SR.C73_evaluate",
    "SR.C73_returns"
   ],
   "note": "The proviso on identifiers is needed: C61_wrong_equation shows a session in which another equation's values are returned. The CSV reader and the JavaScript conversions (which silently replace unreadable options by the defaults) are outside the model. A table of at most five rows with validation fraction 0.9 leaves no training rows (C51_empty_train); the sensible configuration excludes it."
  },
  {
   "property": "C74",
   "status": "proved",
   "theorems": [
    "SR.C74_task",
    "SR.C74_init",
    "SR.C74_parallel",
    "SR.C74_stepwise",
    "SR.C74_pool"
   ],
   "note": "Integer and float draws of the generator are modelled as two streams (Model/Rand), so 'the same draws' means the same draws of each kind. How the stream of a seed is computed (fastrand) is not modelled."
  },
  {
   "property": "C75",
   "status": "proved",
   "theorems": [
    "SR.C75_setting",
    "SR.C75_stepwise",
    "SR.C75_parallel",
    "SR.C75_pool",
    "SR.C75_default",
    "SR.C75_default_search"
   ],
   "note": "Removes the exception of C64 (a sampler that keeps rejecting) for means below 30: in f64 the product of draws in [0,1) shrinks by a factor of at most 1 - 2^-106 per step or is subnormal, so Knuth's loop ends (Proofs/Poisson, knuth_returns) within 2^150 draws, which is the fuel RustEnv grants the model's loop. One thread is excluded: C63_single_core proves that it hangs. What the configuration excludes is discussed with C64."
  },
  {
   "property": "C76",
   "status": "proved",
   "theorems": [
    "SR.C76_weighted",
    "SR.C76_poisson",
    "SR.C76_mutation",
    "SR.C76_place",
    "SR.C76_shuffle",
    "SR.C76_sample_large",
    "SR.C76_sample_small",
    "SR.C76_crossover",
    "SR.C76_accept",
    "SR.C76_choose"
   ],
   "note": "Fairness is a hypothesis on the generator (FairFloats, FairInts in Spec/Prob; fairFloats_exist and fairInts_exist construct such generators), because fastrand's wyrand stream is deterministic. Exact arithmetic: with f64 weights the probabilities are off by rounding; C32, C69 and C75 say what holds under rounding. The sampler for means of 30 or more (PTRS) is abstract in the model and has no distribution theorem."
  },
  {
   "property": "C77",
   "status": "proved",
   "theorems": [
    "SR.C77_generate",
    "SR.C77_initial",
    "SR.C77_randomize",
    "SR.C77_candidate",
    "SR.C77_child"
   ],
   "note": "Existence of draws only; their probability is not bounded below here. 'The same expression' is Writes (Spec/Reach): node by node the same feature, the same operator, or a constant of the same value; constants may be numbered differently."
  },
  {
   "property": "C78",
   "status": "proved",
   "theorems": [
    "SR.C78_best_run"
   ],
   "note": "The normal variate of two draws is the abstract function E.normal (Box-Muller in the code)."
  },
  {
   "property": "C79",
   "status": "proved",
   "theorems": [
    "SR.C79_box_muller",
    "SR.C79_value",
    "SR.C79_bounded",
    "SR.C79_normal",
    "SR.C79_distribution"
   ],
   "note": "Exact real arithmetic; ln, sqrt, cos are the real functions (NormalLib.OnReals). The other models take the generator as the parameter E.normal of two draws; its concrete form is normalOf."
  },
  {
   "property": "C80",
   "status": "proved",
   "theorems": [
    "SR.C80_never_panics",
    "SR.C80_width",
    "SR.C80_hidden",
    "SR.C80_parallel",
    "SR.C80_final",
    "SR.C80_hidden_stepwise",
    "SR.C80_stepwise",
    "SR.C80_window",
    "SR.C80_speed",
    "SR.C80_average"
   ],
   "note": "The drawing of the bar by indicatif and colours are outside the model; the three clock readings of SearchProgress::new are one. If the step-wise driver has nothing to do (no iterations or populations), the display is closed by the first call of step, not at the start."
  },
  {
   "property": "C81",
   "status": "proved",
   "theorems": [
    "SR.C81_round",
    "SR.C81_quick",
    "SR.C81_law",
    "SR.C81_rounds",
    "SR.C81_distribution",
    "SR.C81_ends"
   ],
   "note": "Exact real arithmetic (ln k! is the exact logarithm below 256 and the Stirling series above). The claim that the accepted rounds are exactly Poisson distributed is not made and is not true of the published constants: numerically the hat is exceeded by about 0.3% near the mode for means of 30 to 200."
  },
  {
   "property": "C82",
   "status": "proved",
   "theorems": [
    "SR.C82_task",
    "SR.C82_default_draws",
    "SR.C82_default_search",
    "SR.C82_search",
    "SR.C82_randomize_drawn",
    "SR.C82_migration_drawn"
   ],
   "note": "Existence of draws, not a probability. The operating-system order generator is universally quantified. Constants must be values of the normal sampler at two possible draws; trees with other constants are reached only approximately (by the constant mutation and the optimiser), which is not claimed."
  },
  {
   "property": "C83",
   "status": "proved",
   "theorems": [
    "SR.C83_truthful",
    "SR.C83_alive",
    "SR.C83_finishes",
    "SR.C83_pause",
    "SR.C83_start",
    "SR.C83_two_loops",
    "SR.C83_reset_paused",
    "SR.C83_panic_silent",
    "SR.C83_snapshots",
    "SR.C83_before_ready",
    "SR.C83_step",
    "SR.C83_step_wraps",
    "SR.C83_evaluate",
    "SR.C83_no_search",
    "SR.C83_session",
    "SR.C83_session_counts",
    "SR.C83_session_snapshots",
    "SR.C83_sensible"
   ],
   "note": "DEFECT in the code: pause followed quickly by start runs two loops and ends with `done` then `paused` (C83_two_loops, C83_finishes); a reset while running posts a late `paused` (C83_reset_paused); a panic in the loop is silent and blocks later starts (C83_panic_silent). The search object is an arbitrary implementation of its methods; C83_session, C83_session_counts and C83_sensible show that the modelled sessions meet the hypotheses."
  },
  {
   "property": "C84",
   "status": "proved",
   "theorems": [
    "SR.C84_pick",
    "SR.C84_shown",
    "SR.C84_settled",
    "SR.C84_selected",
    "SR.C84_summary",
    "SR.C84_shown_selected",
    "SR.C84_rests",
    "SR.C84_rest_reached",
    "SR.C84_late_paused",
    "SR.C84_remount",
    "SR.C84_gone",
    "SR.C84_stale",
    "SR.C84_select",
    "SR.C84_reselect"
   ],
   "note": "DEFECT in the code: a late `paused` after a reset leaves the status paused with no search (C84_late_paused); leaving the tab while running leaves the status running with an empty new worker (C84_remount); an evaluation of the old search arriving after a new initialisation is shown for the new one (C84_stale). Drawing, texts of errors and evaluations per second are not modelled."
  },
  {
   "property": "C85",
   "status": "proved",
   "theorems": [
    "SR.C85_preview",
    "SR.C85_same",
    "SR.C85_current",
    "SR.C85_parse",
    "SR.C85_aligned",
    "SR.C85_defaults",
    "SR.C85_curve",
    "SR.C85_plot",
    "SR.C85_nonfinite",
    "SR.C85_stale_text",
    "SR.C85_stale_columns",
    "SR.C85_blank"
   ],
   "note": "DEFECT in the code: a non-finite number misaligns the plot (C85_nonfinite); the parsed data are not invalidated by edits (C85_stale_text); columns chosen for one text persist (C85_stale_columns); empty cells are previewed as 0 (C85_blank). The tokenisers (PapaParse, csv) are not modelled: a text is given as lines of cells with what either side reads in them, assumed to agree on finite numbers (hypothesis Agree)."
  },
  {
   "property": "C86",
   "status": "proved",
   "theorems": [
    "SR.C86_header_truth",
    "SR.C86_header_agree",
    "SR.C86_readable",
    "SR.C86_session",
    "SR.C86_unsuitable",
    "SR.C86_patch",
    "SR.C86_opens",
    "SR.C86_lost",
    "SR.C86_headers"
   ],
   "note": "DEFECT in the code: lib.rs:192-194 replaces all options by the defaults when one of them cannot be read (C86_unsuitable, C86_lost). The header switch of an options object without one is read differently by the page and the session (C86_headers); this arises because serde-wasm-bindgen serialises a struct with a flattened field as a JavaScript Map, so that the spread of the defaults in sessionStore.ts:159 is empty (an assumption on that crate). What serde and serde-wasm-bindgen accept for each type is modelled from their documentation (natField ... FieldTy.accepts)."
  },
  {
   "property": "C87",
   "status": "proved",
   "theorems": [
    "SR.C87_ready",
    "SR.C87_done",
    "SR.C87_search",
    "SR.C87_possible",
    "SR.C87_page_ready",
    "SR.C87_page"
   ],
   "note": "C87_ready, C87_done, C87_search and C87_possible hold for any sessions that do not panic and count down (C83); C87_page_ready and C87_page are for the sessions of web/wasm with binary64 arithmetic and options within the ranges of C75. That the page comes to rest at all under any fair schedule is C84."
  },
  {
   "property": "C88",
   "status": "proved",
   "theorems": [
    "SR.C88_columns",
    "SR.C88_accepted",
    "SR.C88_ticked",
    "SR.C88_unticked",
    "SR.C88_trapped",
    "SR.C88_operators",
    "SR.C88_toggle",
    "SR.C88_sent"
   ],
   "note": "DEFECT in the code (C88_trapped): after parsing a narrower table (by two columns or more) stale entries of x_columns remain that have no checkbox, so every session is refused until the page is reloaded or a wider table is parsed. DEFECT in the code (C88_unticked): parsed by the Run tab only, the page shows no feature as chosen while all but the last column are used."
  },
  {
   "property": "C89",
   "status": "proved",
   "theorems": [
    "SR.C89_parallel",
    "SR.C89_stepwise",
    "SR.C89_returned",
    "SR.C89_plain",
    "SR.C89_upper_attained",
    "SR.C89_lower_attained",
    "SR.C89_uncounted"
   ],
   "note": "DEFECT in the code (C89_uncounted): next_generation returns 0 evaluations when the attempts fail or the child's cost is not finite, although evaluations were made (mutate.rs:360-366, 389-395); the counter reported to the user is a lower estimate. The code adds the counts of one cycle as f64; in the model they are natural numbers (exact below 2^53)."
  },
  {
   "property": "C90",
   "status": "proved",
   "theorems": [
    "SR.C90_task",
    "SR.C90_search",
    "SR.C90_default",
    "SR.C90_any_schedule",
    "SR.C90_default_any_schedule",
    "SR.C90_any_pool",
    "SR.C90_chosen_schedule",
    "SR.C90_default_chosen_schedule",
    "SR.C90_timed_schedule",
    "SR.C90_default_timed_schedule"
   ],
   "note": "The draws are ideal: independent 64-bit words (a raw integer draw is reduced modulo the size of the range, as everywhere in the model; with a uniform law on a common multiple of the ranges this is exactly the uniform draw fastrand promises); fastrand's generators are deterministic functions of a 64-bit seed. Stated for the step-wise driver; for the multi-worker driver when which task is received next is decided by a chooser that does not see the generators, or by a clock that sees the whole past and all that the tasks in flight draw and return (real threads finish in an order that depends on how long their computation takes); and for the multi-worker driver under every schedule at once, even one that knows all draws, when the populations do not exchange anything."
  },
  {
   "property": "C91",
   "status": "proved",
   "theorems": [
    "SR.C91_stepwise",
    "SR.C91_parallel",
    "SR.C91_not_worse",
    "SR.C91_parallel_not_worse",
    "SR.C91_warmup_differs"
   ],
   "note": "Not worse is in the order of C46; it needs the evaluation counter below 2^64 as there (populations * population_size < 2^64). Timing (time limits, displayed rates) is not part of the state."
  },
  {
   "property": "C92",
   "status": "proved",
   "theorems": [
    "SR.C92_ones_stepwise",
    "SR.C92_ones_parallel",
    "SR.C92_scaled_stepwise",
    "SR.C92_scaled_parallel",
    "SR.C92_exact_scales",
    "SR.C92_floats",
    "SR.C92_too_many_rows",
    "SR.C92_overflow"
   ],
   "note": "DEFECT in the code: the unweighted mean loss divides a naive running sum by the number of rows, so with more than 2^24 rows of f32 it is wrong (C92_too_many_rows). Assumes that ln and powf return values of the float type and that the opposite of a value is one (proved for f32 and f64). A factor that commutes with rounding: every positive one in exact arithmetic; a power of two only as long as nothing over- or underflows, which as a hypothesis on all numbers no bounded format meets."
  },
  {
   "property": "C93",
   "status": "proved",
   "theorems": [
    "SR.C93_layout",
    "SR.C93_weights_ignored",
    "SR.C93_target_panics",
    "SR.C93_batches",
    "SR.C93_scores",
    "SR.C93_exception",
    "SR.C93_from_list",
    "SR.C93_standard_inside"
   ],
   "note": "DEFECT in the code: build_dataset standardises the layout of x only; `weights.as_ref().and_then(|w| w.as_slice())` is None for weights with gaps, so they are silently dropped (C93_weights_ignored, C93_exception), except in mini-batches. ndarray's as_slice, is_standard_layout and as_standard_layout are modelled from their documentation (ndarray is a dependency, not in /repo)."
  },
  {
   "property": "C94",
   "status": "proved",
   "theorems": [
    "SR.C94_bfgs",
    "SR.C94_newton",
    "SR.C94_not_reached",
    "SR.C94_run",
    "SR.C94_uncounted",
    "SR.C94_exception"
   ],
   "note": "DEFECT in the code: phi_at returns None when the limit is reached, the `?` after the line search makes bfgs_minimize/newton_1d_minimize return None, and optimize_constants then drops both the point reached and the calls made (C94_exception, C94_uncounted)."
  },
  {
   "property": "C95",
   "status": "proved",
   "theorems": [
    "SR.C95_stepwise",
    "SR.C95_parallel",
    "SR.C95_verdicts",
    "SR.C95_rows_stepwise",
    "SR.C95_rows_parallel",
    "SR.C95_reordered",
    "SR.C95_order_matters_rounded",
    "SR.C95_zero_weight_counts"
   ],
   "note": "C95_stepwise/C95_parallel hold in any arithmetic; C95_rows_* assume E.RT exact. Real limits of the code: sums are taken left to right without compensation, so row order matters in f64 (C95_order_matters_rounded); rows of weight zero still reject expressions (C95_zero_weight_counts)."
  },
  {
   "property": "C96",
   "status": "proved",
   "theorems": [
    "SR.C96_extremes",
    "SR.C96_mean_std",
    "SR.C96_constant_column_rounded",
    "SR.C96_inspect",
    "SR.C96_speed",
    "SR.C96_speed_shown",
    "SR.C96_pause_counts"
   ],
   "note": "DEFECT in the code: the standard deviation of a constant column can be shown as NaN and its mean above its maximum (C96_constant_column_rounded, EnterData.tsx:82-84); paused time counts in the evaluations per second (C96_pause_counts). Mean, deviation and speed are proved in exact arithmetic."
  },
  {
   "property": "C97",
   "status": "proved",
   "theorems": [
    "SR.C97_mse64",
    "SR.C97_mae64",
    "SR.C97_mse32",
    "SR.C97_mae32",
    "SR.C97_ranking64",
    "SR.C97_best_parallel",
    "SR.C97_best_stepwise",
    "SR.C97_weighted64",
    "SR.C97_weights_overflow",
    "SR.C97_underflow",
    "SR.C97_epsilon64",
    "SR.C97_epsilon32",
    "SR.C97_gradient32",
    "SR.C97_gradient_abs64",
    "SR.C97_quantile64",
    "SR.C97_quantile32",
    "SR.C97_huber64",
    "SR.C97_huber32",
    "SR.C97_rmse64",
    "SR.C97_epsilon",
    "SR.C97_gradient64",
    "SR.C97_weighted32",
    "SR.C97_weighted_quantile64",
    "SR.C97_weighted_huber64",
    "SR.C97_logcosh_overflow",
    "SR.C97_logcosh_exact",
    "SR.C97_row_order64",
    "SR.C97_row_order_counts"
   ],
   "note": "DEFECT in the code: if the sum of the weights overflows to infinity, MeanLoss reports loss 0 for finite weighted losses (C97_weights_overflow). The predictions are those the evaluator computes; their own rounding errors are not bounded. The bound for the root assumes a correctly rounded square root (SqrtPrecise). DEFECT in the code: log-cosh is computed as ln(cosh r), which is infinite from |r| = 713 on (C97_logcosh_overflow, for a library whose cosh overflows where the real cosh leaves the range of f64, cosh_beyond). Lp (uninterpreted powf) and log-cosh below that have no bound; the epsilon-insensitive loss cannot have a relative one (C97_epsilon) and has one relative to the mean distance plus epsilon (C97_epsilon64, C97_epsilon32)."
  },
  {
   "property": "C98",
   "status": "proved",
   "theorems": [
    "SR.C98_stages",
    "SR.C98_lives",
    "SR.C98_schedule",
    "SR.C98_stepwise",
    "SR.C98_populations",
    "SR.C98_pool",
    "SR.C98_migration_depends_on_schedule"
   ],
   "note": "Expressions in the hall of fame and the reported best may differ among those of equal cost or loss (first come, first kept); the statement is therefore about costs and losses there. With migration the schedule matters: C98_migration_depends_on_schedule."
  },
  {
   "property": "C99",
   "status": "proved",
   "theorems": [
    "SR.C99_evaluation64",
    "SR.C99_evaluation32",
    "SR.C99_cancellation",
    "SR.C99_complete64"
   ],
   "note": "The hypothesis Roles.Runs says that every operation of the row has a finite result that does not underflow; operators that need a mathematical library are not covered. The preset ids are an instance (preset, elementary_read)."
  }
 ]
}