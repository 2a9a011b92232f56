{
 "claims": [
  {
   "property": "C01",
   "status": "proved",
   "theorems": [
    "Leap.nan_always_loses",
    "Leap.nan_vs_nan_is_coin",
    "Leap.unevaluated_comparison_raises"
   ],
   "note": "All five operators, both directions, every coin."
  },
  {
   "property": "C02",
   "status": "proved",
   "theorems": [
    "Leap.lt_iff_better",
    "Leap.lt_strict_weak_order",
    "Leap.none_is_worst"
   ],
   "note": ""
  },
  {
   "property": "C03",
   "status": "partial",
   "theorems": [
    "Leap.gt_does_not_mirror_lt",
    "Leap.float_gt_iff",
    "Leap.gt_mirrors_lt_partial",
    "Leap.float_eq_not_transitive",
    "Leap.float_gt_transitive",
    "Leap.lt_other_exact"
   ],
   "note": "The English claim is false of the code for two Python floats within relative 1e-9: refuted with a witness, the exact region is characterised, and the claim is proved outside it."
  },
  {
   "property": "C04",
   "status": "proved",
   "theorems": [
    "Leap.clone_effect",
    "Leap.clone_spec",
    "Leap.clone_independent",
    "Leap.clone_independent_of_parent"
   ],
   "note": ""
  },
  {
   "property": "C05",
   "status": "proved",
   "theorems": [
    "Leap.pipeline_leaves_parents_alone",
    "Leap.pipeline_parents_keep_genes_fitness_lineage",
    "Leap.mutating_without_clone_changes_parent"
   ],
   "note": ""
  },
  {
   "property": "C06",
   "status": "proved",
   "theorems": [
    "Leap.evaluate_scores_current_genome",
    "Leap.evaluate_raises",
    "Leap.evaluate_population_spec",
    "Leap.evaluate_population_raises"
   ],
   "note": ""
  },
  {
   "property": "C07",
   "status": "partial",
   "theorems": [
    "Leap.grouped_evaluate_exact",
    "Leap.grouped_evaluate_agrees_partial",
    "Leap.grouped_evaluate_stale",
    "Leap.grouped_evaluate_default_problem",
    "Leap.grouped_evaluate_refusals",
    "Leap.grouped_evaluate_mixed_problems"
   ],
   "note": "The full agreement with per-individual evaluation is false of the code: a cached phenome is reused, and problems that do not accept the individuals keyword raise. Proved exactly, with agreement when phenomes are not stale."
  },
  {
   "property": "C08",
   "status": "proved",
   "theorems": [
    "Leap.robust_evaluate_never_raises",
    "Leap.robust_exception_not_cleared"
   ],
   "note": ""
  },
  {
   "property": "C09",
   "status": "proved",
   "theorems": [
    "Leap.truncation_keeps_best",
    "Leap.truncation_ties_keep_earlier",
    "Leap.nlargest_is_topk"
   ],
   "note": "The k best are taken as the stable sort; nlargest_is_topk proves that the code of heapq.nlargest computes that when == and < fit together exactly. What happens when they do not (NaN, tolerance between Python floats) is C125."
  },
  {
   "property": "C10",
   "status": "proved",
   "theorems": [
    "Leap.elitist_survivors",
    "Leap.elitist_never_loses_best",
    "Leap.elitist_extends_argument",
    "Leap.nlargest_is_topk"
   ],
   "note": "The k best are taken as the stable sort; nlargest_is_topk proves that the code of heapq.nlargest computes that when == and < fit together exactly. What happens when they do not (NaN, tolerance between Python floats) is C125."
  },
  {
   "property": "C11",
   "status": "proved",
   "theorems": [
    "Leap.tournament_winner",
    "Leap.tournament_errors"
   ],
   "note": ""
  },
  {
   "property": "C12",
   "status": "partial",
   "theorems": [
    "Leap.insertion_loses_second_child",
    "Leap.insertion_ignores_later_children",
    "Leap.insertion_empty_offspring_raises",
    "Leap.insertion_empty_parents_raises",
    "Leap.insertion_single_child_partial"
   ],
   "note": "Full claim refuted by a witness; proved for a single child."
  },
  {
   "property": "C13",
   "status": "proved",
   "theorems": [
    "Leap.naive_cyclic_order",
    "Leap.cyclic_each_tour_is_permutation",
    "Leap.cyclic_empty_stops"
   ],
   "note": ""
  },
  {
   "property": "C14",
   "status": "proved",
   "theorems": [
    "Leap.pool_exact",
    "Leap.pool_raises",
    "Leap.pool_of_list",
    "Leap.random_selection_yields_drawn",
    "Leap.random_selection_empty_raises",
    "Leap.generator_exit",
    "Leap.selection_out_of_range"
   ],
   "note": ""
  },
  {
   "property": "C15",
   "status": "proved",
   "theorems": [
    "Leap.population_values_num",
    "Leap.population_values_pop_min",
    "Leap.proportional_weights_normalised",
    "Leap.proportional_errors",
    "Leap.proportional_draw_interval",
    "Leap.weighted_choice_refusals"
   ],
   "note": "Exact rational arithmetic; natural exponents. Proportionality is stated as the exact interval of the uniform draw that selects each individual."
  },
  {
   "property": "C16",
   "status": "partial",
   "theorems": [
    "Leap.sus_pass_fair_partial",
    "Leap.sus_zero_start_chooses_weightless",
    "Leap.sus_errors",
    "Leap.sus_point_beyond_wheel"
   ],
   "note": "False of the code for a random start of exactly 0; proved for every pass with positive start, and fairness also for start 0 when the last weight is positive."
  },
  {
   "property": "C17",
   "status": "proved",
   "theorems": [
    "Leap.uniform_crossover_swaps",
    "Leap.uniform_crossover_length_mismatch",
    "Leap.uniform_crossover_bad_probability"
   ],
   "note": "For distinct genome arrays."
  },
  {
   "property": "C18",
   "status": "partial",
   "theorems": [
    "Leap.nary_crossover_alternates",
    "Leap.nary_crossover_too_short",
    "Leap.nary_crossover_gene_pool_partial",
    "Leap.nary_crossover_loses_genes"
   ],
   "note": "Proved in full for equal lengths; for a longer second parent genes are lost (witness), and exactly which genes survive is proved."
  },
  {
   "property": "C19",
   "status": "proved",
   "theorems": [
    "Leap.crossover_pair",
    "Leap.crossover_upstream_exhausted",
    "Leap.crossover_persist_restarts",
    "Leap.crossover_no_persist_forgets",
    "Leap.crossover_yields_individuals",
    "Leap.cross_uniform_effect",
    "Leap.cross_nary_effect",
    "Leap.mutate_ind_effect"
   ],
   "note": ""
  },
  {
   "property": "C20",
   "status": "proved",
   "theorems": [
    "Leap.bitflip_flips_drawn",
    "Leap.bitflip_keeps_binary",
    "Leap.bitflip_involutive",
    "Leap.mutate_bitflip_step",
    "Leap.bitflip_fn_exact"
   ],
   "note": ""
  },
  {
   "property": "C21",
   "status": "proved",
   "theorems": [
    "Leap.randint_resamples",
    "Leap.randint_stays_in_bounds",
    "Leap.randint_bounds_mismatch",
    "Leap.randint_reversed_bounds",
    "Leap.mutate_randint_step",
    "Leap.randint_fn_exact"
   ],
   "note": ""
  },
  {
   "property": "C22",
   "status": "proved",
   "theorems": [
    "Leap.binomial_mutation_bounded",
    "Leap.binomial_p_has_std",
    "Leap.mutate_binomial_step"
   ],
   "note": "Real arithmetic for the square root."
  },
  {
   "property": "C23",
   "status": "proved",
   "theorems": [
    "Leap.hard_bounds_enforced",
    "Leap.hard_bounds_idempotent",
    "Leap.hard_bounds_monotone",
    "Leap.hard_bounds_mismatch",
    "Leap.gaussian_mutation_bounded",
    "Leap.gaussian_negative_std",
    "Leap.mutate_gaussian_step",
    "Leap.gaussian_fn_exact"
   ],
   "note": "Exact arithmetic."
  },
  {
   "property": "C24",
   "status": "proved",
   "theorems": [
    "Leap.rate_check_exact",
    "Leap.bad_rate_raises",
    "Leap.gaussian_needs_rate",
    "Leap.expected_rate_out_of_range",
    "Leap.bitflip_flips_drawn",
    "Leap.mutation_arguments_checked_first",
    "Leap.mutation_arguments_checked_once",
    "Leap.genome_rate_exact"
   ],
   "note": "The probability e/n is in the specification RateGives used by the mutation theorems."
  },
  {
   "property": "C25",
   "status": "partial",
   "theorems": [
    "Leap.apply_mutation_shape",
    "Leap.segmented_mutate_shape",
    "Leap.segmented_mutate_each",
    "Leap.apply_mutation_each",
    "Leap.apply_mutation_empty",
    "Leap.segmented_mutate_mismatch",
    "Leap.add_segment_effect",
    "Leap.remove_segment_effect",
    "Leap.copy_segment_effect_partial",
    "Leap.copy_segment_empty",
    "Leap.copy_segment_not_independent",
    "Leap.bitflipFn_keepsLength",
    "Leap.randintFn_keepsLength",
    "Leap.segmented_decode_value"
   ],
   "note": "Independence of a copied segment is false of the code (copy_segment_not_independent); all other parts are proved."
  },
  {
   "property": "C26",
   "status": "partial",
   "theorems": [
    "Leap.binary_to_int_value_partial",
    "Leap.binary_to_int_range",
    "Leap.binary_to_int_injective",
    "Leap.binary_to_int_surjective",
    "Leap.binary_to_int_zero_segment_depends_on_history",
    "Leap.binary_to_int_short_genome",
    "Leap.binary_to_int_overflow"
   ],
   "note": "Proved for every history for segments of 1 to 63 bits. False of the code for zero-length segments (second decoding raises) and beyond 63 bits (overflow), both with witnesses."
  },
  {
   "property": "C27",
   "status": "proved",
   "theorems": [
    "Leap.gray_decode_inverts",
    "Leap.gray_decode_value",
    "Leap.gray_decode_injective",
    "Leap.gray_adjacent"
   ],
   "note": "Segments of 1 to 63 bits."
  },
  {
   "property": "C28",
   "status": "proved",
   "theorems": [
    "Leap.real_init_checks",
    "Leap.real_decode_interval",
    "Leap.real_decode_in_bounds",
    "Leap.real_decoder_refusals"
   ],
   "note": "Exact rational arithmetic, segments of 1 to 63 bits."
  },
  {
   "property": "C29",
   "status": "proved",
   "theorems": [
    "Leap.max_ones_value",
    "Leap.max_ones_target",
    "Leap.leading_ones_value",
    "Leap.leading_ones_target",
    "Leap.deceptive_trap_shape",
    "Leap.two_max_value"
   ],
   "note": "LeadingOnes of an empty phenome raises StopIteration; a target of the wrong length raises NameError from the assertion message."
  },
  {
   "property": "C30",
   "status": "proved",
   "theorems": [
    "Leap.generation_counter_history",
    "Leap.generation_in_context"
   ],
   "note": ""
  },
  {
   "property": "C31",
   "status": "proved",
   "theorems": [
    "Leap.birth_counter_history",
    "Leap.birth_counter_missing_entry"
   ],
   "note": ""
  },
  {
   "property": "C32",
   "status": "partial",
   "theorems": [
    "Leap.births_unique_partial",
    "Leap.brander_clone_duplicates",
    "Leap.brand_effect",
    "Leap.brand_population_each",
    "Leap.branding_a_list",
    "Leap.branding_a_generator_fails",
    "Leap.branding_a_second_list_fails",
    "Leap.branding_exhausted_generator",
    "Leap.brand_refusals"
   ],
   "note": "Uniqueness proved for individuals that arrive unbranded; false of the code for clones of branded parents (witness)."
  },
  {
   "property": "C33",
   "status": "proved",
   "theorems": [
    "Leap.get_step_explicit",
    "Leap.get_step_inferred",
    "Leap.get_step_refused"
   ],
   "note": ""
  },
  {
   "property": "C34",
   "status": "proved",
   "theorems": [
    "Leap.generational_ea_run",
    "Leap.generational_ea_best_never_worsens",
    "Leap.generational_ea_full_run",
    "Leap.generational_ea_no_generation",
    "Leap.generational_ea_pipeline_error",
    "Leap.stop_at_generation_iff"
   ],
   "note": ""
  },
  {
   "property": "C35",
   "status": "proved",
   "theorems": [
    "Leap.multi_population_run",
    "Leap.multi_population_errors"
   ],
   "note": ""
  },
  {
   "property": "C36",
   "status": "proved",
   "theorems": [
    "Leap.random_search_budget",
    "Leap.random_search_trajectory",
    "Leap.random_search_zero_budget",
    "Leap.random_search_empty_pipeline"
   ],
   "note": "The statement covers budgets of at least one; a zero budget still evaluates one individual."
  },
  {
   "property": "C37",
   "status": "proved",
   "theorems": [
    "Leap.migration_keeps_size",
    "Leap.migration_never_worsens",
    "Leap.migration_processes_each_once",
    "Leap.migration_sends",
    "Leap.migration_no_loss",
    "Leap.migration_errors"
   ],
   "note": ""
  },
  {
   "property": "C38",
   "status": "proved",
   "theorems": [
    "Leap.average_is_mean_of_n",
    "Leap.average_of_deterministic",
    "Leap.average_init_checks",
    "Leap.average_multiple_value",
    "Leap.average_multiple_too_few",
    "Leap.average_multiple_agrees",
    "Leap.offset_problem_value",
    "Leap.offset_problem_keeps_order"
   ],
   "note": "Means are exact rationals."
  },
  {
   "property": "C39",
   "status": "proved",
   "theorems": [
    "Leap.alternating_schedule",
    "Leap.alternating_refusals"
   ],
   "note": "Integer modulus, exact division."
  },
  {
   "property": "C40",
   "status": "proved",
   "theorems": [
    "Leap.cooperative_evaluate_spec",
    "Leap.cooperative_evaluate_no_trials",
    "Leap.cooperative_problem_spec",
    "Leap.cooperative_problem_refusals",
    "Leap.cooperative_problem_repeats_team",
    "Leap.cooperative_problem_logging"
   ],
   "note": ""
  },
  {
   "property": "C41",
   "status": "proved",
   "theorems": [
    "Leap.steady_state_accounting",
    "Leap.steady_state_budget",
    "Leap.steady_state_inserts_each_once",
    "Leap.steady_state_terminates"
   ],
   "note": "Evaluation, inserter, pipeline and completion order arbitrary."
  },
  {
   "property": "C42",
   "status": "proved",
   "theorems": [
    "Leap.replace_if_spec",
    "Leap.tournament_insert_spec",
    "Leap.greedy_insert_spec",
    "Leap.greedy_finds_nan",
    "Leap.insertions_bounded",
    "Leap.best_viable_never_lost",
    "Leap.best_viable_never_lost_scalar"
   ],
   "note": ""
  },
  {
   "property": "C43",
   "status": "proved",
   "theorems": [
    "Leap.pareto_worse_than_spec",
    "Leap.pareto_operators",
    "Leap.pareto_strict_order",
    "Leap.pareto_nan_incomparable",
    "Leap.pareto_failed_incomparable",
    "Leap.pareto_refusals"
   ],
   "note": ""
  },
  {
   "property": "C44",
   "status": "partial",
   "theorems": [
    "Leap.fast_sort_ranks_partial",
    "Leap.fast_sort_first_front_partial",
    "Leap.rank_exists_unique",
    "Leap.fast_sort_refusals",
    "Leap.fast_sort_duplicate_object_wrong"
   ],
   "note": "Proved for all populations of distinct objects; fast_sort_duplicate_object_wrong shows the code is wrong when one object occurs twice."
  },
  {
   "property": "C45",
   "status": "proved",
   "theorems": [
    "Leap.rank_ordinal_ranks",
    "Leap.sorts_agree",
    "Leap.rank_ordinal_empty"
   ],
   "note": "Finite objective values."
  },
  {
   "property": "C46",
   "status": "partial",
   "theorems": [
    "Leap.per_rank_distance",
    "Leap.per_rank_crowding",
    "Leap.crowding_nonneg",
    "Leap.crowding_bounded",
    "Leap.crowding_extremes",
    "Leap.crowding_calc_partial",
    "Leap.crowding_refusals",
    "Leap.crowding_loses_singleton",
    "Leap.crowding_empty_rank"
   ],
   "note": "Distances proved exactly for all ranked populations of distinct individuals. The clause that nobody is lost is false of the code: crowding_calc_partial states exactly who is returned and crowding_loses_singleton gives the counterexample."
  },
  {
   "property": "C47",
   "status": "partial",
   "theorems": [
    "Leap.nsga2_keeps_first_front_partial",
    "Leap.nsga2_survivors",
    "Leap.nsga2_never_grows",
    "Leap.nsga2_run",
    "Leap.nsga2_single_objective",
    "Leap.sort_by_dominance_spec",
    "Leap.nsga2_loses_everybody",
    "Leap.nsga2_loses_best"
   ],
   "note": "False of the code without the condition that no rank consists of one objective vector; nsga2_survivors states exactly who survives in every case."
  },
  {
   "property": "C48",
   "status": "partial",
   "theorems": [
    "Leap.enlu_two_objectives_partial",
    "Leap.enlu_two_objectives_ranks_partial",
    "Leap.enlu_conserves",
    "Leap.enlu_first_front",
    "Leap.find_start_layer",
    "Leap.find_start_layer_first",
    "Leap.enlu_three_objectives_wrong",
    "Leap.crowd_layers_empty"
   ],
   "note": "Proved for at most two objectives; false of the code from three on (enlu_three_objectives_wrong). For any number of objectives: nobody is lost, ranks are layer numbers, the first layer is the Pareto front."
  },
  {
   "property": "C49",
   "status": "proved",
   "theorems": [
    "Leap.cgp_check_spec",
    "Leap.cgp_check_operator",
    "Leap.cgp_created_valid",
    "Leap.cgp_mutated_valid",
    "Leap.cgp_evolved_valid",
    "Leap.cgp_bounds_nonempty",
    "Leap.cgp_decode_feed_forward",
    "Leap.cgp_decode_wrong_length",
    "Leap.cgp_constructor"
   ],
   "note": "Histories are inductively generated: one creation, then any number of mutations."
  },
  {
   "property": "C50",
   "status": "proved",
   "theorems": [
    "Leap.cgp_call",
    "Leap.evaluates_unique",
    "Leap.cgp_prune_same_outputs",
    "Leap.cgp_prune_total",
    "Leap.cgp_call_history_free",
    "Leap.cgp_call_wrong_inputs",
    "Leap.cgp_parameters_call",
    "Leap.cgp_prune_hides_exception",
    "Leap.cgp_forward_reference_raises",
    "Leap.cgp_primitive_exact",
    "Leap.cgp_node_without_function",
    "Leap.index_exact"
   ],
   "note": "Primitives are stateless functions that may raise. Where the unpruned circuit raises in an unneeded node the pruned one succeeds (witness)."
  },
  {
   "property": "C51",
   "status": "proved",
   "theorems": [
    "Leap.pitt_exact_match",
    "Leap.pitt_nearest",
    "Leap.rule_distance_zero_iff",
    "Leap.pitt_wildcard",
    "Leap.rounded_unique",
    "Leap.answers_unique",
    "Leap.pitt_constructor_refusals",
    "Leap.pitt_call_refusals",
    "Leap.pitt_genome_to_rules",
    "Leap.pitt_memory_unusable",
    "Leap.pitt_decode",
    "Leap.pitt_mutate",
    "Leap.pitt_bounds_exact",
    "Leap.pitt_create_rule",
    "Leap.pitt_create_rule_two_dimensional",
    "Leap.pitt_create_rule_refusals",
    "Leap.pitt_mutation_refusals",
    "Leap.pitt_call_no_rules"
   ],
   "note": "Exact arithmetic. Also shown: memory registers can never be used, and the initialiser of a two-dimensional input space can leave its own bounds."
  },
  {
   "property": "C52",
   "status": "partial",
   "theorems": [
    "Leap.best_so_far_history",
    "Leap.best_so_far_history_partial",
    "Leap.best_so_far_float_tolerance",
    "Leap.best_so_far_step",
    "Leap.best_so_far_iter",
    "Leap.best_so_far_iter_errors",
    "Leap.stats_history",
    "Leap.stats_errors",
    "Leap.best_of_gen_spec",
    "Leap.near_champion"
   ],
   "note": "Proved for every history. That nothing seen beats the best so far holds for comparisons that are strict weak orders, and always for the iterator probe; for Python floats within 1e-9 of each other it is false of the population probes (witness), which then guarantee it only up to twice the tolerance (best_so_far_history)."
  },
  {
   "property": "C53",
   "status": "partial",
   "theorems": [
    "Leap.pairwise_metric_spec",
    "Leap.sum_of_variances_spec",
    "Leap.num_fixated_integer_partial",
    "Leap.num_fixated_spec",
    "Leap.num_fixated_counts_disagreement"
   ],
   "note": "Exact rationals. The fixation count is the claimed one for whole-number genomes of fewer than 99999998 individuals; it is false for reals (variance up to 1e-8 counts as fixated, witness proved)."
  },
  {
   "property": "C54",
   "status": "proved",
   "theorems": [
    "Leap.nn_constructor",
    "Leap.nn_decode",
    "Leap.nn_sizes",
    "Leap.nn_call",
    "Leap.nn_decoded_call",
    "Leap.nn_degenerate",
    "Leap.nn_graph",
    "Leap.argmax_spec",
    "Leap.wrapper_decoder_spec",
    "Leap.nn_call_empty_activation",
    "Leap.row_edges_spec",
    "Leap.matrix_too_many_rows"
   ],
   "note": "Weights in any semiring; the activation function is any length-preserving function."
  },
  {
   "property": "C55",
   "status": "proved",
   "theorems": [
    "Leap.tt_enumerate",
    "Leap.tt_fitness",
    "Leap.tt_constructor",
    "Leap.tt_returns",
    "Leap.tt_aliased_target",
    "Leap.tt_identity_target",
    "Leap.tt_padding_needs_num_inputs"
   ],
   "note": "For targets that return a new list. A target that returns its own argument is compared with the padded row (witness of disagreement)."
  },
  {
   "property": "C56",
   "status": "proved",
   "theorems": [
    "Leap.convex_p_spec",
    "Leap.linear_p_always_zero",
    "Leap.ela_deltas",
    "Leap.ela_convex",
    "Leap.ela_affine",
    "Leap.ela_ratio_exact",
    "Leap.ela_combine_exact"
   ],
   "note": "Exact rationals. linear_p is shown to be 0 always, also on affine landscapes, against its documentation."
  },
  {
   "property": "C57",
   "status": "proved",
   "theorems": [
    "Leap.collect_distribution_spec",
    "Leap.collect_distribution_raises",
    "Leap.normalize_dicts_spec",
    "Leap.stochastic_equals_spec",
    "Leap.equals_uniform_spec"
   ],
   "note": "SciPy's chi-square test is a parameter."
  },
  {
   "property": "C58",
   "status": "proved",
   "theorems": [
    "Leap.iteriter_checked",
    "Leap.listlist_checked",
    "Leap.listiter_checked",
    "Leap.iterlist_checked",
    "Leap.checked_chain"
   ],
   "note": ""
  },
  {
   "property": "C59",
   "status": "partial",
   "theorems": [
    "Leap.translated_spec",
    "Leap.translated_optimum",
    "Leap.translated_random_spec",
    "Leap.scaled_spec",
    "Leap.scaled_box",
    "Leap.matrix_constructor",
    "Leap.matrix_spec",
    "Leap.matrix_compose",
    "Leap.offset_spec",
    "Leap.offset_exact_partial",
    "Leap.offset_changes_equality",
    "Leap.matrix_ragged_rejected",
    "Leap.translated_random_exact"
   ],
   "note": "Exact arithmetic. That adding a constant changes no comparison is proved for < and >= always, and for every operator when fitnesses are compared exactly; it is false for == between Python floats, which has a relative tolerance (offset_changes_equality). Degenerate new bounds of ScaledProblem are excluded."
  },
  {
   "property": "C60",
   "status": "proved",
   "theorems": [
    "Leap.seeded_spec",
    "Leap.build_repertoire_spec",
    "Leap.apply_repertoire_spec",
    "Leap.build_repertoire_empty_run"
   ],
   "note": "The CSV file of a repertoire is not modelled."
  },
  {
   "property": "C61",
   "status": "proved",
   "theorems": [
    "Leap.lexical_parsimony_spec",
    "Leap.koza_parsimony_spec",
    "Leap.koza_parsimony_cases",
    "Leap.truncation_lexical",
    "Leap.truncation_koza"
   ],
   "note": "Exact rational fitness."
  },
  {
   "property": "C62",
   "status": "proved",
   "theorems": [
    "Leap.create_segmented_spec",
    "Leap.create_segmented_total",
    "Leap.create_int_vector_in_bounds",
    "Leap.create_int_vector_reversed",
    "Leap.create_real_vector_in_bounds",
    "Leap.create_binary_sequence_spec"
   ],
   "note": "Exact rational arithmetic: rounding of low + (high-low)*u to high is not modelled."
  },
  {
   "property": "C63",
   "status": "partial",
   "theorems": [
    "Leap.external_values",
    "Leap.external_errors_partial",
    "Leap.external_unterminated_line_ignored",
    "Leap.external_input_lines",
    "Leap.external_single"
   ],
   "note": "A last line without newline is ignored by the code, so a wrong number of lines goes unnoticed in that case (external_unterminated_line_ignored); all other parts proved."
  },
  {
   "property": "C64",
   "status": "proved",
   "theorems": [
    "Leap.create_population_effect",
    "Leap.create_population_spec",
    "Leap.create_population_raises"
   ],
   "note": ""
  },
  {
   "property": "C65",
   "status": "proved",
   "theorems": [
    "Leap.map_gather_order"
   ],
   "note": "dask's map/gather modelled as slots filled in an arbitrary completion order."
  },
  {
   "property": "C66",
   "status": "proved",
   "theorems": [
    "Leap.enlu_history",
    "Leap.enlu_insert_step",
    "Leap.drop_most_crowded"
   ],
   "note": "Finite objective values, different individuals."
  },
  {
   "property": "C67",
   "status": "proved",
   "theorems": [
    "Leap.stats_row_columns",
    "Leap.stats_history",
    "Leap.attr_fieldnames",
    "Leap.attr_row",
    "Leap.attr_probe",
    "Leap.attr_missing_attribute",
    "Leap.row_assignment"
   ],
   "note": "Column names must differ. The standard deviation is represented by its square."
  },
  {
   "property": "C68",
   "status": "proved",
   "theorems": [
    "Leap.random_orthonormal_spec",
    "Leap.random_rotation_spec",
    "Leap.random_orthonormal_one_dimension"
   ],
   "note": "Exact reals; the rounded assertions are modelled as exact equalities."
  },
  {
   "property": "C69",
   "status": "partial",
   "theorems": [
    "Leap.env_evaluate_spec",
    "Leap.env_survival_range",
    "Leap.env_constructor",
    "Leap.space_dimensions_spec_partial",
    "Leap.space_dimensions_value",
    "Leap.env_dimensions_none"
   ],
   "note": "Everything but the last sentence is proved. The code's num_inputs and num_outputs lack a return and are None (env_dimensions_none). The environment and the controller are arbitrary functions on a world state."
  },
  {
   "property": "C70",
   "status": "partial",
   "theorems": [
    "Leap.keyboard_action_spec",
    "Leap.keyboard_init_spec",
    "Leap.default_keymap_spec_partial"
   ],
   "note": "The default keymap leaves out the key 9 (default_keymap_spec_partial)."
  },
  {
   "property": "C71",
   "status": "proved",
   "theorems": [
    "Leap.sigmoid_spec",
    "Leap.relu_spec",
    "Leap.softmax_value",
    "Leap.softmax_distribution"
   ],
   "note": "Over exact reals."
  },
  {
   "property": "C72",
   "status": "partial",
   "theorems": [
    "Leap.spheroid_spec",
    "Leap.rastrigin_spec",
    "Leap.rosenbrock_spec",
    "Leap.step_spec",
    "Leap.noisy_quartic_spec",
    "Leap.shekel_spec",
    "Leap.griewank_spec",
    "Leap.ackley_spec",
    "Leap.weierstrass_spec",
    "Leap.langermann_spec",
    "Leap.lunacek_spec",
    "Leap.lunacek_default_s",
    "Leap.schwefel_spec",
    "Leap.gaussian_spec_partial",
    "Leap.gaussian_ignores_parameters",
    "Leap.cosine_family_spec",
    "Leap.schwefel_default_optimum"
   ],
   "note": "Over exact reals. The Gaussian ignores its width and height (gaussian_ignores_parameters). Schwefel's default offset gives the best value of the box up to 1e-6 per dimension (schwefel_default_optimum). The location of Langermann's optimum, for which the documentation gives no value, is not proved."
  },
  {
   "property": "C73",
   "status": "partial",
   "theorems": [
    "Leap.parabaloid_spec",
    "Leap.parabaloid_sizes",
    "Leap.parabaloid_shape",
    "Leap.quadratic_family_value",
    "Leap.quadratic_family_lengths",
    "Leap.quadratic_family_optima",
    "Leap.quadratic_generate_spec_partial",
    "Leap.quadratic_generate_optima",
    "Leap.quadratic_generate_refused",
    "Leap.quadratic_generate_outside_bounds",
    "Leap.quadratic_generate_not_optimum",
    "Leap.quadratic_generate_one_dimension"
   ],
   "note": "Over exact reals. All proved except that the recorded optimum lies within the problem's bounds: the code sets the bounds from the widths, and the optimum can lie outside (quadratic_generate_outside_bounds). Negative fitness bounds are not refused and falsify the recorded optimum (quadratic_generate_not_optimum); one-dimensional problems cannot be generated (quadratic_generate_one_dimension)."
  },
  {
   "property": "C74",
   "status": "proved",
   "theorems": [
    "Leap.sch_front",
    "Leap.zdt_values",
    "Leap.zdt1_front",
    "Leap.zdt2_front",
    "Leap.zdt3_front",
    "Leap.zdt4_front",
    "Leap.zdt5_front",
    "Leap.zdt6_front",
    "Leap.zdt_bounds",
    "Leap.zdt_length_unchecked",
    "Leap.zdt_ranges",
    "Leap.zdt_refusals"
   ],
   "note": "Over exact reals; ZDT5 over integers and rationals."
  },
  {
   "property": "C75",
   "status": "partial",
   "theorems": [
    "Leap.ea_solve_spec_partial",
    "Leap.ea_solve_errors",
    "Leap.ea_solve_forgets_initial_best"
   ],
   "note": "The genome returned is the best of the points tried after initialisation; the best initial point can be lost (ea_solve_forgets_initial_best), so that sentence is false of the code. Everything else is proved. dask_client and viz are not modelled."
  },
  {
   "property": "C76",
   "status": "proved",
   "theorems": [
    "Leap.dist_create_spec",
    "Leap.dist_clone_spec",
    "Leap.dist_evaluate_spec",
    "Leap.distributed_birth_ids",
    "Leap.eval_pool_spec",
    "Leap.eval_pool_exhausted",
    "Leap.eval_pool_missing_count"
   ],
   "note": "Dask is modelled as an arbitrary order in which the tasks finish, with the count of failures shared with the workers or not."
  },
  {
   "property": "C77",
   "status": "proved",
   "theorems": [
    "Leap.log_pop_call",
    "Leap.log_pop_history",
    "Leap.log_worker_history",
    "Leap.log_worker_missing"
   ],
   "note": ""
  },
  {
   "property": "C78",
   "status": "partial",
   "theorems": [
    "Leap.auc_is_step_area_partial",
    "Leap.auc_order_irrelevant_partial",
    "Leap.auc_bounds",
    "Leap.auc_empty",
    "Leap.auc_ties_ambiguous",
    "Leap.max_value_spec",
    "Leap.avg_curves_spec",
    "Leap.scalar_per_run_spec",
    "Leap.avg_scalar_spec",
    "Leap.analyzer_init_spec",
    "Leap.analyzer_init_none",
    "Leap.analyzer_defaults_refused",
    "Leap.cat_csv_spec",
    "Leap.auc_measures_runs"
   ],
   "note": "Over exact rationals. The order of rows matters when two rows have the same time (auc_ties_ambiguous); with distinct times it does not. The default arguments of the analyzer are refused for every data frame (analyzer_defaults_refused)."
  },
  {
   "property": "C79",
   "status": "proved",
   "theorems": [
    "Leap.cgp_primitives_spec",
    "Leap.function_primitive_spec",
    "Leap.cgp_initializers_spec",
    "Leap.cgp_genome_mutate_spec",
    "Leap.cgp_mutate_operator",
    "Leap.cgp_mutate_no_decoder",
    "Leap.cgp_parameters_decoder_spec",
    "Leap.cgp_parameters_initialize_spec"
   ],
   "note": ""
  },
  {
   "property": "C80",
   "status": "proved",
   "theorems": [
    "Leap.image_problem_spec",
    "Leap.generate_image_spec",
    "Leap.generate_image_refusals",
    "Leap.image_xy_fitness",
    "Leap.image_xy_optimum",
    "Leap.image_xy_refusals"
   ],
   "note": "Loading and resizing the image file is not modelled: the target is an arbitrary image."
  },
  {
   "property": "C81",
   "status": "proved",
   "theorems": [
    "Leap.default_best_origin",
    "Leap.default_best_valleys",
    "Leap.default_best_step",
    "Leap.default_best_cosine",
    "Leap.default_best_shekel",
    "Leap.default_best_schwefel",
    "Leap.default_langermann",
    "Leap.default_best_strings",
    "Leap.maximize_reverses"
   ],
   "note": "Over the real numbers. Langermann has no documented optimum: existence of a best point is proved."
  },
  {
   "property": "C82",
   "status": "proved",
   "theorems": [
    "Leap.migration_metric_row",
    "Leap.migration_metric_clash",
    "Leap.migration_metric_start",
    "Leap.migration_log_history",
    "Leap.migration_log_call",
    "Leap.concat_combine_spec",
    "Leap.cooperative_log_trial",
    "Leap.cooperative_log_transparent",
    "Leap.cooperative_unlogged"
   ],
   "note": "Quoting of CSV cells is not modelled: a row is a list of cells."
  },
  {
   "property": "C83",
   "status": "partial",
   "theorems": [
    "Leap.metrics_plot_history_partial",
    "Leap.metrics_plot_shared_axes",
    "Leap.pareto_plot_undrawable",
    "Leap.metrics_plot_refusals",
    "Leap.metrics_plot_out_of_step",
    "Leap.fitness_plot_history",
    "Leap.cartesian_plot_history",
    "Leap.sum_plot_history",
    "Leap.scatter_plot_refusals",
    "Leap.contour_table_spec",
    "Leap.contour_table_refusals",
    "Leap.ones_curve_spec",
    "Leap.ones_curve_surprises",
    "Leap.hist_plot_spec",
    "Leap.pareto_plot_call",
    "Leap.pareto_plot_refusals"
   ],
   "note": "False on axes that already hold lines (metrics_plot_shared_axes: the first lines are overwritten), after a metric raised (metrics_plot_out_of_step), and ParetoPlotProbe2D without axes raises AttributeError. Drawing itself is not modelled."
  },
  {
   "property": "C84",
   "status": "partial",
   "theorems": [
    "Leap.print_probe_spec",
    "Leap.print_individual_echo",
    "Leap.print_population_spec",
    "Leap.print_list_spec",
    "Leap.array_text_restored_partial",
    "Leap.array_text_not_restored",
    "Leap.comment_lines",
    "Leap.header_text_columns",
    "Leap.header_text_agrees",
    "Leap.stats_start",
    "Leap.dataframe_is_stream",
    "Leap.dataframe_refused"
   ],
   "note": "The last part is false: a user's own numpy string function is replaced by numpy's default (array_text_not_restored)."
  },
  {
   "property": "C85",
   "status": "proved",
   "theorems": [
    "Leap.enlu_keeps_front",
    "Leap.enlu_overflow_loses_front",
    "Leap.steady_nsga2_inserts",
    "Leap.steady_nsga2_population",
    "Leap.steady_nsga2_budget",
    "Leap.steady_nsga2_total",
    "Leap.stateful_is_steady",
    "Leap.stateful_unit"
   ],
   "note": "For finite objective values and evaluated individuals that are different objects. The front is kept as long as it fits at every moment; enlu_overflow_loses_front shows that this condition cannot be dropped."
  },
  {
   "property": "C86",
   "status": "proved",
   "theorems": [
    "Leap.pipeline_keeps_feasible",
    "Leap.evo_run_members",
    "Leap.evo_loop_members",
    "Leap.evo_loop_generations",
    "Leap.evo_run_generations",
    "Leap.evaluate_stage_ok",
    "Leap.clone_stage_ok",
    "Leap.uniform_crossover_stage_ok",
    "Leap.bitflip_stage_ok",
    "Leap.gaussian_stage_ok",
    "Leap.binomial_stage_ok",
    "Leap.randint_stage_ok"
   ],
   "note": "N-point crossover qualifies when its cut points are ones numpy can return (part of StageOk). Integer resampling asks the same of numpy's draws; the other operators need no assumption on random numbers."
  },
  {
   "property": "C87",
   "status": "proved",
   "theorems": [
    "Leap.pipeline_returns",
    "Leap.evo_run_returns",
    "Leap.bitflip_stage_live",
    "Leap.randint_stage_live",
    "Leap.gaussian_stage_live",
    "Leap.tournament_choice_picks",
    "Leap.binary_run_returns_feasible",
    "Leap.cgp_run_decodes"
   ],
   "note": "Stop condition and probes are taken not to raise. Random numbers are arbitrary of the shapes numpy returns."
  },
  {
   "property": "C88",
   "status": "proved",
   "theorems": [
    "Leap.island_run_members",
    "Leap.island_run_returns",
    "Leap.island_loop_generations",
    "Leap.immigrate_inds_spec",
    "Leap.emigrate_inds_spec",
    "Leap.clone_with_fitness_spec"
   ],
   "note": "One problem and representation for all islands, default customs_stamp, no population-specific pipelines. Selections and random.choice are arbitrary functions of the memory."
  },
  {
   "property": "C89",
   "status": "proved",
   "theorems": [
    "Leap.async_run_ok",
    "Leap.async_run_ends",
    "Leap.async_run_returns",
    "Leap.tournament_inserter",
    "Leap.greedy_inserter",
    "Leap.greedy_inserter_weakest",
    "Leap.inserters_return",
    "Leap.worker_evaluates",
    "Leap.submitAll_spec"
   ],
   "note": "Offspring pipelines of the form select, clone, operators, pool. An evaluation happens when its result is looked at. Probes and log lines are left out."
  },
  {
   "property": "C90",
   "status": "proved",
   "theorems": [
    "Leap.nsga_run_members",
    "Leap.nsga_run_refuses",
    "Leap.nsga_generation_spec",
    "Leap.nsga_generation_returns",
    "Leap.nsga_run_returns",
    "Leap.nsga_constant_extinct",
    "Leap.nsga_flat_run"
   ],
   "note": "Default ranking function; finite objective vectors of the problem's length; a clone's copied rank and distance are left out, as they are overwritten before being read."
  },
  {
   "property": "C91",
   "status": "proved",
   "theorems": [
    "Leap.wrapped_compares",
    "Leap.direction_unique",
    "Leap.direction_compares",
    "Leap.alternation_reverses",
    "Leap.wrapped_equality",
    "Leap.averaged_kind",
    "Leap.wrapped_value",
    "Leap.wrapped_deterministic",
    "Leap.plain_or_team",
    "Leap.cooperative_must_be_outermost",
    "Leap.cooperative_outermost",
    "Leap.wrapping_refusals",
    "Leap.active_unique"
   ],
   "note": "Finite rational values; the Python type of a base problem's fitness is fixed; offsets are floats."
  },
  {
   "property": "C92",
   "status": "proved",
   "theorems": [
    "Leap.arange_spec",
    "Leap.stepsBelow_unique",
    "Leap.plot_heights",
    "Leap.plot_deterministic",
    "Leap.plot_problem_defaults",
    "Leap.contour_keywords_fail",
    "Leap.plot_refusals"
   ],
   "note": "Exact rational grid lines; Matplotlib's drawing is not modelled."
  },
  {
   "property": "C93",
   "status": "proved",
   "theorems": [
    "Leap.worker_logger",
    "Leap.worker_log_level",
    "Leap.worker_message",
    "Leap.worker_plugin",
    "Leap.log_numbers",
    "Leap.forked_worker_reports_parent"
   ],
   "note": "One process; time stamps and the root logger's handlers are not modelled."
  },
  {
   "property": "C94",
   "status": "proved",
   "theorems": [
    "Leap.repertoire_lines",
    "Leap.repertoire_round_trip",
    "Leap.repertoire_stable",
    "Leap.binary_repertoire_unreadable",
    "Leap.repertoire_init"
   ],
   "note": "That float() reads back what Python writes for a number is assumed; files without quotes."
  },
  {
   "property": "C95",
   "status": "proved",
   "theorems": [
    "Leap.below_near",
    "Leap.bitflip_chance",
    "Leap.bitflip_mean",
    "Leap.bitflip_expected",
    "Leap.randint_chance",
    "Leap.gaussian_mean",
    "Leap.uniform_crossover_chance",
    "Leap.one_point_chance",
    "Leap.binary_init_chance",
    "Leap.binomial_mean",
    "Leap.binomial_not_centred"
   ],
   "note": "Random numbers are equally likely multiples of 1/N and independent; the quality of the generator is not modelled."
  },
  {
   "property": "C96",
   "status": "proved",
   "theorems": [
    "Leap.tournament_chance",
    "Leap.tournament_ties",
    "Leap.proportional_chance",
    "Leap.sus_chance"
   ],
   "note": "Random numbers as in C95; rational arithmetic."
  },
  {
   "property": "C97",
   "status": "proved",
   "theorems": [
    "Leap.rounding_nearest",
    "Leap.rounding_error",
    "Leap.float_models_exact",
    "Leap.float_decode_segment",
    "Leap.float_decode_genome",
    "Leap.decoded_above_bound"
   ],
   "note": "Doubles are rationals with 53 binary digits; overflow to infinity, NaN and the sign of zero are not modelled."
  },
  {
   "property": "C98",
   "status": "proved",
   "theorems": [
    "Leap.float_rate",
    "Leap.full_rate_below_one",
    "Leap.float_vector_in_bounds",
    "Leap.float_vector_upper"
   ],
   "note": "As C97; random numbers are at most 1 - 2^-53."
  },
  {
   "property": "C99",
   "status": "proved",
   "theorems": [
    "Leap.float_proportional",
    "Leap.float_proportional_refuses",
    "Leap.float_sum_error",
    "Leap.float_proportional_near",
    "Leap.sus_step_exact",
    "Leap.float_sus_pass",
    "Leap.float_sus_breaks",
    "Leap.float_sus_index_error",
    "Leap.float_sus_safe"
   ],
   "note": "As C97; the total, which NumPy adds up in an order of its own, is a parameter."
  },
  {
   "property": "C100",
   "status": "proved",
   "theorems": [
    "Leap.coop_evaluate_exact",
    "Leap.coop_zero_trials",
    "Leap.coop_partners_rotate",
    "Leap.coop_pipeline_spec",
    "Leap.coop_run_members"
   ],
   "note": "Scores are rationals, so the mean is exact; the log stream is modelled in `Model/EventLog`."
  },
  {
   "property": "C101",
   "status": "proved",
   "theorems": [
    "Leap.search_loop_chance",
    "Leap.search_run_chance",
    "Leap.bitflip_hits",
    "Leap.bitflip_search_converges",
    "Leap.randint_hits",
    "Leap.no_mutation_no_new_genes",
    "Leap.exSearch_converges"
   ],
   "note": "The draws of the last mutation come from a stream of their own, independent of all other random numbers, as successive numbers of one generator are taken to be (see C95)."
  },
  {
   "property": "C102",
   "status": "proved",
   "theorems": [
    "Leap.cp_evaluate_exact",
    "Leap.grouped_cooperate_exact",
    "Leap.coop_group_pipeline_spec",
    "Leap.coop_group_run_members",
    "Leap.cp_partners_repeat",
    "Leap.default_init_needs_context",
    "Leap.default_init_uses_leftovers"
   ],
   "note": "No log stream (with one, evaluation raises, as DESIGN.md records)."
  },
  {
   "property": "C103",
   "status": "proved",
   "theorems": [
    "Leap.rule_plot_exact",
    "Leap.rule_plot_matches",
    "Leap.rule_plot_surprises",
    "Leap.graph_plot_history"
   ],
   "note": "Colours and matplotlib itself are abstract: a picture is the list of rectangles, or of weighted edges, handed to the drawing library."
  },
  {
   "property": "C104",
   "status": "proved",
   "theorems": [
    "Leap.plot_curves_exact",
    "Leap.curve_colours_differ",
    "Leap.curve_colours_clash",
    "Leap.plot_avg_curves_exact",
    "Leap.plot_scalars_exact",
    "Leap.plot_avg_scalars_fails",
    "Leap.analyze_exact",
    "Leap.analyze_merges_files",
    "Leap.averages_file_refused",
    "Leap.combined_file_plots",
    "Leap.plot_all_exact"
   ],
   "note": "A picture is what is handed to the drawing library; titles, labels, limits and log scales are left out. Missing values are not modelled."
  },
  {
   "property": "C105",
   "status": "proved",
   "theorems": [
    "Leap.equals_gaussian_exact",
    "Leap.constant_samples_rejected",
    "Leap.equal_means_accepted",
    "Leap.equals_gaussian_invariant",
    "Leap.equals_gaussian_monotone",
    "Leap.equals_gaussian_not_textbook"
   ],
   "note": "Exact arithmetic; the p-value of the t distribution is any function that is 1 at 0, decreasing and not negative."
  },
  {
   "property": "C106",
   "status": "proved",
   "theorems": [
    "Leap.art_keeps_colours",
    "Leap.art_leaves_colours",
    "Leap.art_order",
    "Leap.art_unit_pixels",
    "Leap.art_circuit_colours",
    "Leap.art_image_out_of_range"
   ],
   "note": "Exact real arithmetic, one pixel at a time."
  },
  {
   "property": "C107",
   "status": "proved",
   "theorems": [
    "Leap.tournament_pressure",
    "Leap.tournament_pressure_strict",
    "Leap.truncation_pressure",
    "Leap.proportional_pressure",
    "Leap.sus_pressure",
    "Leap.odd_exponent_refuses",
    "Leap.even_exponent_prefers_worse"
   ],
   "note": "Exact arithmetic; draws of selection are uniform over finitely many values, the limit of ever finer values being the continuous case. The key is the number the operator compares, whatever the direction of the problem."
  },
  {
   "property": "C108",
   "status": "proved",
   "theorems": [
    "Leap.walk_trajectory",
    "Leap.walk_each_from_previous",
    "Leap.walk_chance",
    "Leap.bitflip_walk_converges",
    "Leap.documented_walk_two_genomes"
   ],
   "note": "The whole run over memory; the draws that the target chance counts are those of the last mutation, everything else is universally quantified."
  },
  {
   "property": "C109",
   "status": "proved",
   "theorems": [
    "Leap.evo_run_history_free",
    "Leap.walk_run_history_free",
    "Leap.plus_run_history_free",
    "Leap.island_run_history_free",
    "Leap.async_run_history_free",
    "Leap.sync_run_history_free",
    "Leap.nlargest_ranks_by_appearance",
    "Leap.tournament_by_appearance",
    "Leap.tournament_inserter_by_appearance",
    "Leap.greedy_inserter_by_appearance",
    "Leap.reused_migrate_mixes_runs"
   ],
   "note": "Whole runs over memory, with the pipelines of C50. Counters kept in leap_ec.context are not part of this claim. In the asynchronous run the environment decides alike about the n-th individual of either run."
  },
  {
   "property": "C110",
   "status": "proved",
   "theorems": [
    "Leap.persist_run_members",
    "Leap.persist_pipeline",
    "Leap.persist_run_accounts",
    "Leap.persist_pipeline_accounts",
    "Leap.persist_pipeline_held",
    "Leap.no_persist_run_wastes",
    "Leap.persist_off_pipeline",
    "Leap.kept_child_crosses_islands",
    "Leap.kept_child_enters_next_run"
   ],
   "note": "Whole runs over memory. The counts are for runs without a stop condition; persist_loop_accounts has the version with one. The two limits are witnesses computed by the kernel."
  },
  {
   "property": "C111",
   "status": "proved",
   "theorems": [
    "Leap.pipeline_lineage",
    "Leap.evo_run_lineage",
    "Leap.island_run_lineage",
    "Leap.walk_run_lineage",
    "Leap.plus_run_lineage",
    "Leap.nsga_run_lineage",
    "Leap.family_tree_rooted",
    "Leap.second_clone_hides_parent"
   ],
   "note": "Whole runs over memory, for runs that return. The limit about a second clone is a witness computed by the kernel."
  },
  {
   "property": "C112",
   "status": "proved",
   "theorems": [
    "Leap.logged_run_any_outcome",
    "Leap.logged_run_transparent",
    "Leap.stats_log_any_outcome",
    "Leap.stats_cells_true",
    "Leap.log_misses_elites"
   ],
   "note": "Whole runs over memory, for every outcome. The gap in the log is a witness computed by the kernel. A crash is an exception raised by a call that the model knows (initialiser, decoder, problem, mutation function, selection, probe), not an interrupt between two statements."
  },
  {
   "property": "C113",
   "status": "proved",
   "theorems": [
    "Leap.generational_budget",
    "Leap.persist_budget",
    "Leap.walk_budget",
    "Leap.plus_budget",
    "Leap.async_budget",
    "Leap.sync_budget",
    "Leap.nsga_budget",
    "Leap.island_budget",
    "Leap.coop_budget",
    "Leap.coop_problem_budget",
    "Leap.robust_pipeline_budget",
    "Leap.average_charges",
    "Leap.averaged_budget",
    "Leap.early_evaluate_overspends"
   ],
   "note": "The tally is any function of the store of random numbers that the problem raises by its price per call and that the random draws of operators leave alone; nothing else is assumed of problems and operators."
  },
  {
   "property": "C114",
   "status": "proved",
   "theorems": [
    "Leap.seg_pipeline_isolated",
    "Leap.seg_pipeline_proper",
    "Leap.seg_clone_keeps_sharing",
    "Leap.seg_act_by_value",
    "Leap.seg_pipeline_by_value",
    "Leap.seg_loop_isolated",
    "Leap.seg_loop_proper",
    "Leap.seg_loop_keeps_best",
    "Leap.seg_run_proper",
    "Leap.seg_pipeline_counted",
    "Leap.seg_loop_counted",
    "Leap.seg_run_counted",
    "Leap.seg_pipeline_completes",
    "Leap.seg_loop_completes",
    "Leap.seg_run_completes",
    "Leap.copied_segments_tied"
   ],
   "note": "Well formed is any predicate on segments that the initializers and mutation functions keep. With copy_segment in the pipeline the predicate must also hold of what functions leave in their argument."
  },
  {
   "property": "C115",
   "status": "proved",
   "theorems": [
    "Leap.task_pipeline_eq",
    "Leap.immigrate_task_spec",
    "Leap.task_run_members",
    "Leap.task_run_returns",
    "Leap.task_run_wrong_count",
    "Leap.unstamped_islands_mix"
   ],
   "note": "One representation, hence one decoder, for all islands, and no pipelines of single islands."
  },
  {
   "property": "C116",
   "status": "proved",
   "theorems": [
    "Leap.plus_loop_broods",
    "Leap.plus_broods_members",
    "Leap.plus_keeps_best_ever",
    "Leap.plus_dominates_history",
    "Leap.insertion_first_only",
    "Leap.insertion_keeps_few",
    "Leap.plus_run_members",
    "Leap.plus_run_returns",
    "Leap.insertion_run_loses_best"
   ],
   "note": "The claim about insertion_selection describes the code, which returns inside its loop; its documentation promises that every offspring competes."
  },
  {
   "property": "C117",
   "status": "proved",
   "theorems": [
    "Leap.plus_loop_chance",
    "Leap.plus_run_chance",
    "Leap.plus_bitflip_converges",
    "Leap.exPlusSearch_converges"
   ],
   "note": "Random numbers are independent and equally likely, as in C101; the random state of everything else is arbitrary. Mutation and evaluation are the last operators."
  },
  {
   "property": "C118",
   "status": "proved",
   "theorems": [
    "Leap.alternating_scores",
    "Leap.alternating_run_scores",
    "Leap.alternating_turn_is_run",
    "Leap.alternating_turns_follow",
    "Leap.alternating_turn_keeps_best",
    "Leap.alternating_run_returns",
    "Leap.alternating_elite_stale",
    "Leap.alternating_best_flips"
   ],
   "note": "The last two theorems are runs that show the two consequences named at the end of the claim."
  },
  {
   "property": "C119",
   "status": "proved",
   "theorems": [
    "Leap.rule_mutator_legal",
    "Leap.rule_init_legal",
    "Leap.legal_rules_control",
    "Leap.rule_run_legal",
    "Leap.rule_run_completes",
    "Leap.gaussian_keeps_box",
    "Leap.randint_keeps_action"
   ],
   "note": "Genes and observations are exact rationals. The state of the environment and the random source are one state, so the environment may be random. For the completion of a run the random source gives numbers of the documented ranges."
  },
  {
   "property": "C120",
   "status": "proved",
   "theorems": [
    "Leap.net_controls",
    "Leap.net_run_members",
    "Leap.net_run_completes"
   ],
   "note": "Genes are exact rationals, weights and observations are in any ordered semiring. The state of the environment and the random source are one state. For the completion of a run the random source gives numbers of the documented ranges."
  },
  {
   "property": "C121",
   "status": "proved",
   "theorems": [
    "Leap.circuit_completes",
    "Leap.circuit_run_members",
    "Leap.circuit_run_completes"
   ],
   "note": "Truth values are integers. The target returns a new list, not its argument (see C55). For the completion of a run the random source gives numbers of the documented ranges."
  },
  {
   "property": "C122",
   "status": "partial",
   "theorems": [
    "Leap.grouped_run_scores_founders",
    "Leap.grouped_run_completes",
    "Leap.grouped_run_initial_partial",
    "Leap.grouped_run_stale"
   ],
   "note": "The last part is false of the code: clones keep the phenome of their parent and grouped_evaluate does not decode again, so every fitness in the run is the score of a genome of the initial population (grouped_run_scores_founders, for all runs); grouped_run_stale is a run whose individuals do not have the score of their genes. All other parts are proved, and the last part for the initial population."
  },
  {
   "property": "C123",
   "status": "proved",
   "theorems": [
    "Leap.image_circuit_pixelwise",
    "Leap.image_score",
    "Leap.image_run_members",
    "Leap.image_run_completes"
   ],
   "note": "Primitives give a number at every pixel: nan and infinity are left out. Numbers are exact."
  },
  {
   "property": "C124",
   "status": "proved",
   "theorems": [
    "Leap.sync_evaluate_ok",
    "Leap.sync_run_members",
    "Leap.sync_run_completes",
    "Leap.sync_evaluate_order_free",
    "Leap.sync_run_order_free"
   ],
   "note": "heapq.nlargest is any function that returns k best; a worker that dies is not modelled. That it makes no difference who is copied is C132."
  },
  {
   "property": "C125",
   "status": "proved",
   "theorems": [
    "Leap.nlargest_kbest",
    "Leap.nlargest_is_topk",
    "Leap.ranks_below_iff",
    "Leap.truncation_any_coins",
    "Leap.elitist_any_coins",
    "Leap.single_elite_within_tolerance",
    "Leap.truncation_drops_better",
    "Leap.elitism_loses_best",
    "Leap.elitism_drifts_without_bound"
   ],
   "note": "heapq.nlargest is modelled by its code (Lib/heapq.py): the single-element path, the sorting path and the heap."
  },
  {
   "property": "C126",
   "status": "proved",
   "theorems": [
    "Leap.crowding_failed_raises",
    "Leap.enlu_failed_raises",
    "Leap.enlu_scored",
    "Leap.steady_nsga2_reached",
    "Leap.steady_nsga2_failure_ends",
    "Leap.steady_nsga2_no_failures",
    "Leap.crowding_calc_failed_raises",
    "Leap.nsga2_failure_ends",
    "Leap.nsga2_no_failure",
    "Leap.nsga2_initial_failure_ends"
   ],
   "note": "The property as stated says what happens; the docstrings' promise that runs survive failing evaluations is false for multi-objective runs. The ranking function is any that returns everybody; numpy's ordering of NaN rows is not modelled."
  },
  {
   "property": "C127",
   "status": "proved",
   "theorems": [
    "Leap.parsimony_order",
    "Leap.pkey_lt_failed",
    "Leap.parsimony_truncation",
    "Leap.parsimony_elitism",
    "Leap.parsimony_history",
    "Leap.parsimony_tournament",
    "Leap.parsimony_tournament_chance",
    "Leap.parsimony_insertion",
    "Leap.parsimony_truncation_failed",
    "Leap.parsimony_single",
    "Leap.parsimony_forgets",
    "Leap.parsimony_elites_failed"
   ],
   "note": "The property as stated says what happens; that a failed evaluation always loses is false when selecting by a key."
  },
  {
   "property": "C128",
   "status": "proved",
   "theorems": [
    "Leap.rank_func_irrelevant",
    "Leap.rank_functions_same",
    "Leap.survivors_same",
    "Leap.generation_same",
    "Leap.fast_sort_ends",
    "Leap.nsgaRunBy_ordinal",
    "Leap.no_offspring_differ",
    "Leap.no_clone_differ"
   ],
   "note": "nsgaRunBy_ordinal says that the default run is the one of C90."
  },
  {
   "property": "C129",
   "status": "proved",
   "theorems": [
    "Leap.ea_depends_on_order",
    "Leap.loop_depends_on_order",
    "Leap.islands_depend_on_order",
    "Leap.async_depends_on_order",
    "Leap.async_greedy_depends_on_order",
    "Leap.sync_depends_on_order",
    "Leap.walk_ignores_fitness",
    "Leap.increasing_keeps_order",
    "Leap.decreasing_keeps_order",
    "Leap.scaling_keeps_order",
    "Leap.negating_keeps_order",
    "Leap.proportional_popMin_affine",
    "Leap.proportional_scale",
    "Leap.proportional_depends_on_values",
    "Leap.shift_changes_tournament"
   ],
   "note": "The coin that decides between two failed evaluations is one arbitrary value for the whole run; runs with a new coin for every comparison are in C125."
  },
  {
   "property": "C130",
   "status": "proved",
   "theorems": [
    "Leap.nsga_units_irrelevant",
    "Leap.distances_units",
    "Leap.ranks_depend_on_order",
    "Leap.dominates_turned",
    "Leap.nonlinear_changes_survivors"
   ],
   "note": "Arithmetic is exact, as in the crowding model."
  },
  {
   "property": "C131",
   "status": "proved",
   "theorems": [
    "Leap.ea_recoded",
    "Leap.loop_recoded",
    "Leap.islands_recoded",
    "Leap.async_recoded",
    "Leap.nsga_recoded",
    "Leap.sync_recoded",
    "Leap.walk_recoded",
    "Leap.inserters_recoded",
    "Leap.bitflip_recoded",
    "Leap.gaussian_recoded",
    "Leap.hidden_string_irrelevant",
    "Leap.createRealVector_recoded",
    "Leap.translated_run",
    "Leap.scaled_run",
    "Leap.unmoved_bounds_differ"
   ],
   "note": "Arithmetic is exact. Gaussian mutation with its default transformation (slope 1, intercept 0)."
  },
  {
   "property": "C132",
   "status": "proved",
   "theorems": [
    "Leap.evo_run_as_values",
    "Leap.async_run_as_values",
    "Leap.sync_run_as_values",
    "Leap.async_run_copy_free",
    "Leap.sync_run_copy_free",
    "Leap.nlargest_picks_by_appearance",
    "Leap.nsga_survivors_as_values",
    "Leap.nsga_run_as_values",
    "Leap.plus_run_as_values",
    "Leap.island_run_as_values"
   ],
   "note": "The runs over plain values are a separate specification, Props/ValueSpec.lean; for NSGA-II it is at the head of Props/NsgaRestart.lean, for loops written by hand at the head of Props/PlusValues.lean, for islands at the head of Props/IslandValues.lean. For NSGA-II, selection does not use rank and distance. Offspring pipelines of the form select, clone, operators, pool."
  },
  {
   "property": "C133",
   "status": "proved",
   "theorems": [
    "Leap.ea_reordered",
    "Leap.loop_reordered",
    "Leap.islands_reordered",
    "Leap.async_reordered",
    "Leap.nsga_reordered",
    "Leap.sync_reordered",
    "Leap.walk_reordered",
    "Leap.inserters_reordered",
    "Leap.swapMask_reordered",
    "Leap.bitflip_reordered",
    "Leap.gaussian_reordered",
    "Leap.gene_order_irrelevant",
    "Leap.positions_alike",
    "Leap.bit_problems_count",
    "Leap.maxOnes_target_reordered",
    "Leap.leading_ones_not_counting",
    "Leap.one_point_keeps_between",
    "Leap.one_point_order_matters"
   ],
   "note": "Genomes of one length. The random numbers are given per gene; Gaussian noise is drawn only for the selected genes, which Spec.gaussDraws says."
  },
  {
   "property": "C134",
   "status": "proved",
   "theorems": [
    "Leap.restart_continues",
    "Leap.tournament_restart_continues",
    "Leap.longer_run_begins_alike",
    "Leap.noisy_restart_differs",
    "Leap.nsga_restart_continues",
    "Leap.nsga_longer_run_begins_alike",
    "Leap.walk_longer_run_begins_alike",
    "Leap.sync_longer_run_begins_alike",
    "Leap.plus_restart_continues",
    "Leap.island_restart_continues",
    "Leap.islands_restarted_anew_differ",
    "Leap.islands_restarted_out_of_step_differ"
   ],
   "note": "Offspring pipelines of the form select, clone, mutation and crossover in any order, evaluate, pool, with individuals that raise when evaluation fails. Identities and records of parents of course differ after a restart."
  }
 ]
}