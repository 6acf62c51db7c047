{
 "claims": [
  {
   "property": "C01",
   "status": "proved",
   "theorems": [
    "Verif.C01_isDag_iff_acyclic",
    "Verif.C01_isDag_order_independent",
    "Verif.C01_always_returns"
   ],
   "note": ""
  },
  {
   "property": "C02",
   "status": "proved",
   "theorems": [
    "Verif.C02_topological_ordering_sound",
    "Verif.C02_raises_iff_cyclic",
    "Verif.C02_positions"
   ],
   "note": "For matrices with non-negative entries; C69 shows that the hypothesis is needed."
  },
  {
   "property": "C03",
   "status": "proved",
   "theorems": [
    "Verif.C03_partition",
    "Verif.C03_meaning",
    "Verif.C03_duality",
    "Verif.C03_na"
   ],
   "note": ""
  },
  {
   "property": "C04",
   "status": "proved",
   "theorems": [
    "Verif.C04_decomposition",
    "Verif.C04_supports",
    "Verif.C04_directed_edges",
    "Verif.C04_undirected_edges",
    "Verif.C04_edge_weights"
   ],
   "note": ""
  },
  {
   "property": "C05",
   "status": "proved",
   "theorems": [
    "Verif.C05_vstructures_exact"
   ],
   "note": ""
  },
  {
   "property": "C06",
   "status": "proved",
   "theorems": [
    "Verif.C06_is_clique",
    "Verif.C06_is_complete",
    "Verif.C06_self_loop_boundary"
   ],
   "note": ""
  },
  {
   "property": "C07",
   "status": "proved",
   "theorems": [
    "Verif.C07_semi_directed_paths",
    "Verif.C07_with_self_loops",
    "Verif.C07_nonempty_iff"
   ],
   "note": "Exact enumeration for graphs without self-loops; with self-loops C07_with_self_loops."
  },
  {
   "property": "C08",
   "status": "proved",
   "theorems": [
    "Verif.C08_raises_iff",
    "Verif.C08_separates"
   ],
   "note": ""
  },
  {
   "property": "C09",
   "status": "proved",
   "theorems": [
    "Verif.C09_chain_component",
    "Verif.C09_partition"
   ],
   "note": ""
  },
  {
   "property": "C10",
   "status": "proved",
   "theorems": [
    "Verif.C10_induced_subgraph",
    "Verif.C10_induced_subgraph_acyclic"
   ],
   "note": ""
  },
  {
   "property": "C11",
   "status": "proved",
   "theorems": [
    "Verif.C11_moral_graph",
    "Verif.C11_moral_graph_symm",
    "Verif.C11_degrees"
   ],
   "note": ""
  },
  {
   "property": "C12",
   "status": "proved",
   "theorems": [
    "Verif.C12_raises",
    "Verif.C12_exact"
   ],
   "note": "For matrices with non-negative entries."
  },
  {
   "property": "C13",
   "status": "proved",
   "theorems": [
    "Verif.C13_pdag_to_dag_sound",
    "Verif.C13_pdag_to_dag_entries",
    "Verif.C13_self_loop_boundary"
   ],
   "note": "For PDAGs without self-loops; C13_self_loop_boundary shows that the hypothesis is needed."
  },
  {
   "property": "C14",
   "status": "proved",
   "theorems": [
    "Verif.C14_pdag_to_dag_complete"
   ],
   "note": "For PDAGs without self-loops."
  },
  {
   "property": "C15",
   "status": "proved",
   "theorems": [
    "Verif.C15_order_edges",
    "Verif.C15_labels_distinct",
    "Verif.C15_order",
    "Verif.C15_labels_range",
    "Verif.C15_raises_iff_cyclic"
   ],
   "note": ""
  },
  {
   "property": "C16",
   "status": "proved",
   "theorems": [
    "Verif.C16_compelled"
   ],
   "note": ""
  },
  {
   "property": "C17",
   "status": "proved",
   "theorems": [
    "Verif.C17_essential_graph",
    "Verif.C17_reversible",
    "Verif.C17_raises_iff_cyclic"
   ],
   "note": ""
  },
  {
   "property": "C18",
   "status": "proved",
   "theorems": [
    "Verif.C18_cpdag_eq_iff",
    "Verif.C18_extensions"
   ],
   "note": ""
  },
  {
   "property": "C19",
   "status": "proved",
   "theorems": [
    "Verif.C19_extensions_equivalent",
    "Verif.C19_pdag_to_cpdag",
    "Verif.C19_idempotent"
   ],
   "note": "For non-negative PDAGs without self-loops."
  },
  {
   "property": "C20",
   "status": "proved",
   "theorems": [
    "Verif.C20_raises_iff",
    "Verif.C20_sound_and_closed",
    "Verif.C20_only_orients",
    "Verif.C20_maximal",
    "Verif.C20_idempotent"
   ],
   "note": "Exception part for PDAGs without self-loops."
  },
  {
   "property": "C21",
   "status": "proved",
   "theorems": [
    "Verif.C21_interventional_essential_graph",
    "Verif.C21_extensions",
    "Verif.C21_order_independent",
    "Verif.C21_raises_iff_cyclic",
    "Verif.C21_icpdag_eq_iff"
   ],
   "note": ""
  },
  {
   "property": "C22",
   "status": "proved",
   "theorems": [
    "Verif.C22_no_targets",
    "Verif.C22_all_targets",
    "Verif.C22_monotone"
   ],
   "note": ""
  },
  {
   "property": "C23",
   "status": "proved",
   "theorems": [
    "Verif.C23_all_dags",
    "Verif.C23_empty_iff",
    "Verif.C23_no_undirected_unchecked",
    "Verif.C23_cycle_returned",
    "Verif.C23_raises_iff"
   ],
   "note": ""
  },
  {
   "property": "C24",
   "status": "proved",
   "theorems": [
    "Verif.C24_mec",
    "Verif.C24_raises_iff",
    "Verif.C24_same_class_iff"
   ],
   "note": "For p >= 1 or check_chain=False; C25_empty_boundary gives the exception p = 0."
  },
  {
   "property": "C25",
   "status": "proved",
   "theorems": [
    "Verif.C25_chain_class",
    "Verif.C25_shortcut_agrees",
    "Verif.C25_empty_boundary"
   ],
   "note": ""
  },
  {
   "property": "C26",
   "status": "proved",
   "theorems": [
    "Verif.C26_imec",
    "Verif.C26_raises_iff",
    "Verif.C26_subset_mec"
   ],
   "note": "For p >= 1 or check_chain=False."
  },
  {
   "property": "C27",
   "status": "proved",
   "theorems": [
    "Verif.C27_pdag_to_icpdag"
   ],
   "note": "For non-negative PDAGs without self-loops."
  },
  {
   "property": "C28",
   "status": "proved",
   "theorems": [
    "Verif.C28_add_edges",
    "Verif.C28_raises",
    "Verif.C28_bound_meaning"
   ],
   "note": ""
  },
  {
   "property": "C29",
   "status": "proved",
   "theorems": [
    "Verif.C29_raises_iff",
    "Verif.C29_remove_edges"
   ],
   "note": ""
  },
  {
   "property": "C30",
   "status": "proved",
   "theorems": [
    "Verif.C30_is_supergraph",
    "Verif.C30_weighted_boundary",
    "Verif.C30_has_subgraph",
    "Verif.C30_has_supergraph"
   ],
   "note": ""
  },
  {
   "property": "C31",
   "status": "proved",
   "theorems": [
    "Verif.C31_sort_by_order",
    "Verif.C31_sort_plain",
    "Verif.C31_sort_raises",
    "Verif.C31_subsets",
    "Verif.C31_cartesian",
    "Verif.C31_cartesian_lex",
    "Verif.C31_cartesian_raises",
    "Verif.C31_cartesian_bytes",
    "Verif.C31_member",
    "Verif.C31_all_but",
    "Verif.C31_sorted_tuple"
   ],
   "note": ""
  },
  {
   "property": "C32",
   "status": "proved",
   "theorems": [
    "Verif.C32_raises",
    "Verif.C32_folds"
   ],
   "note": "Ratios are exact rationals; rounding in their floating point sum is not modelled."
  },
  {
   "property": "C33",
   "status": "proved",
   "theorems": [
    "Verif.C33_covers_iff",
    "Verif.C33_dropped_bound",
    "Verif.C33_violated"
   ],
   "note": ""
  },
  {
   "property": "C34",
   "status": "proved",
   "theorems": [
    "Verif.C34_init",
    "Verif.C34_stored",
    "Verif.C34_typed"
   ],
   "note": ""
  },
  {
   "property": "C35",
   "status": "proved",
   "theorems": [
    "Verif.C35_covariances"
   ],
   "note": ""
  },
  {
   "property": "C36",
   "status": "proved",
   "theorems": [
    "Verif.C36_posDef",
    "Verif.C36_singular"
   ],
   "note": ""
  },
  {
   "property": "C37",
   "status": "proved",
   "theorems": [
    "Verif.C37_actual_score",
    "Verif.C37_single_environment",
    "Verif.C37_two_environments_iff",
    "Verif.C37_order_dependent"
   ],
   "note": ""
  },
  {
   "property": "C38",
   "status": "proved",
   "theorems": [
    "Verif.C38_minimum"
   ],
   "note": ""
  },
  {
   "property": "C39",
   "status": "proved",
   "theorems": [
    "Verif.C39_sample",
    "Verif.C39_raises"
   ],
   "note": ""
  },
  {
   "property": "C40",
   "status": "proved",
   "theorems": [
    "Verif.C40_constructor",
    "Verif.C40_copy",
    "Verif.C40_copy_succeeds",
    "Verif.C40_frame",
    "Verif.C40_isolated_from_old",
    "Verif.C40_old_isolated",
    "Verif.C40_assign_B_stale"
   ],
   "note": ""
  },
  {
   "property": "C41",
   "status": "proved",
   "theorems": [
    "Verif.C41_unique_entries",
    "Verif.C41_read_is_map",
    "Verif.C41_write_iff_new",
    "Verif.C41_unchecked_boundary"
   ],
   "note": ""
  },
  {
   "property": "C42",
   "status": "proved",
   "theorems": [
    "Verif.C42_calls",
    "Verif.C42_transparent",
    "Verif.C42_no_cache"
   ],
   "note": ""
  },
  {
   "property": "C43",
   "status": "proved",
   "theorems": [
    "Verif.C43_init_on_stored_pair",
    "Verif.C43_init_poisons",
    "Verif.C43_not_transparent"
   ],
   "note": ""
  },
  {
   "property": "C44",
   "status": "proved",
   "theorems": [
    "Verif.C44_run",
    "Verif.C44_bounds",
    "Verif.C44_terminates",
    "Verif.C44_unbound",
    "Verif.C44_bound"
   ],
   "note": "UnboundLocalError provided that the initial model can be scored."
  },
  {
   "property": "C45",
   "status": "proved",
   "theorems": [
    "Verif.C45_solvers_respect_graph",
    "Verif.C45_fitted_model",
    "Verif.C45_small_draws_boundary"
   ],
   "note": "For grad under GoodDraws; C45_small_draws_boundary shows that the condition is needed. The statement first said 'whatever the random initialisation' without exception."
  },
  {
   "property": "C46",
   "status": "proved",
   "theorems": [
    "Verif.C46_non_targets_constant",
    "Verif.C46_init_model"
   ],
   "note": ""
  },
  {
   "property": "C47",
   "status": "proved",
   "theorems": [
    "Verif.C47_within_bounds",
    "Verif.C47_noise_posDef"
   ],
   "note": ""
  },
  {
   "property": "C48",
   "status": "proved",
   "theorems": [
    "Verif.C48_psi_fixed",
    "Verif.C48_init_model"
   ],
   "note": ""
  },
  {
   "property": "C49",
   "status": "proved",
   "theorems": [
    "Verif.C49_psi_max_unusable",
    "Verif.C49_value_error",
    "Verif.C49_raises"
   ],
   "note": "The statement first claimed ValueError in all cases. ValueError is proved for cvx under the hypotheses of C71 and, for all solvers, if the steps before the one for the variances succeed."
  },
  {
   "property": "C50",
   "status": "proved",
   "theorems": [
    "Verif.C50_returns",
    "Verif.C50_not_worse",
    "Verif.C50_raises_iff"
   ],
   "note": "The equivalence for ValueError is for loss and gradient functions that do not fail themselves."
  },
  {
   "property": "C51",
   "status": "proved",
   "theorems": [
    "Verif.C51_terminates",
    "Verif.C51_returns",
    "Verif.C51_unbounded_diverges",
    "Verif.C51_zero_threshold_diverges"
   ],
   "note": ""
  },
  {
   "property": "C52",
   "status": "proved",
   "theorems": [
    "Verif.C52_score_of_object",
    "Verif.C52_stale",
    "Verif.C52_hit",
    "Verif.C52_violated"
   ],
   "note": ""
  },
  {
   "property": "C53",
   "status": "proved",
   "theorems": [
    "Verif.C53_B_normal_equations",
    "Verif.C53_B_least_squares",
    "Verif.C53_B_raises",
    "Verif.C53_omegas",
    "Verif.C53_omegas_pos",
    "Verif.C53_omegas_ignore_init",
    "Verif.C53_init_unknown",
    "Verif.C53_gamma",
    "Verif.C53_initial_model",
    "Verif.C53_too_many_latents"
   ],
   "note": ""
  },
  {
   "property": "C54",
   "status": "proved",
   "theorems": [
    "Verif.C54_first_minimum",
    "Verif.C54_nan_preferred",
    "Verif.C54_empty"
   ],
   "note": ""
  },
  {
   "property": "C55",
   "status": "proved",
   "theorems": [
    "Verif.C55_chain",
    "Verif.C55_graphs",
    "Verif.C55_no_pruning",
    "Verif.C55_all_chains",
    "Verif.C55_all_candidates",
    "Verif.C55_empty",
    "Verif.C55_returns"
   ],
   "note": "For the default threshold (None), the only one the public functions use."
  },
  {
   "property": "C56",
   "status": "proved",
   "theorems": [
    "Verif.C56_diverges",
    "Verif.C56_diverges_later",
    "Verif.C56_uncorrelated",
    "Verif.C56_zero_optimal"
   ],
   "note": ""
  },
  {
   "property": "C57",
   "status": "proved",
   "theorems": [
    "Verif.C57_nested",
    "Verif.C57_sizes",
    "Verif.C57_threshold",
    "Verif.C57_returns"
   ],
   "note": ""
  },
  {
   "property": "C58",
   "status": "proved",
   "theorems": [
    "Verif.C58_nan_hides",
    "Verif.C58_never_compares_arrays",
    "Verif.C58_selection",
    "Verif.C58_no_candidates"
   ],
   "note": "For the default thresholds of the public functions."
  },
  {
   "property": "C59",
   "status": "proved",
   "theorems": [
    "Verif.C59_coherent",
    "Verif.C59_targets"
   ],
   "note": ""
  },
  {
   "property": "C60",
   "status": "proved",
   "theorems": [
    "Verif.C60_ignored",
    "Verif.C60_would_matter"
   ],
   "note": ""
  },
  {
   "property": "C61",
   "status": "proved",
   "theorems": [
    "Verif.C61_ges",
    "Verif.C61_subgraph"
   ],
   "note": ""
  },
  {
   "property": "C62",
   "status": "proved",
   "theorems": [
    "Verif.C62_raises",
    "Verif.C62_valid",
    "Verif.C62_sparse"
   ],
   "note": ""
  },
  {
   "property": "C63",
   "status": "proved",
   "theorems": [
    "Verif.C63_non_targets",
    "Verif.C63_observational",
    "Verif.C63_single_target",
    "Verif.C63_accumulates",
    "Verif.C63_violated",
    "Verif.C63_no_observational",
    "Verif.C63_latents_accumulate",
    "Verif.C63_latents_last",
    "Verif.C63_latents_violated",
    "Verif.C63_positive"
   ],
   "note": ""
  },
  {
   "property": "C64",
   "status": "proved",
   "theorems": [
    "Verif.C64_int",
    "Verif.C64_tuple",
    "Verif.C64_raises"
   ],
   "note": ""
  },
  {
   "property": "C65",
   "status": "proved",
   "theorems": [
    "Verif.C65_dag",
    "Verif.C65_single_node",
    "Verif.C65_edges",
    "Verif.C65_chain_model",
    "Verif.C65_single_node_model",
    "Verif.C65_random_model"
   ],
   "note": ""
  },
  {
   "property": "C66",
   "status": "proved",
   "theorems": [
    "Verif.C66_selection",
    "Verif.C66_profile_likelihood",
    "Verif.C66_raises"
   ],
   "note": ""
  },
  {
   "property": "C67",
   "status": "proved",
   "theorems": [
    "Verif.C67_bad",
    "Verif.C67_valid",
    "Verif.C67_exhaustive",
    "Verif.C67_accepts_empty"
   ],
   "note": "The constructor model stores sample sizes; the covariances computed from the samples are an oracle (np.cov)."
  },
  {
   "property": "C68",
   "status": "proved",
   "theorems": [
    "Verif.C68_is_stable_set_unusable"
   ],
   "note": ""
  },
  {
   "property": "C69",
   "status": "proved",
   "theorems": [
    "Verif.C69_negative_weight_accepted",
    "Verif.C69_negative_weight_repeats"
   ],
   "note": ""
  },
  {
   "property": "C70",
   "status": "proved",
   "theorems": [
    "Verif.C70_to_factorization",
    "Verif.C70_injective"
   ],
   "note": ""
  },
  {
   "property": "C71",
   "status": "proved",
   "theorems": [
    "Verif.C71_score_dag_returns"
   ],
   "note": "The convex solver is an oracle assumed to return a feasible point."
  },
  {
   "property": "C72",
   "status": "proved",
   "theorems": [
    "Verif.C72_returns",
    "Verif.C72_cvx"
   ],
   "note": "The convex solver is an oracle assumed to return a feasible point."
  },
  {
   "property": "C73",
   "status": "proved",
   "theorems": [
    "Verif.C73_chain_ignores",
    "Verif.C73_random_ignores",
    "Verif.C73_would_matter",
    "Verif.C73_obs_would_matter",
    "Verif.C73_chain_violated"
   ],
   "note": ""
  },
  {
   "property": "C74",
   "status": "proved",
   "theorems": [
    "Verif.C74_raises",
    "Verif.C74_value",
    "Verif.C74_zero_iff",
    "Verif.C74_bounds",
    "Verif.C74_scale",
    "Verif.C74_fitted_non_targets",
    "Verif.C74_division",
    "Verif.C74_no_noise"
   ],
   "note": "Zero variances (division by zero) are outside the theorems on values."
  },
  {
   "property": "C75",
   "status": "proved",
   "theorems": [
    "Verif.C75_raises",
    "Verif.C75_effects",
    "Verif.C75_value",
    "Verif.C75_bounds",
    "Verif.C75_many_latents",
    "Verif.C75_well_defined",
    "Verif.C75_dependent_boundary"
   ],
   "note": "The SVD is an oracle that returns orthonormal columns spanning the matrix; non-convergence is not modelled."
  },
  {
   "property": "C76",
   "status": "proved",
   "theorems": [
    "Verif.C76_gamma",
    "Verif.C76_omegas",
    "Verif.C76_psis",
    "Verif.C76_gamma_single_environment",
    "Verif.C76_loss_derivative",
    "Verif.C76_violated",
    "Verif.C76_wrong_direction",
    "Verif.C76_rest_single_environment"
   ],
   "note": "Violation: C76_violated and C76_wrong_direction; the rest of the statement is proved for all inputs. That the gradient is that of the loss compared for one environment is C76_gamma_single_environment and C76_rest_single_environment."
  },
  {
   "property": "C77",
   "status": "proved",
   "theorems": [
    "Verif.C77_cvx_optimal",
    "Verif.C77_not_computed_score"
   ],
   "note": "cvxpy (eps-optimal feasible point) and scipy.linalg.sqrtm (symmetric square root of positive semi-definite matrices) are assumed."
  },
  {
   "property": "C78",
   "status": "proved",
   "theorems": [
    "Verif.C78_step",
    "Verif.C78_grad_solution",
    "Verif.C78_grad_returns",
    "Verif.C78_equal_sizes",
    "Verif.C78_unweighted_violated"
   ],
   "note": "Exact arithmetic without overflow; scipy.linalg.sqrtm is assumed to return symmetric square roots. The violation is C78_unweighted_violated."
  },
  {
   "property": "C79",
   "status": "proved",
   "theorems": [
    "Verif.C79_adaptive_not_worse",
    "Verif.C79_adaptive_diverges"
   ],
   "note": "Exact arithmetic; the weight only changes its sign, which is exact in floating point."
  },
  {
   "property": "C80",
   "status": "proved",
   "theorems": [
    "Verif.C80_strict_progress",
    "Verif.C80_no_progress",
    "Verif.C80_gamma_direction",
    "Verif.C80_rest_direction",
    "Verif.C80_gamma_progress",
    "Verif.C80_rest_progress",
    "Verif.C80_stuck"
   ],
   "note": "C80_strict_progress (generic), C80_no_progress (generic converse), C80_gamma_direction and C80_rest_direction (the whole gradient, any number of environments), C80_gamma_progress and C80_rest_progress (one environment). C80_stuck: with two environments _solve_for_gamma returns gamma unchanged although the loss decreases next to it. Exact real arithmetic; the smallest step length 1e-50 is replaced by any value below a positive bound that depends on the model."
  },
  {
   "property": "C81",
   "status": "proved",
   "theorems": [
    "Verif.C81_default_candidates",
    "Verif.C81_two_variables",
    "Verif.C81_third_fold"
   ],
   "note": "C81_default_candidates (at least three variables), C81_two_variables (error with two), C81_third_fold (two runs with the same first two folds). The fitting function is arbitrary subject to GoodFit (codeFit_good proves it for the solvers of the code). Default thresholds."
  },
  {
   "property": "C82",
   "status": "proved",
   "theorems": [
    "Verif.C82_average_degree"
   ],
   "note": "C82_average_degree. The uniform distribution of the draws of numpy is a hypothesis (only the marginals are needed, not independence). Exact reals: rounding of k / (p - 1) is not modelled."
  },
  {
   "property": "C83",
   "status": "proved",
   "theorems": [
    "Verif.C83_argmin",
    "Verif.C83_argmax",
    "Verif.C83_arg_boundary",
    "Verif.C83_normalized_var_nan",
    "Verif.C83_normalized_var",
    "Verif.C83_delete",
    "Verif.C83_delete_versions",
    "Verif.C83_delete_boundary"
   ],
   "note": "C83_argmin, C83_argmax, C83_arg_boundary, C83_normalized_var, C83_normalized_var_nan, C83_delete, C83_delete_versions (1.17 and 1.18 take the branch for old versions), C83_delete_boundary (versions are compared as strings; 1.9 is misjudged, but not supported). How numpy treats boolean arrays in np.delete is an assumption."
  },
  {
   "property": "C84",
   "status": "proved",
   "theorems": [
    "Verif.C84_fitted_isolated",
    "Verif.C84_hit_shared",
    "Verif.C84_third_call"
   ],
   "note": "C84_fitted_isolated, C84_hit_shared, C84_third_call (violation). Arrays and objects are references in a heap (Model/Heap.lean, Model/HeapCache.lean); the pairs (A, I) are values, since the cache stores copies of both."
  },
  {
   "property": "C85",
   "status": "proved",
   "theorems": [
    "Verif.C85_same_covariances",
    "Verif.C85_same_scores",
    "Verif.C85_returned_class",
    "Verif.C85_targets_needed"
   ],
   "note": "Covariances and scores over the reals. The matching models are shown to exist; nothing is said about whether the alternating procedure finds them."
  },
  {
   "property": "C86",
   "status": "proved",
   "theorems": [
    "Verif.C86_iteration",
    "Verif.C86_run",
    "Verif.C86_fitted",
    "Verif.C86_strict_gamma",
    "Verif.C86_strict_rest"
   ],
   "note": "One environment: with more the computed score is not the documented one (C37), which is what the B step minimises (C77). The score is the one of the returned parameters, not the returned number (C52)."
  },
  {
   "property": "C87",
   "status": "proved",
   "theorems": [
    "Verif.C87_returns_iff",
    "Verif.C87_near_optimal"
   ],
   "note": "One environment: with more, the score that the loop compares is not the function whose gradient it follows (C37, C78), and the loop can run forever (C79_adaptive_diverges)."
  },
  {
   "property": "C88",
   "status": "proved",
   "theorems": [
    "Verif.C88_truth_minimises",
    "Verif.C88_class_minimises",
    "Verif.C88_selection",
    "Verif.C88_stale_boundary"
   ],
   "note": "C88_truth_minimises, C88_class_minimises, C88_selection, C88_stale_boundary. The selection theorem is about lists of models as built by the constructor, not about the objects that _fit scores, whose stored I_B may be outdated (C52_stale); C88_stale_boundary shows that the restriction is needed, on an object with an outdated matrix chosen for the example."
  },
  {
   "property": "C89",
   "status": "proved",
   "theorems": [
    "Verif.C89_same_result",
    "Verif.C89_none",
    "Verif.C89_history"
   ],
   "note": "Content of the history for the default thresholds (None); that the result does not depend on the level is for all. Whether the dictionary's lists are shared with later code is not modelled."
  },
  {
   "property": "C90",
   "status": "proved",
   "theorems": [
    "Verif.C90_graph_phase",
    "Verif.C90_target_phase",
    "Verif.C90_direct_stale",
    "Verif.C90_violated_duplicate",
    "Verif.C90_violated_targets"
   ],
   "note": "A finding: the selection compares scores of two kinds of objects. The violations use learning_rate=0 and max_iter=1."
  },
  {
   "property": "C91",
   "status": "proved",
   "theorems": [
    "Verif.C91_nested",
    "Verif.C91_saturated",
    "Verif.C91_saturated_score"
   ],
   "note": "About the class of models a graph stands for, not about the parameters that the alternating optimisation finds. The weights of the complete graph are those computed by the regressions of the initialisation."
  },
  {
   "property": "C92",
   "status": "proved",
   "theorems": [
    "Verif.C92_latents",
    "Verif.C92_effect_not_identified"
   ],
   "note": "A user cannot compare gamma or psis of two fitted models directly."
  },
  {
   "property": "C93",
   "status": "proved",
   "theorems": [
    "Verif.C93_isDag",
    "Verif.C93_dag_to_cpdag",
    "Verif.C93_dag_to_icpdag",
    "Verif.C93_mec",
    "Verif.C93_imec",
    "Verif.C93_maximally_orient",
    "Verif.C93_pdag_to_cpdag",
    "Verif.C93_model"
   ],
   "note": "pdag_to_dag and all_dags (outside classes) are not covered: pdag_to_dag picks one extension, which one depends on the names."
  },
  {
   "property": "C94",
   "status": "proved",
   "theorems": [
    "Verif.C94_documented",
    "Verif.C94_covariances",
    "Verif.C94_swap_iff",
    "Verif.C94_selection_violated"
   ],
   "note": "A finding, a consequence of C37."
  },
  {
   "property": "C95",
   "status": "proved",
   "theorems": [
    "Verif.C95_larger_targets_worse",
    "Verif.C95_earlier_candidates_worse",
    "Verif.C95_population_in",
    "Verif.C95_population",
    "Verif.C95_violated",
    "Verif.C95_first_pruned"
   ],
   "note": "A finding. Exact fits are an assumption on Score.score_dag, met in the model by an explicit fit; the results for runs in general need no such assumption."
  },
  {
   "property": "C96",
   "status": "proved",
   "theorems": [
    "Verif.C96_rescaled_model",
    "Verif.C96_score",
    "Verif.C96_comparison",
    "Verif.C96_weakest_any",
    "Verif.C96_prune_any",
    "Verif.C96_target_order_any",
    "Verif.C96_threshold_any"
   ],
   "note": "A finding: the weights and variances compared by the pruning are not standardised. The conversion is of the model at which the pruning step is taken; it is not claimed that the optimiser finds the converted parameters."
  },
  {
   "property": "C97",
   "status": "proved",
   "theorems": [
    "Verif.C97_quadratic",
    "Verif.C97_symmetric",
    "Verif.C97_posSemidef",
    "Verif.C97_posDef_iff",
    "Verif.C97_singular",
    "Verif.C97_order",
    "Verif.C97_shift",
    "Verif.C97_units",
    "Verif.C97_means_irrelevant",
    "Verif.C97_pooled",
    "Verif.C97_pooled_any"
   ],
   "note": "A finding for equivalence_class_w_ges with pooled data (the default). That GES returns the wrong graph for such a covariance is not part of the claim."
  },
  {
   "property": "C98",
   "status": "proved",
   "theorems": [
    "Verif.C98_enough",
    "Verif.C98_too_few",
    "Verif.C98_no_third",
    "Verif.C98_single",
    "Verif.C98_silent"
   ],
   "note": "A finding. np.cov as in NumPy 1 with at least two variables. The documented ValueError for samples with a single observation is raised for training data only. Conditions for returning are those of C72."
  },
  {
   "property": "C99",
   "status": "proved",
   "theorems": [
    "Verif.C99_nearest",
    "Verif.C99_isDouble",
    "Verif.C99_fixed",
    "Verif.C99_ties",
    "Verif.C99_sum",
    "Verif.C99_accepted",
    "Verif.C99_decimals",
    "Verif.C99_folds",
    "Verif.C99_dropped_bound",
    "Verif.C99_exact",
    "Verif.C99_dyadic"
   ],
   "note": "A finding: decimal folds may be rejected, depending on their order. Model: np.sum adds fewer than eight numbers from left to right; exponents are unbounded."
  },
  {
   "property": "C100",
   "status": "proved",
   "theorems": [
    "Verif.C100_covariances",
    "Verif.C100_exists",
    "Verif.C100_unbiased",
    "Verif.C100_expected_score",
    "Verif.C100_model_samples"
   ],
   "note": "The score is the computed one, with the weights of C37."
  },
  {
   "property": "C101",
   "status": "proved",
   "theorems": [
    "Verif.C101_identified",
    "Verif.C101_one_environment",
    "Verif.C101_many_latents",
    "Verif.C101_separated",
    "Verif.C101_pairs",
    "Verif.C101_one_environment_latents",
    "Verif.C101_pairs_score",
    "Verif.C101_one_environment_score",
    "Verif.C101_pairs_sharp",
    "Verif.C101_one_environment_sharp"
   ],
   "note": "The converse of C85. The class returned by equivalence_class can neither be refined nor, without latents, be coarsened. The numbers of latents at which all graphs fit are exact for one and two environments; between zero and these numbers nothing is claimed about identifiability."
  },
  {
   "property": "C102",
   "status": "proved",
   "theorems": [
    "Verif.C102_effects_unique",
    "Verif.C102_rank_le",
    "Verif.C102_rank_eq",
    "Verif.C102_change",
    "Verif.C102_single_target",
    "Verif.C102_agree",
    "Verif.C102_returned",
    "Verif.C102_latents_change"
   ],
   "note": "A necessary condition users can test against their sample covariances: with psi_fixed the rank of the difference is a lower bound for the number of targets."
  },
  {
   "property": "C103",
   "status": "proved",
   "theorems": [
    "Verif.C103_weights_determined",
    "Verif.C103_gamma_stays",
    "Verif.C103_rest_stays",
    "Verif.C103_cvx_stays",
    "Verif.C103_fixed_point",
    "Verif.C103_grad_close",
    "Verif.C103_regression",
    "Verif.C103_initial_B",
    "Verif.C103_initial_model",
    "Verif.C103_recovers",
    "Verif.C103_latents_bias"
   ],
   "note": "For the convex solver, cvxpy is assumed to return an exact minimiser of its problem. The whole fit is exact when there are no latents; with latents the truth is a fixed point, but nothing is claimed about reaching it."
  },
  {
   "property": "C104",
   "status": "proved",
   "theorems": [
    "Verif.C104_exact",
    "Verif.C104_no_latents",
    "Verif.C104_prune_uncorrelated",
    "Verif.C104_example",
    "Verif.C104_prune_chain",
    "Verif.C104_prune",
    "Verif.C104_prune_example"
   ],
   "note": "cvxpy is assumed to return exact minimisers. An example with concrete samples and np.cov is proved (C104_example): the only target is variable 0, the code returns the right graph and both variables as targets. With prune_edges it is only shown what a call returns if it returns, and one kind of input for which it does not."
  },
  {
   "property": "C105",
   "status": "proved",
   "theorems": [
    "Verif.C105_float",
    "Verif.C105_descent_stays",
    "Verif.C105_moves",
    "Verif.C105_gamma_whole",
    "Verif.C105_rest_whole",
    "Verif.C105_gamma_stays",
    "Verif.C105_rest_stays",
    "Verif.C105_frozen",
    "Verif.C105_frozen_empty",
    "Verif.C105_violated"
   ],
   "note": "Element types of gamma, omegas and psis are tracked through copy, gradient descent and the loop; overflow of the integer type is not modelled."
  },
  {
   "property": "C106",
   "status": "proved",
   "theorems": [
    "Verif.C106_default_start",
    "Verif.C106_after_B",
    "Verif.C106_violated",
    "Verif.C106_documented_violated"
   ],
   "note": "Counterexamples to the extension of C86 to several environments, together with the part that holds."
  },
  {
   "property": "C107",
   "status": "proved",
   "theorems": [
    "Verif.C107_graph",
    "Verif.C107_subgraph",
    "Verif.C107_extremes",
    "Verif.C107_negative",
    "Verif.C107_all",
    "Verif.C107_fit",
    "Verif.C107_population",
    "Verif.C107_exact",
    "Verif.C107_documented_violated"
   ],
   "note": "The arguments threshold_graph and threshold_I of _fit cannot be set through the public functions."
  },
  {
   "property": "C108",
   "status": "proved",
   "theorems": [
    "Verif.C108_cvx_fit",
    "Verif.C108_cvx",
    "Verif.C108_grad_depends",
    "Verif.C108_adaptive_depends",
    "Verif.C108_documented_violated"
   ],
   "note": "The draws of the global generator are arguments of the model of the solvers; the theorems compare calls that differ only in them."
  },
  {
   "property": "C109",
   "status": "proved",
   "theorems": [
    "Verif.C109_documented",
    "Verif.C109_limit",
    "Verif.C109_selection",
    "Verif.C109_inconsistent"
   ],
   "note": "Limits are those of mathlib; the score is the one of the model of Model.score with exact reals."
  },
  {
   "property": "C110",
   "status": "proved",
   "theorems": [
    "Verif.C110_shape",
    "Verif.C110_score_dag",
    "Verif.C110_single_variable",
    "Verif.C110_size"
   ],
   "note": "Shapes are modelled as lists of axis lengths; for graphs of another size only the exceptions of the first steps of score_dag are modelled."
  },
  {
   "property": "C111",
   "status": "proved",
   "theorems": [
    "Verif.C111_call",
    "Verif.C111_candidates",
    "Verif.C111_pruned",
    "Verif.C111_one_candidate",
    "Verif.C111_targets",
    "Verif.C111_run"
   ],
   "note": "Fits are counted per Score object (one for each number of latents)."
  },
  {
   "property": "C112",
   "status": "proved",
   "theorems": [
    "Verif.C112_correspond",
    "Verif.C112_same_targets",
    "Verif.C112_all_targets",
    "Verif.C112_latents_change",
    "Verif.C112_proportional",
    "Verif.C112_targets_needed",
    "Verif.C112_example",
    "Verif.C112_latent_example",
    "Verif.C112_score",
    "Verif.C112_contains",
    "Verif.C112_returned",
    "Verif.C112_population",
    "Verif.C112_no_latents"
   ],
   "note": "A positive result for users who set psi_fixed and intervene on all variables. Fits with latents are assumed exact under psi_fixed; without latents cvxpy is assumed to return exact minimisers."
  },
  {
   "property": "C113",
   "status": "proved",
   "theorems": [
    "Verif.C113_close",
    "Verif.C113_margin",
    "Verif.C113_attained",
    "Verif.C113_closed",
    "Verif.C113_no_latents",
    "Verif.C113_edges",
    "Verif.C113_documented",
    "Verif.C113_sizes_matter",
    "Verif.C113_latents",
    "Verif.C113_example",
    "Verif.C113_fit_close",
    "Verif.C113_returned"
   ],
   "note": "Consistency in the deterministic sense; for probabilities see C119, C120 and C123. The bound exists but is not computed. The claim about the code's weights is a violation for growing samples, from the weight formula of C37 and C38."
  },
  {
   "property": "C114",
   "status": "proved",
   "theorems": [
    "Verif.C114_chain_component",
    "Verif.C114_all_dags_dag",
    "Verif.C114_all_dags",
    "Verif.C114_degrees",
    "Verif.C114_degrees_cpdag",
    "Verif.C114_moral_graph",
    "Verif.C114_moral_graph_cpdag",
    "Verif.C114_label_edges",
    "Verif.C114_undirect",
    "Verif.C114_icpdag",
    "Verif.C114_chain_graph",
    "Verif.C114_imec_all",
    "Verif.C114_directed_edges",
    "Verif.C114_remove_all",
    "Verif.C114_add_all",
    "Verif.C114_maximally_orient",
    "Verif.C114_sort",
    "Verif.C114_induced",
    "Verif.C114_split_equal",
    "Verif.C114_split_halves",
    "Verif.C114_covariances",
    "Verif.C114_covariances_zero",
    "Verif.C114_covariances_one"
   ],
   "note": "SuiteLiterals.lean in addition evaluates the model on the literal inputs of test_utils.py and test_pdag_to_cpdag.py and compares with the literal expected values; these are checks of the model, not proofs."
  },
  {
   "property": "C115",
   "status": "proved",
   "theorems": [
    "Verif.C115_markov_equiv_iff",
    "Verif.C115_adjacent_iff",
    "Verif.C115_mec",
    "Verif.C115_cpdag",
    "Verif.C115_cpdag_directed",
    "Verif.C115_extensions",
    "Verif.C115_targets_iff",
    "Verif.C115_imec"
   ],
   "note": "proof of the theorem of Verma and Pearl via covered edge reversals"
  },
  {
   "property": "C116",
   "status": "proved",
   "theorems": [
    "Verif.C116_global_markov",
    "Verif.C116_global_markov_latents",
    "Verif.C116_precision",
    "Verif.C116_regression"
   ],
   "note": ""
  },
  {
   "property": "C117",
   "status": "proved",
   "theorems": [
    "Verif.C117_faithful",
    "Verif.C117_faithful_latents",
    "Verif.C117_dense_latents",
    "Verif.C117_sparsest",
    "Verif.C117_sparsest_observational",
    "Verif.C117_no_edge_missed",
    "Verif.C117_generator",
    "Verif.C117_equivalence_class"
   ],
   "note": ""
  },
  {
   "property": "C118",
   "status": "proved",
   "theorems": [
    "Verif.C118_graph_probability",
    "Verif.C118_support",
    "Verif.C118_edge_probability",
    "Verif.C118_random_model",
    "Verif.C118_not_uniform"
   ],
   "note": ""
  },
  {
   "property": "C119",
   "status": "proved",
   "theorems": [
    "Verif.C119_fit",
    "Verif.C119_targets_ignored",
    "Verif.C119_almost_optimal",
    "Verif.C119_all_targets"
   ],
   "note": ""
  },
  {
   "property": "C120",
   "status": "proved",
   "theorems": [
    "Verif.C120_small_errors",
    "Verif.C120_consistent",
    "Verif.C120_markov_class",
    "Verif.C120_model",
    "Verif.C120_strong_law",
    "Verif.C120_in_probability"
   ],
   "note": ""
  },
  {
   "property": "C121",
   "status": "proved",
   "theorems": [
    "Verif.C121_truth",
    "Verif.C121_target_missed",
    "Verif.C121_inconsistent"
   ],
   "note": ""
  },
  {
   "property": "C122",
   "status": "proved",
   "theorems": [
    "Verif.C122_variances",
    "Verif.C122_last_weight",
    "Verif.C122_last_environment",
    "Verif.C122_consistent_parameters",
    "Verif.C122_no_latents",
    "Verif.C122_returned",
    "Verif.C122_parameters",
    "Verif.C122_weights"
   ],
   "note": ""
  },
  {
   "property": "C123",
   "status": "proved",
   "theorems": [
    "Verif.C123_consistent",
    "Verif.C123_case"
   ],
   "note": ""
  },
  {
   "property": "C124",
   "status": "proved",
   "theorems": [
    "Verif.C124_truth",
    "Verif.C124_false_target",
    "Verif.C124_inconsistent"
   ],
   "note": ""
  },
  {
   "property": "C125",
   "status": "proved",
   "theorems": [
    "Verif.C125_superfluous_edge",
    "Verif.C125_inconsistent"
   ],
   "note": ""
  },
  {
   "property": "C126",
   "status": "proved",
   "theorems": [
    "Verif.C126_same_score",
    "Verif.C126_first",
    "Verif.C126_pruned",
    "Verif.C126_class",
    "Verif.C126_ges"
   ],
   "note": ""
  },
  {
   "property": "C127",
   "status": "proved",
   "theorems": [
    "Verif.C127_returns",
    "Verif.C127_prune_returns",
    "Verif.C127_ges_returns",
    "Verif.C127_density"
   ],
   "note": ""
  },
  {
   "property": "C128",
   "status": "proved",
   "theorems": [
    "Verif.C128_folds_unbiased",
    "Verif.C128_targets_fair",
    "Verif.C128_targets_fair_tuple",
    "Verif.C128_subgraphs_fair"
   ],
   "note": ""
  },
  {
   "property": "C129",
   "status": "proved",
   "theorems": [
    "Verif.C129_simulation"
   ],
   "note": ""
  },
  {
   "property": "C130",
   "status": "proved",
   "theorems": [
    "Verif.C130_text",
    "Verif.C130_raises",
    "Verif.C130_returned",
    "Verif.C130_verbose"
   ],
   "note": ""
  },
  {
   "property": "C131",
   "status": "proved",
   "theorems": [
    "Verif.C131_any_sort",
    "Verif.C131_nan_boundary"
   ],
   "note": ""
  },
  {
   "property": "C132",
   "status": "proved",
   "theorems": [
    "Verif.C132_covariance",
    "Verif.C132_no_latents",
    "Verif.C132_parameters",
    "Verif.C132_almost_surely",
    "Verif.C132_simulation"
   ],
   "note": ""
  },
  {
   "property": "C133",
   "status": "proved",
   "theorems": [
    "Verif.C133_printed",
    "Verif.C133_first_variable",
    "Verif.C133_no_environment"
   ],
   "note": ""
  },
  {
   "property": "C134",
   "status": "proved",
   "theorems": [
    "Verif.C134_errors",
    "Verif.C134_root_n",
    "Verif.C134_one_environment",
    "Verif.C134_strongly_consistent",
    "Verif.C134_latents"
   ],
   "note": ""
  },
  {
   "property": "C135",
   "status": "proved",
   "theorems": [
    "Verif.C135_same_result",
    "Verif.C135_levels",
    "Verif.C135_silent",
    "Verif.C135_graphs",
    "Verif.C135_each_edge_once",
    "Verif.C135_edges",
    "Verif.C135_targets",
    "Verif.C135_summary",
    "Verif.C135_latents",
    "Verif.C135_threshold",
    "Verif.C135_threshold_targets",
    "Verif.C135_scree"
   ],
   "note": ""
  },
  {
   "property": "C136",
   "status": "proved",
   "theorems": [
    "Verif.C136_descent",
    "Verif.C136_descent_same",
    "Verif.C136_iterations",
    "Verif.C136_level_one",
    "Verif.C136_values",
    "Verif.C136_silent",
    "Verif.C136_same_result",
    "Verif.C136_cached",
    "Verif.C136_returns"
   ],
   "note": ""
  },
  {
   "property": "C137",
   "status": "proved",
   "theorems": [
    "Verif.C137_class_size",
    "Verif.C137_tree",
    "Verif.C137_all_orientations",
    "Verif.C137_complete_undirected"
   ],
   "note": ""
  },
  {
   "property": "C138",
   "status": "proved",
   "theorems": [
    "Verif.C138_warnings",
    "Verif.C138_bound",
    "Verif.C138_no_overflow",
    "Verif.C138_same_warnings",
    "Verif.C138_silent"
   ],
   "note": ""
  },
  {
   "property": "C139",
   "status": "proved",
   "theorems": [
    "Verif.C139_given",
    "Verif.C139_default",
    "Verif.C139_penalties",
    "Verif.C139_no_environment",
    "Verif.C139_no_penalties",
    "Verif.C139_more_candidates",
    "Verif.C139_more_choices"
   ],
   "note": ""
  },
  {
   "property": "C140",
   "status": "proved",
   "theorems": [
    "Verif.C140_useful_iff",
    "Verif.C140_targets_directed",
    "Verif.C140_imec",
    "Verif.C140_identified_iff",
    "Verif.C140_cover",
    "Verif.C140_at_most",
    "Verif.C140_attained"
   ],
   "note": ""
  },
  {
   "property": "C141",
   "status": "proved",
   "theorems": [
    "Verif.C141_round",
    "Verif.C141_cancel",
    "Verif.C141_parts",
    "Verif.C141_is_dag",
    "Verif.C141_skeleton",
    "Verif.C141_essential",
    "Verif.C141_classes",
    "Verif.C141_raises",
    "Verif.C141_only_nan",
    "Verif.C141_nan",
    "Verif.C141_rounding"
   ],
   "note": ""
  },
  {
   "property": "C142",
   "status": "proved",
   "theorems": [
    "Verif.C142_same_result",
    "Verif.C142_candidates",
    "Verif.C142_search",
    "Verif.C142_stuck",
    "Verif.C142_orientations",
    "Verif.C142_rules",
    "Verif.C142_shared",
    "Verif.C142_icpdag",
    "Verif.C142_consistent_extension",
    "Verif.C142_average_degree"
   ],
   "note": ""
  },
  {
   "property": "C143",
   "status": "proved",
   "theorems": [
    "Verif.C143_exact",
    "Verif.C143_any_scores",
    "Verif.C143_near_best",
    "Verif.C143_same",
    "Verif.C143_returns",
    "Verif.C143_ties"
   ],
   "note": ""
  },
  {
   "property": "C144",
   "status": "proved",
   "theorems": [
    "Verif.C144_pdag_to_dag",
    "Verif.C144_maximally_orient",
    "Verif.C144_essential",
    "Verif.C144_all_dags",
    "Verif.C144_small_weights"
   ],
   "note": ""
  },
  {
   "property": "C145",
   "status": "proved",
   "theorems": [
    "Verif.C145_edges",
    "Verif.C145_paths",
    "Verif.C145_cancelling",
    "Verif.C145_no_cancelling",
    "Verif.C145_to_factorization",
    "Verif.C145_is_supergraph",
    "Verif.C145_has_subgraph",
    "Verif.C145_random_edges",
    "Verif.C145_cancelling_example"
   ],
   "note": ""
  },
  {
   "property": "C146",
   "status": "proved",
   "theorems": [
    "Verif.C146_is_dag_exact",
    "Verif.C146_occurrences",
    "Verif.C146_iteration_order",
    "Verif.C146_dag_accepted",
    "Verif.C146_essential",
    "Verif.C146_classes",
    "Verif.C146_float_exact",
    "Verif.C146_float_dag",
    "Verif.C146_float_essential",
    "Verif.C146_violated"
   ],
   "note": ""
  },
  {
   "property": "C147",
   "status": "proved",
   "theorems": [
    "Verif.C147_regular",
    "Verif.C147_raises",
    "Verif.C147_exact",
    "Verif.C147_no_latents",
    "Verif.C147_verbose",
    "Verif.C147_verbose_regular",
    "Verif.C147_verbose_violated"
   ],
   "note": ""
  },
  {
   "property": "C148",
   "status": "proved",
   "theorems": [
    "Verif.C148_exact",
    "Verif.C148_value",
    "Verif.C148_proper",
    "Verif.C148_sparse",
    "Verif.C148_chain",
    "Verif.C148_random",
    "Verif.C148_targets"
   ],
   "note": ""
  },
  {
   "property": "C149",
   "status": "proved",
   "theorems": [
    "Verif.C149_returns_iff",
    "Verif.C149_float_returns_iff",
    "Verif.C149_correct",
    "Verif.C149_float_correct",
    "Verif.C149_float_classes",
    "Verif.C149_wrong_graph"
   ],
   "note": ""
  },
  {
   "property": "C150",
   "status": "proved",
   "theorems": [
    "Verif.C150_coherent",
    "Verif.C150_targets",
    "Verif.C150_essential",
    "Verif.C150_index_error",
    "Verif.C150_collider",
    "Verif.C150_wrong_graph",
    "Verif.C150_not_pruned",
    "Verif.C150_returns",
    "Verif.C150_collider_occurs",
    "Verif.C150_wrong_graph_occurs"
   ],
   "note": ""
  },
  {
   "property": "C151",
   "status": "proved",
   "theorems": [
    "Verif.C151_to_factorization",
    "Verif.C151_essential",
    "Verif.C151_all_dags",
    "Verif.C151_integers",
    "Verif.C151_index_error",
    "Verif.C151_accepts_cycles"
   ],
   "note": ""
  },
  {
   "property": "C152",
   "status": "proved",
   "theorems": [
    "Verif.C152_nonpositive",
    "Verif.C152_nonpositive_float",
    "Verif.C152_model",
    "Verif.C152_sample_parameters",
    "Verif.C152_cycle_accepted"
   ],
   "note": ""
  },
  {
   "property": "C153",
   "status": "proved",
   "theorems": [
    "Verif.C153_cyclic",
    "Verif.C153_cyclic_float",
    "Verif.C153_equivalence_class",
    "Verif.C153_both_errors"
   ],
   "note": ""
  },
  {
   "property": "C154",
   "status": "proved",
   "theorems": [
    "Verif.C154_is_dag_exact",
    "Verif.C154_no_overflow",
    "Verif.C154_small_entries",
    "Verif.C154_dag",
    "Verif.C154_cyclic",
    "Verif.C154_overflow"
   ],
   "note": ""
  },
  {
   "property": "C155",
   "status": "proved",
   "theorems": [
    "Verif.C155_sound",
    "Verif.C155_sound_float",
    "Verif.C155_imec",
    "Verif.C155_incomplete",
    "Verif.C155_equivalence_class"
   ],
   "note": ""
  },
  {
   "property": "C156",
   "status": "proved",
   "theorems": [
    "Verif.C156_cpdag",
    "Verif.C156_cpdag_float",
    "Verif.C156_icpdag",
    "Verif.C156_icpdag_float",
    "Verif.C156_no_assertion",
    "Verif.C156_no_assertion_float",
    "Verif.C156_mec"
   ],
   "note": ""
  },
  {
   "property": "C157",
   "status": "proved",
   "theorems": [
    "Verif.C157_cpdag",
    "Verif.C157_icpdag",
    "Verif.C157_equivalence_class",
    "Verif.C157_pdag_cpdag",
    "Verif.C157_pdag_icpdag"
   ],
   "note": ""
  },
  {
   "property": "C158",
   "status": "proved",
   "theorems": [
    "Verif.C158_no_targets",
    "Verif.C158_monotone",
    "Verif.C158_all_edges",
    "Verif.C158_equivalence_class",
    "Verif.C158_imec"
   ],
   "note": ""
  },
  {
   "property": "C159",
   "status": "proved",
   "theorems": [
    "Verif.C159_nodes",
    "Verif.C159_na",
    "Verif.C159_is_clique",
    "Verif.C159_induced_subgraph",
    "Verif.C159_dag_to_icpdag",
    "Verif.C159_essential",
    "Verif.C159_pdag_to_icpdag",
    "Verif.C159_chain_component",
    "Verif.C159_rules",
    "Verif.C159_rules_errors",
    "Verif.C159_chain_imec"
   ],
   "note": ""
  },
  {
   "property": "C160",
   "status": "proved",
   "theorems": [
    "Verif.C160_paths",
    "Verif.C160_unreachable",
    "Verif.C160_separates",
    "Verif.C160_separates_outside",
    "Verif.C160_negative_targets"
   ],
   "note": ""
  },
  {
   "property": "C161",
   "status": "proved",
   "theorems": [
    "Verif.C161_fit",
    "Verif.C161_non_targets",
    "Verif.C161_fitted_again"
   ],
   "note": ""
  }
 ]
}