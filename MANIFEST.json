{
 "claims": [
  {
   "property": "C01",
   "status": "proved",
   "theorems": [
    "Verif.C01_one_hot",
    "Verif.C01_number_of_ones",
    "Verif.C01_negative"
   ],
   "note": ""
  },
  {
   "property": "C02",
   "status": "proved",
   "theorems": [
    "Verif.C02_continuous_view"
   ],
   "note": ""
  },
  {
   "property": "C03",
   "status": "proved",
   "theorems": [
    "Verif.C03_remove",
    "Verif.C03_add",
    "Verif.C03_addVector",
    "Verif.C03_history"
   ],
   "note": ""
  },
  {
   "property": "C04",
   "status": "proved",
   "theorems": [
    "Verif.C04_subset_valid",
    "Verif.C04_subset_invalid"
   ],
   "note": ""
  },
  {
   "property": "C05",
   "status": "partial",
   "theorems": [
    "Verif.C05_refuted",
    "Verif.C05_partial"
   ],
   "note": "False of the code: projecting a composite instance gives a plain instance (C05_refuted). C05_partial: the possible labels survive exactly when they are the class label alone."
  },
  {
   "property": "C06",
   "status": "partial",
   "theorems": [
    "Verif.C06_refuted",
    "Verif.C06_partial"
   ],
   "note": "False of the code: the constructor removes the first label from the possible labels (C06_refuted). C06_partial: the class is possible exactly when it is listed again."
  },
  {
   "property": "C07",
   "status": "proved",
   "theorems": [
    "Verif.C07_distinct_class_labels"
   ],
   "note": ""
  },
  {
   "property": "C08",
   "status": "proved",
   "theorems": [
    "Verif.C08_union_of_possible",
    "Verif.C08_plain"
   ],
   "note": ""
  },
  {
   "property": "C09",
   "status": "proved",
   "theorems": [
    "Verif.C09_attribute_values"
   ],
   "note": ""
  },
  {
   "property": "C10",
   "status": "proved",
   "theorems": [
    "Verif.C10_class_distribution",
    "Verif.C10_number_of_classes"
   ],
   "note": ""
  },
  {
   "property": "C11",
   "status": "proved",
   "theorems": [
    "Verif.C11_contingency",
    "Verif.C11_margin"
   ],
   "note": ""
  },
  {
   "property": "C12",
   "status": "proved",
   "theorems": [
    "Verif.C12_indexed_distribution"
   ],
   "note": ""
  },
  {
   "property": "C13",
   "status": "proved",
   "theorems": [
    "Verif.C13_sort_by_attribute"
   ],
   "note": ""
  },
  {
   "property": "C14",
   "status": "proved",
   "theorems": [
    "Verif.C14_sort_by_class",
    "Verif.C14_blocks"
   ],
   "note": ""
  },
  {
   "property": "C15",
   "status": "proved",
   "theorems": [
    "Verif.C15_shuffle_perm",
    "Verif.C15_shuffle_distribution"
   ],
   "note": ""
  },
  {
   "property": "C16",
   "status": "proved",
   "theorems": [
    "Verif.C16_mean",
    "Verif.C16_mean_facts",
    "Verif.C16_mode",
    "Verif.C16_null",
    "Verif.C16_average"
   ],
   "note": ""
  },
  {
   "property": "C17",
   "status": "proved",
   "theorems": [
    "Verif.C17_sample_sd",
    "Verif.C17_facts"
   ],
   "note": ""
  },
  {
   "property": "C18",
   "status": "proved",
   "theorems": [
    "Verif.C18_covariance",
    "Verif.C18_symmetric_psd",
    "Verif.C18_diagonal"
   ],
   "note": ""
  },
  {
   "property": "C19",
   "status": "proved",
   "theorems": [
    "Verif.C19_relative_frequencies",
    "Verif.C19_probability_vector",
    "Verif.C19_unknown_index_ub"
   ],
   "note": ""
  },
  {
   "property": "C20",
   "status": "proved",
   "theorems": [
    "Verif.C20_partition_by_class"
   ],
   "note": ""
  },
  {
   "property": "C21",
   "status": "proved",
   "theorems": [
    "Verif.C21_partition_by_discrete"
   ],
   "note": ""
  },
  {
   "property": "C22",
   "status": "proved",
   "theorems": [
    "Verif.C22_partition_by_indexed"
   ],
   "note": ""
  },
  {
   "property": "C23",
   "status": "proved",
   "theorems": [
    "Verif.C23_partition_by_threshold"
   ],
   "note": ""
  },
  {
   "property": "C24",
   "status": "proved",
   "theorems": [
    "Verif.C24_random_split"
   ],
   "note": ""
  },
  {
   "property": "C25",
   "status": "proved",
   "theorems": [
    "Verif.C25_stratified_split",
    "Verif.C25_class_counts"
   ],
   "note": ""
  },
  {
   "property": "C26",
   "status": "partial",
   "theorems": [
    "Verif.C26_refuted",
    "Verif.C26_partial"
   ],
   "note": "The data-set check looks only at the attributes an instance has, so instances shorter than the definition are admitted; the theorems state the exact acceptance test."
  },
  {
   "property": "C27",
   "status": "proved",
   "theorems": [
    "Verif.C27_step",
    "Verif.C27_history",
    "Verif.C27_first"
   ],
   "note": ""
  },
  {
   "property": "C28",
   "status": "proved",
   "theorems": [
    "Verif.C28_counts"
   ],
   "note": ""
  },
  {
   "property": "C29",
   "status": "proved",
   "theorems": [
    "Verif.C29_value_index",
    "Verif.C29_no_value_list",
    "Verif.C29_one_hot"
   ],
   "note": ""
  },
  {
   "property": "C30",
   "status": "proved",
   "theorems": [
    "Verif.C30_projection"
   ],
   "note": ""
  },
  {
   "property": "C31",
   "status": "partial",
   "theorems": [
    "Verif.C31_partial",
    "Verif.C31_numbers_refuted",
    "Verif.C31_comma_value"
   ],
   "note": "Exact for discrete attributes; continuous values are printed by std::to_string with six decimals, so they come back only when that text determines them (hypothesis of the theorem)."
  },
  {
   "property": "C32",
   "status": "proved",
   "theorems": [
    "Verif.C32_rows",
    "Verif.C32_types"
   ],
   "note": ""
  },
  {
   "property": "C33",
   "status": "proved",
   "theorems": [
    "Verif.C33_cells",
    "Verif.C33_sums"
   ],
   "note": ""
  },
  {
   "property": "C34",
   "status": "proved",
   "theorems": [
    "Verif.C34_pooling",
    "Verif.C34_cells_and_accuracy",
    "Verif.C34_tested_in_parts"
   ],
   "note": ""
  },
  {
   "property": "C35",
   "status": "proved",
   "theorems": [
    "Verif.C35_accuracy",
    "Verif.C35_range",
    "Verif.C35_empty"
   ],
   "note": ""
  },
  {
   "property": "C36",
   "status": "proved",
   "theorems": [
    "Verif.C36_weighted_fmeasure",
    "Verif.C36_precision_recall",
    "Verif.C36_range",
    "Verif.C36_fmeasure"
   ],
   "note": ""
  },
  {
   "property": "C37",
   "status": "partial",
   "theorems": [
    "Verif.C37_refuted",
    "Verif.C37_reachable",
    "Verif.C37_partial"
   ],
   "note": "False of the code for a label that never was the actual class: the array entry is never written (C37_refuted; reachable through Model::test, C37_reachable). C37_partial: defined exactly when every label occurs as actual class."
  },
  {
   "property": "C38",
   "status": "proved",
   "theorems": [
    "Verif.C38_complementary"
   ],
   "note": ""
  },
  {
   "property": "C39",
   "status": "proved",
   "theorems": [
    "Verif.C39_recorded",
    "Verif.C39_accuracy"
   ],
   "note": ""
  },
  {
   "property": "C40",
   "status": "proved",
   "theorems": [
    "Verif.C40_mean_and_deviation",
    "Verif.C40_order_independent",
    "Verif.C40_classification",
    "Verif.C40_too_few"
   ],
   "note": ""
  },
  {
   "property": "C41",
   "status": "partial",
   "theorems": [
    "Verif.C41_refuted",
    "Verif.C41_detailed_refuted",
    "Verif.C41_file_refuted",
    "Verif.C41_partial"
   ],
   "note": "False of the code: a summary looks only at the kind of the result added last and a result read from a file counts as a plain error rate (C41_*refuted). C41_partial: it holds when all results are of one kind."
  },
  {
   "property": "C42",
   "status": "proved",
   "theorems": [
    "Verif.C42_strict_order"
   ],
   "note": ""
  },
  {
   "property": "C43",
   "status": "proved",
   "theorems": [
    "Verif.C43_test",
    "Verif.C43_testClassifier",
    "Verif.C43_errors_propagate",
    "Verif.C43_single_run"
   ],
   "note": ""
  },
  {
   "property": "C44",
   "status": "proved",
   "theorems": [
    "Verif.C44_majority",
    "Verif.C44_empty"
   ],
   "note": ""
  },
  {
   "property": "C45",
   "status": "proved",
   "theorems": [
    "Verif.C45_exactly",
    "Verif.C45_lda_qda",
    "Verif.C45_discrete_check"
   ],
   "note": ""
  },
  {
   "property": "C46",
   "status": "proved",
   "theorems": [
    "Verif.C46_plain",
    "Verif.C46_composite"
   ],
   "note": ""
  },
  {
   "property": "C47",
   "status": "proved",
   "theorems": [
    "Verif.C47_dummy",
    "Verif.C47_random",
    "Verif.C47_random_trained"
   ],
   "note": ""
  },
  {
   "property": "C48",
   "status": "proved",
   "theorems": [
    "Verif.C48_random",
    "Verif.C48_all_labels",
    "Verif.C48_trained_labels"
   ],
   "note": ""
  },
  {
   "property": "C49",
   "status": "proved",
   "theorems": [
    "Verif.C49_nearest"
   ],
   "note": ""
  },
  {
   "property": "C50",
   "status": "proved",
   "theorems": [
    "Verif.C50_vote",
    "Verif.C50_possible",
    "Verif.C50_probability"
   ],
   "note": ""
  },
  {
   "property": "C51",
   "status": "proved",
   "theorems": [
    "Verif.C51_sum",
    "Verif.C51_short",
    "Verif.C51_metric"
   ],
   "note": ""
  },
  {
   "property": "C52",
   "status": "proved",
   "theorems": [
    "Verif.C52_argmax",
    "Verif.C52_default"
   ],
   "note": ""
  },
  {
   "property": "C53",
   "status": "partial",
   "theorems": [
    "Verif.C53_nearest_mean_partial",
    "Verif.C53_euclidean_partial",
    "Verif.C53_refuted"
   ],
   "note": "False of the code for binary and indexed columns, whose mean attribute is a null pointer (C53_refuted). Proved for continuous data."
  },
  {
   "property": "C54",
   "status": "proved",
   "theorems": [
    "Verif.C54_score"
   ],
   "note": ""
  },
  {
   "property": "C55",
   "status": "partial",
   "theorems": [
    "Verif.C55_deep_again",
    "Verif.C55_deep_refuted",
    "Verif.C55_networks_partial",
    "Verif.C55_knn_kmeans_partial",
    "Verif.C55_lda_weights_never_change",
    "Verif.C55_qda_weights_never_change",
    "Verif.C55_nb_statistics_never_change",
    "Verif.C55_lda_refuted",
    "Verif.C55_qda_refuted",
    "Verif.C55_nb_refuted",
    "Verif.C55_svm_refuted",
    "Verif.C55_ensemble_keeps_old_trees",
    "Verif.C55_ensemble_refuted"
   ],
   "note": "False of the code for LDA, QDA, naive Bayes (statistics are emplaced into maps that are not cleared), for the ensembles and the SVM (lists are appended to) and for deep networks (training again throws out_of_range, C55_deep_refuted). Proved for k-NN, k-means, the perceptrons and the autoencoder."
  },
  {
   "property": "C56",
   "status": "proved",
   "theorems": [
    "Verif.C56_growth_terminates",
    "Verif.C56_training_terminates"
   ],
   "note": ""
  },
  {
   "property": "C57",
   "status": "proved",
   "theorems": [
    "Verif.C57_training_routing",
    "Verif.C57_predicts_leaf_label"
   ],
   "note": ""
  },
  {
   "property": "C58",
   "status": "proved",
   "theorems": [
    "Verif.C58_predicts_training_label"
   ],
   "note": ""
  },
  {
   "property": "C59",
   "status": "proved",
   "theorems": [
    "Verif.C59_at_least_majority"
   ],
   "note": ""
  },
  {
   "property": "C60",
   "status": "proved",
   "theorems": [
    "Verif.C60_stump"
   ],
   "note": ""
  },
  {
   "property": "C61",
   "status": "proved",
   "theorems": [
    "Verif.C61_every_cut_keeps_accuracy",
    "Verif.C61_root_decision",
    "Verif.C61_prune_never_worse",
    "Verif.C61_training"
   ],
   "note": ""
  },
  {
   "property": "C62",
   "status": "proved",
   "theorems": [
    "Verif.C62_prune_only_cuts",
    "Verif.C62_leaf_unchanged"
   ],
   "note": ""
  },
  {
   "property": "C63",
   "status": "proved",
   "theorems": [
    "Verif.C63_composite_label",
    "Verif.C63_composite_total"
   ],
   "note": ""
  },
  {
   "property": "C64",
   "status": "proved",
   "theorems": [
    "Verif.C64_majority_vote",
    "Verif.C64_probability"
   ],
   "note": ""
  },
  {
   "property": "C65",
   "status": "proved",
   "theorems": [
    "Verif.C65_trees",
    "Verif.C65_sample",
    "Verif.C65_training_succeeds"
   ],
   "note": ""
  },
  {
   "property": "C66",
   "status": "proved",
   "theorems": [
    "Verif.C66_sparse",
    "Verif.C66_dot"
   ],
   "note": ""
  },
  {
   "property": "C67",
   "status": "proved",
   "theorems": [
    "Verif.C67_predict_kernel",
    "Verif.C67_symmetric",
    "Verif.C67_rbf_range",
    "Verif.C67_training_kernel"
   ],
   "note": ""
  },
  {
   "property": "C68",
   "status": "proved",
   "theorems": [
    "Verif.C68_feasible"
   ],
   "note": "Exact arithmetic (division by zero gives 0, where double gives an infinity that is then clipped); every problem whose gradients fit a double."
  },
  {
   "property": "C69",
   "status": "proved",
   "theorems": [
    "Verif.C69_select"
   ],
   "note": ""
  },
  {
   "property": "C70",
   "status": "proved",
   "theorems": [
    "Verif.C70_swaps",
    "Verif.C70_reachable"
   ],
   "note": ""
  },
  {
   "property": "C71",
   "status": "partial",
   "theorems": [
    "Verif.C71_unpermuted_partial",
    "Verif.C71_early_stop_partial",
    "Verif.C71_refuted"
   ],
   "note": "False of the code: the copy back is done in place, so after shrinking has permuted the rows multipliers may be overwritten (C71_refuted: three points, reported multipliers violate the equality constraint). Proved: the report is right whenever the rows are in their original places, in particular when the solver stops within min(l, 1000) rounds."
  },
  {
   "property": "C72",
   "status": "proved",
   "theorems": [
    "Verif.C72_voting",
    "Verif.C72_unanimous"
   ],
   "note": ""
  },
  {
   "property": "C73",
   "status": "proved",
   "theorems": [
    "Verif.C73_class_blocks"
   ],
   "note": ""
  },
  {
   "property": "C74",
   "status": "proved",
   "theorems": [
    "Verif.C74_softmax"
   ],
   "note": ""
  },
  {
   "property": "C75",
   "status": "proved",
   "theorems": [
    "Verif.C75_output_error",
    "Verif.C75_defined"
   ],
   "note": ""
  },
  {
   "property": "C76",
   "status": "proved",
   "theorems": [
    "Verif.C76_composite",
    "Verif.C76_plain",
    "Verif.C76_predict"
   ],
   "note": ""
  },
  {
   "property": "C77",
   "status": "proved",
   "theorems": [
    "Verif.C77_perceptron",
    "Verif.C77_multilayer",
    "Verif.C77_deep"
   ],
   "note": ""
  },
  {
   "property": "C78",
   "status": "proved",
   "theorems": [
    "Verif.C78_autoencoder"
   ],
   "note": ""
  },
  {
   "property": "C79",
   "status": "proved",
   "theorems": [
    "Verif.C79_convex_combination"
   ],
   "note": ""
  },
  {
   "property": "C80",
   "status": "proved",
   "theorems": [
    "Verif.C80_candidates",
    "Verif.C80_number",
    "Verif.C80_valid",
    "Verif.C80_initial"
   ],
   "note": ""
  },
  {
   "property": "C81",
   "status": "proved",
   "theorems": [
    "Verif.C81_bound",
    "Verif.C81_terminates"
   ],
   "note": ""
  },
  {
   "property": "C82",
   "status": "proved",
   "theorems": [
    "Verif.C82_local_optimum"
   ],
   "note": ""
  },
  {
   "property": "C83",
   "status": "proved",
   "theorems": [
    "Verif.C83_no_repetition"
   ],
   "note": ""
  },
  {
   "property": "C84",
   "status": "proved",
   "theorems": [
    "Verif.C84_kfold",
    "Verif.C84_stratified",
    "Verif.C84_succeeds",
    "Verif.C84_disjoint"
   ],
   "note": ""
  },
  {
   "property": "C85",
   "status": "proved",
   "theorems": [
    "Verif.C85_separate",
    "Verif.C85_separate_stratified",
    "Verif.C85_single_repetition"
   ],
   "note": ""
  },
  {
   "property": "C86",
   "status": "partial",
   "theorems": [
    "Verif.C86_partial",
    "Verif.C86_refuted"
   ],
   "note": "False of the code: every repetition creates its folds from the same seed, so all M repetitions use one and the same folding (C86_refuted). C86_partial: exactly M*K results, each repetition a valid cross validation."
  },
  {
   "property": "C87",
   "status": "proved",
   "theorems": [
    "Verif.C87_bootstrap",
    "Verif.C87_sample"
   ],
   "note": ""
  },
  {
   "property": "C88",
   "status": "proved",
   "theorems": [
    "Verif.C88_swap"
   ],
   "note": ""
  },
  {
   "property": "C89",
   "status": "partial",
   "theorems": [
    "Verif.C89_combined_t",
    "Verif.C89_paired_5x2_t",
    "Verif.C89_paired_t",
    "Verif.C89_sizes_differ",
    "Verif.C89_not_ten",
    "Verif.C89_applicable",
    "Verif.C89_paired_t_applicable",
    "Verif.C89_single_experiment_refuted"
   ],
   "note": "Holds for two or more experiments; with a single experiment the paired t test returns a NaN instead of refusing (C89_single_experiment_refuted)."
  },
  {
   "property": "C90",
   "status": "proved",
   "theorems": [
    "Verif.C90_combined_F",
    "Verif.C90_nonneg"
   ],
   "note": ""
  },
  {
   "property": "C91",
   "status": "partial",
   "theorems": [
    "Verif.C91_partial",
    "Verif.C91_range",
    "Verif.C91_no_difference",
    "Verif.C91_overflow",
    "Verif.C91_refuted"
   ],
   "note": "False of the code from 13 strict differences on, where the int factorial overflows (C91_overflow, C91_refuted). C91_partial: exact for up to 12 differences, and for any number of them when none is a win."
  },
  {
   "property": "C92",
   "status": "proved",
   "theorems": [
    "Verif.C92_decisions",
    "Verif.C92_one_tailed_monotone"
   ],
   "note": ""
  },
  {
   "property": "C93",
   "status": "partial",
   "theorems": [
    "Verif.C93_partial",
    "Verif.C93_t_tests",
    "Verif.C93_sign_test",
    "Verif.C93_refuted"
   ],
   "note": "False for the combined 5x2 F test, for which the method always throws (C93_refuted). C93_partial and C93_t_tests / C93_sign_test: antisymmetry for the other tests."
  },
  {
   "property": "C94",
   "status": "partial",
   "theorems": [
    "Verif.C94_partial",
    "Verif.C94_none_left",
    "Verif.C94_comma_refuted",
    "Verif.C94_repeated_refuted"
   ],
   "note": "False of the code for the value ',' (looked up as 'comma', C94_comma_refuted) and for data sets listing an instance object twice, e.g. bootstrap samples (C94_repeated_refuted). C94_partial: holds for all other data sets that fit their definition; C94_none_left covers all three discrete filters."
  },
  {
   "property": "C95",
   "status": "partial",
   "theorems": [
    "Verif.C95_partial"
   ],
   "note": "As C94: false for the value ',' and for repeated objects (C94_comma_refuted, C94_repeated_refuted); C95_partial for all other data sets."
  },
  {
   "property": "C96",
   "status": "partial",
   "theorems": [
    "Verif.C96_partial"
   ],
   "note": "As C94: for the value ',' the index is -1 (C94_comma_refuted); C96_partial for all other data sets."
  },
  {
   "property": "C97",
   "status": "partial",
   "theorems": [
    "Verif.C97_partial",
    "Verif.C97_refuted",
    "Verif.C97_normalize"
   ],
   "note": "False of the code: convertDataDefinition edits a local copy (C97_refuted). C97_partial: the definition is never changed, so it is in step exactly when no attribute was discrete; C97_normalize: Normalize keeps it in step."
  },
  {
   "property": "C98",
   "status": "proved",
   "theorems": [
    "Verif.C98_normalize",
    "Verif.C98_constant_column",
    "Verif.C98_repeated_refuted",
    "Verif.C98_mixed_column"
   ],
   "note": "Exact arithmetic. A constant column becomes NaN (C98_constant_column); with an object listed twice the claim fails (C98_repeated_refuted), which the quantifier excludes."
  },
  {
   "property": "C99",
   "status": "partial",
   "theorems": [
    "Verif.C99_node_list",
    "Verif.C99_svm_data",
    "Verif.C99_refuted"
   ],
   "note": "The data is restored (C99_node_list, C99_svm_data), but the parameters of the SVM are not saved, so predicting with a loaded machine dereferences an uninitialised pointer (C99_refuted, for every machine with a support vector). Hypotheses: numbers survive the six printed digits, labels are words, the Math library reads back what it wrote (LibOk; plainLib_ok is a library that does)."
  },
  {
   "property": "C100",
   "status": "partial",
   "theorems": [
    "Verif.C100_refuted"
   ],
   "note": "False of the code for every list of distinct labels without white space: serialize writes size and labels, load reads seed, size, labels."
  },
  {
   "property": "C101",
   "status": "partial",
   "theorems": [
    "Verif.C101_forest_refuted",
    "Verif.C101_refuted"
   ],
   "note": "False of the code for every trained tree (with or without pruning) whose labels are words: loading is undefined for a leaf, and otherwise undefined or gives a single leaf labelled with the empty string or a comparison sign. The same holds for the first tree of a saved forest (C101_forest_refuted)."
  },
  {
   "property": "C102",
   "status": "partial",
   "theorems": [
    "Verif.C102_refuted"
   ],
   "note": "False of the code for every LDA model whose first label is not a number: serialize writes an extra line with the number of classes."
  },
  {
   "property": "C103",
   "status": "partial",
   "theorems": [
    "Verif.C103_written_partial",
    "Verif.C103_refuted"
   ],
   "note": "False of the code for every list whose first instance has an attribute that is not indexed: a loaded k-NN model has no instances and answers the empty string. The file itself determines the classes and the texts of the values (C103_written_partial, for texts that are single words)."
  },
  {
   "property": "C104",
   "status": "proved",
   "theorems": [
    "Verif.C104_lda",
    "Verif.C104_lda_predict",
    "Verif.C104_single_instance_nan"
   ],
   "note": ""
  },
  {
   "property": "C105",
   "status": "proved",
   "theorems": [
    "Verif.C105_qda"
   ],
   "note": ""
  },
  {
   "property": "C106",
   "status": "partial",
   "theorems": [
    "Verif.C106_partial",
    "Verif.C106_equal_deviations_partial",
    "Verif.C106_refuted"
   ],
   "note": "False of the code: the score leaves out the logarithms of the standard deviations (C106_refuted). C106_partial gives the exact score; with equal deviations the order is right."
  },
  {
   "property": "C107",
   "status": "proved",
   "theorems": [
    "Verif.C107_optimal_splits"
   ],
   "note": ""
  },
  {
   "property": "C108",
   "status": "proved",
   "theorems": [
    "Verif.C108_single_run",
    "Verif.C108_stratified_single_run"
   ],
   "note": ""
  },
  {
   "property": "C109",
   "status": "proved",
   "theorems": [
    "Verif.C109_sizes",
    "Verif.C109_fold_size",
    "Verif.C109_class_sizes"
   ],
   "note": ""
  },
  {
   "property": "C110",
   "status": "proved",
   "theorems": [
    "Verif.C110_out_of_range",
    "Verif.C110_rows"
   ],
   "note": ""
  },
  {
   "property": "C111",
   "status": "proved",
   "theorems": [
    "Verif.C111_round_trip",
    "Verif.C111_numeral_refuted"
   ],
   "note": "The hypothesis on names in the first row is needed: C111_numeral_refuted."
  },
  {
   "property": "C112",
   "status": "proved",
   "theorems": [
    "Verif.C112_mean",
    "Verif.C112_sample_sd",
    "Verif.C112_continuous",
    "Verif.C112_all"
   ],
   "note": ""
  },
  {
   "property": "C113",
   "status": "proved",
   "theorems": [
    "Verif.C113_edit"
   ],
   "note": ""
  },
  {
   "property": "C114",
   "status": "proved",
   "theorems": [
    "Verif.C114_pca",
    "Verif.C114_definition_kept"
   ],
   "note": ""
  },
  {
   "property": "C115",
   "status": "proved",
   "theorems": [
    "Verif.C115_perceptron_gradient"
   ],
   "note": ""
  },
  {
   "property": "C116",
   "status": "partial",
   "theorems": [
    "Verif.C116_deep_gradient_partial",
    "Verif.C116_multilayer_gradient_partial",
    "Verif.C116_tanh_refuted",
    "Verif.C116_deep_tanh_refuted",
    "Verif.C116_deep_tanh_training_refuted"
   ],
   "note": "False of the code for tanh: the derivative is taken at the wrong argument (C116_tanh_refuted), and a deep tanh network does not learn at all unless its last hidden layer is as wide as there are hidden layers (C116_deep_tanh_refuted). Proved for sigmoid and rectifier nodes at every depth."
  },
  {
   "property": "C117",
   "status": "proved",
   "theorems": [
    "Verif.C117_autoencoder_gradient"
   ],
   "note": ""
  },
  {
   "property": "C118",
   "status": "proved",
   "theorems": [
    "Verif.C118_perceptron",
    "Verif.C118_multilayer",
    "Verif.C118_deep",
    "Verif.C118_autoencoder",
    "Verif.C118_autoencoder_error"
   ],
   "note": ""
  },
  {
   "property": "C119",
   "status": "proved",
   "theorems": [
    "Verif.C119_perceptron",
    "Verif.C119_multilayer",
    "Verif.C119_deep",
    "Verif.C119_autoencoder"
   ],
   "note": ""
  },
  {
   "property": "C120",
   "status": "proved",
   "theorems": [
    "Verif.C120_split",
    "Verif.C120_growth"
   ],
   "note": ""
  },
  {
   "property": "C121",
   "status": "partial",
   "theorems": [
    "Verif.C121_bound",
    "Verif.C121_train_partial",
    "Verif.C121_refuted"
   ],
   "note": "False of the code when the split leaves no instance of some class to learn from, for example for a class with one instance: the vectors of the new leaves are then too short and are read past their end (C121_refuted). Proved when every class keeps an instance."
  },
  {
   "property": "C122",
   "status": "partial",
   "theorems": [
    "Verif.C122_leaf_gradient",
    "Verif.C122_split_gradient_partial",
    "Verif.C122_outputs_frozen",
    "Verif.C122_split_refuted"
   ],
   "note": "Proved for the vectors of the leaves (C122_leaf_gradient). False of the code for the weights of the split, which use the random numbers stored in `outputs` of the leaves instead of their vectors (C122_split_refuted, C122_outputs_frozen); C122_split_gradient_partial shows that this is the only difference."
  },
  {
   "property": "C123",
   "status": "proved",
   "theorems": [
    "Verif.C123_optimal"
   ],
   "note": ""
  },
  {
   "property": "C124",
   "status": "proved",
   "theorems": [
    "Verif.C124_margins"
   ],
   "note": ""
  },
  {
   "property": "C125",
   "status": "proved",
   "theorems": [
    "Verif.C125_decision_values"
   ],
   "note": "Proved for the solver as a parameter; C55_svm_refuted shows why the machine must be without support vectors before training."
  },
  {
   "property": "C126",
   "status": "proved",
   "theorems": [
    "Verif.C126_training_instances"
   ],
   "note": "The restriction to min(l, 1000) rounds is that of C71 (after shrinking the reported multipliers can be wrong, C71_refuted)."
  },
  {
   "property": "C127",
   "status": "proved",
   "theorems": [
    "Verif.C127_progress",
    "Verif.C127_terminates",
    "Verif.C127_solve_returns"
   ],
   "note": "Exact arithmetic. A vector with two labels makes the quadratic coefficient 0; double then gives an infinite step that is clipped, the exact model a step of 0, so that case is excluded."
  },
  {
   "property": "C128",
   "status": "proved",
   "theorems": [
    "Verif.C128_near_minimum"
   ],
   "note": ""
  },
  {
   "property": "C129",
   "status": "proved",
   "theorems": [
    "Verif.C129_bound",
    "Verif.C129_training_returns"
   ],
   "note": "The number of rounds is a parameter of the model of solve(); the theorem says that every limit from some N0 on gives the same weights and thresholds."
  },
  {
   "property": "C130",
   "status": "proved",
   "theorems": [
    "Verif.C130_dummy_restored",
    "Verif.C130_trained_dummy_restored"
   ],
   "note": "The Math library is a parameter with the contract LibOk."
  },
  {
   "property": "C131",
   "status": "proved",
   "theorems": [
    "Verif.C131_naive_bayes_restored",
    "Verif.C131_trained_naive_bayes_restored"
   ],
   "note": "The Math library is a parameter with the contract LibOk; numbers are assumed to survive the six printed digits."
  },
  {
   "property": "C132",
   "status": "partial",
   "theorems": [
    "Verif.C132_labels_restored_partial",
    "Verif.C132_refuted"
   ],
   "note": "Labels and number of inputs are restored (C132_labels_restored_partial); the weights are not written at all, so no loader can restore them (C132_refuted)."
  },
  {
   "property": "C133",
   "status": "partial",
   "theorems": [
    "Verif.C133_refuted",
    "Verif.C133_naive_bayes_refuted"
   ],
   "note": "False of the code: the terms W of QDA and the attribute distributions of naive Bayes are not written."
  },
  {
   "property": "C134",
   "status": "proved",
   "theorems": [
    "Verif.C134_tree_probabilities",
    "Verif.C134_trained_probabilities"
   ],
   "note": ""
  },
  {
   "property": "C135",
   "status": "partial",
   "theorems": [
    "Verif.C135_outputs_partial",
    "Verif.C135_most_probable_partial",
    "Verif.C135_refuted"
   ],
   "note": "False of the code: the outputs are returned without normalisation (C135_refuted: there are weights for which a trained perceptron gives every class the number 0). Partial: the number of the i-th label is the i-th output, and the predicted label of a plain instance has the greatest."
  },
  {
   "property": "C136",
   "status": "partial",
   "theorems": [
    "Verif.C136_experiment_refuted",
    "Verif.C136_pruned_training_partial",
    "Verif.C136_refuted"
   ],
   "note": "False of the code when every instance is held out for pruning, e.g. one instance per class (C136_refuted); k-fold cross validation of a pruned tree then throws too (C136_experiment_refuted). Partial: for 0 <= r <= 1 training succeeds exactly if some class keeps an instance for growing."
  },
  {
   "property": "C137",
   "status": "proved",
   "theorems": [
    "Verif.C137_mahalanobis",
    "Verif.C137_mismatch"
   ],
   "note": ""
  },
  {
   "property": "C138",
   "status": "proved",
   "theorems": [
    "Verif.C138_one_neighbour"
   ],
   "note": ""
  },
  {
   "property": "C139",
   "status": "proved",
   "theorems": [
    "Verif.C139_grow_order",
    "Verif.C139_train_order"
   ],
   "note": "All instances must declare the same number of values for an indexed attribute (SameValueCounts), as within one data definition."
  },
  {
   "property": "C140",
   "status": "proved",
   "theorems": [
    "Verif.C140_dummy",
    "Verif.C140_naive_bayes_discrete",
    "Verif.C140_naive_bayes_continuous",
    "Verif.C140_kmeans",
    "Verif.C140_lda",
    "Verif.C140_qda"
   ],
   "note": "Continuous naive Bayes, LDA and QDA: at least two instances of every class, as elsewhere; the library's inverse and determinant are parameters that depend on the entries only."
  },
  {
   "property": "C141",
   "status": "partial",
   "theorems": [
    "Verif.C141_knn_partial",
    "Verif.C141_refuted"
   ],
   "note": "False of the code when equally distant neighbours have different labels (C141_refuted). C141_knn_partial: the order does not matter unless candidates with different labels are equally distant at the distance where the k neighbours end."
  },
  {
   "property": "C142",
   "status": "partial",
   "theorems": [
    "Verif.C142_values_partial",
    "Verif.C142_refuted",
    "Verif.C142_filters",
    "Verif.C142_frame_partial"
   ],
   "note": "False of the code: a feature projection shares its attribute objects with the original (C142_refuted, for every instance). C142_values_partial and C142_frame_partial hold for every program that does not project, and for every program that projects but writes and deletes nothing; C142_filters says that the filters on values are those of C94-C98."
  },
  {
   "property": "C143",
   "status": "partial",
   "theorems": [
    "Verif.C143_destroy_partial",
    "Verif.C143_destroy_all_partial",
    "Verif.C143_refuted"
   ],
   "note": "False of the code after a feature projection (C143_refuted, for every instance and non-empty subset). C143_destroy_partial, C143_destroy_all_partial: all programs without projections."
  },
  {
   "property": "C144",
   "status": "partial",
   "theorems": [
    "Verif.C144_released_partial",
    "Verif.C144_refuted"
   ],
   "note": "False of the code: attributes taken out of an instance are never deleted (C144_refuted). C144_released_partial: programs that take no attribute out (filters that replace attributes and Pca do)."
  },
  {
   "property": "C145",
   "status": "partial",
   "theorems": [
    "Verif.C145_knn_partial",
    "Verif.C145_refuted"
   ],
   "note": "False of the code: the classifier keeps the caller's instance objects (C145_refuted). C145_knn_partial: calls that do not concern the training instances change nothing."
  },
  {
   "property": "C146",
   "status": "proved",
   "theorems": [
    "Verif.C146_tree_loaded",
    "Verif.C146_forest_loaded",
    "Verif.C146_written_tree",
    "Verif.C146_grown_tree"
   ],
   "note": "For the format that the loader reads, stated separately in Spec/TreeFile. That the library's own serialize writes another format is C101."
  },
  {
   "property": "C147",
   "status": "partial",
   "theorems": [
    "Verif.C147_naive_bayes",
    "Verif.C147_lda",
    "Verif.C147_qda",
    "Verif.C147_forest",
    "Verif.C147_random",
    "Verif.C147_networks",
    "Verif.C147_lda_refuted",
    "Verif.C147_unknown_classes_partial",
    "Verif.C147_perceptron_refuted",
    "Verif.C147_forest_refuted"
   ],
   "note": "False of the code for models kept in maps and lists: old entries stay (C147_lda_refuted, C147_perceptron_refuted, C147_forest_refuted, each for all old objects and files). C147_naive_bayes, C147_lda, C147_qda, C147_forest, C147_random and C147_networks say exactly what the object holds afterwards. C147_unknown_classes_partial: classes unknown to the old object are loaded as into a new one. Readers of k-NN, nearest-mean, trees, dummy and SVM overwrite everything."
  },
  {
   "property": "C148",
   "status": "proved",
   "theorems": [
    "Verif.C148_perceptron",
    "Verif.C148_multilayer",
    "Verif.C148_deep",
    "Verif.C148_random",
    "Verif.C148_lda",
    "Verif.C148_qda",
    "Verif.C148_knn",
    "Verif.C148_nearest_mean"
   ],
   "note": "For the formats that the loaders read, stated separately in Spec/ModelFiles. What the library's own serialize writes is C99-C103, C132, C133, C149."
  },
  {
   "property": "C149",
   "status": "partial",
   "theorems": [
    "Verif.C149_refuted"
   ],
   "note": "False of the code: C149_refuted, for every saved model whose first mean has an attribute that is not indexed."
  },
  {
   "property": "C150",
   "status": "partial",
   "theorems": [
    "Verif.C150_decisive_attribute_partial",
    "Verif.C150_refuted"
   ],
   "note": "False of the code: C150_refuted (exclusive or of two discrete attributes: no single split lowers the entropy, so the root stays a leaf). C150_decisive_attribute_partial: true, in exact arithmetic, when one continuous, discrete or indexed attribute never has the same value in two classes."
  },
  {
   "property": "C151",
   "status": "proved",
   "theorems": [
    "Verif.C151_leaves",
    "Verif.C151_size"
   ],
   "note": "Leaves: any arithmetic with lawful comparison. Nodes and depth: exact arithmetic (with rounding, a split may leave one side empty)."
  },
  {
   "property": "C152",
   "status": "proved",
   "theorems": [
    "Verif.C152_normalize_units"
   ],
   "note": ""
  },
  {
   "property": "C153",
   "status": "proved",
   "theorems": [
    "Verif.C153_naive_bayes_units"
   ],
   "note": ""
  },
  {
   "property": "C154",
   "status": "proved",
   "theorems": [
    "Verif.C154_lda_units",
    "Verif.C154_qda_units"
   ],
   "note": "Exact arithmetic; the library's inverse and determinant are parameters that satisfy the stated laws; some class scores above -DBL_MAX in both units."
  },
  {
   "property": "C155",
   "status": "proved",
   "theorems": [
    "Verif.C155_knn_units",
    "Verif.C155_nearest_mean_units"
   ],
   "note": "Exact arithmetic. The nearest-mean part is for numeric data with some mean nearer than DBL_MAX in both units."
  },
  {
   "property": "C156",
   "status": "proved",
   "theorems": [
    "Verif.C156_tree_units",
    "Verif.C156_stump_units",
    "Verif.C156_forest_units"
   ],
   "note": "Exact arithmetic. The index of an indexed attribute stays, its value text may be renamed."
  },
  {
   "property": "C157",
   "status": "proved",
   "theorems": [
    "Verif.C157_prune_in_place",
    "Verif.C157_trees_behave_as_values",
    "Verif.C157_other_trees"
   ],
   "note": "Any arithmetic. Addresses are not reused. The contents of the objects come from Node.grow; that the constructor writes only new objects is part of the model."
  },
  {
   "property": "C158",
   "status": "partial",
   "theorems": [
    "Verif.C158_destroy_partial",
    "Verif.C158_destroy_forest_partial",
    "Verif.C158_train_then_destroy_partial",
    "Verif.C158_retrained_partial",
    "Verif.C158_copy_refuted",
    "Verif.C158_soft_refuted",
    "Verif.C158_refuted"
   ],
   "note": "Proved: destroying a tree (or a forest of separate trees) deletes exactly its nodes. Violated: one condition value per non-root node is never deleted; a tree trained again loses its earlier nodes; copies are destroyed twice; an untrained `DecisionTree t;` has no root pointer; ~SoftDecisionNode deletes children twice."
  },
  {
   "property": "C159",
   "status": "proved",
   "theorems": [
    "Verif.C159_knn_all_neighbours",
    "Verif.C159_one_tree",
    "Verif.C159_stump_is_top",
    "Verif.C159_forest_of_all_attributes"
   ],
   "note": "Any arithmetic. The k-NN part is for plain instances (composite ones restrict the candidates)."
  },
  {
   "property": "C160",
   "status": "partial",
   "theorems": [
    "Verif.C160_counts",
    "Verif.C160_classes_partial",
    "Verif.C160_info_partial",
    "Verif.C160_refuted",
    "Verif.C160_class_instances"
   ],
   "note": "Violated only for a data set without instances: getClasses and info throw."
  },
  {
   "property": "C161",
   "status": "partial",
   "theorems": [
    "Verif.C161_refuted",
    "Verif.C161_set_possible_partial"
   ],
   "note": "Violated: the code appends to the earlier labels; the partial theorem says exactly what results."
  },
  {
   "property": "C162",
   "status": "partial",
   "theorems": [
    "Verif.C162_kfold_partial",
    "Verif.C162_repeated_partial",
    "Verif.C162_bootstrap_partial",
    "Verif.C162_forgetful_partial",
    "Verif.C162_ensemble",
    "Verif.C162_lda",
    "Verif.C162_qda",
    "Verif.C162_naive_bayes",
    "Verif.C162_deep",
    "Verif.C162_refuted"
   ],
   "note": "Holds for classifiers whose training replaces all they learned (dummy, k-NN, nearest mean, trees, stumps, perceptrons with and without hidden layer). Violated by LDA, QDA and naive Bayes (statistics of the first fold are kept), ensembles (trees accumulate), deep networks (second training throws)."
  },
  {
   "property": "C163",
   "status": "partial",
   "theorems": [
    "Verif.C163_networks_partial",
    "Verif.C163_trained_partial",
    "Verif.C163_stale",
    "Verif.C163_refuted",
    "Verif.C163_soft_trees"
   ],
   "note": "Violated by networks for instances that do not fit: the exception is swallowed and the previous output is answered with. Random classifiers answer with numbers of a generator the whole process shares: see C210. All other classifiers are functions of model and instance in the model."
  },
  {
   "property": "C164",
   "status": "partial",
   "theorems": [
    "Verif.C164_dummy_partial",
    "Verif.C164_knn_partial",
    "Verif.C164_ensembles",
    "Verif.C164_trees_partial",
    "Verif.C164_refuted"
   ],
   "note": "Violated for composite instances by the dummy classifier and trees, and by k-NN without a candidate neighbour."
  },
  {
   "property": "C165",
   "status": "partial",
   "theorems": [
    "Verif.C165_selection_partial",
    "Verif.C165_refuted"
   ],
   "note": "Holds for classifiers whose training replaces all they learned (see C162); violated by LDA, which keeps what it learned from the first subset."
  },
  {
   "property": "C166",
   "status": "partial",
   "theorems": [
    "Verif.C166_autoencoder_partial",
    "Verif.C166_bagging_partial",
    "Verif.C166_knn_partial",
    "Verif.C166_naive_bayes_partial",
    "Verif.C166_lda_partial",
    "Verif.C166_qda_partial",
    "Verif.C166_nearest_mean_partial",
    "Verif.C166_naive_bayes_nominal_partial",
    "Verif.C166_refuted",
    "Verif.C166_perceptron_partial",
    "Verif.C166_mlp_partial",
    "Verif.C166_deep_partial",
    "Verif.C166_network_refuted",
    "Verif.C166_pruned_tree_partial",
    "Verif.C166_stump_partial",
    "Verif.C166_svm_partial",
    "Verif.C166_tree_partial"
   ],
   "note": "Holds for k-nearest-neighbour and nearest mean (Euclidean distance), naive Bayes on numbers or on nominal data, LDA and QDA with regular covariance matrices, and support vector machines with any kernel (C166_svm_partial), over the reals; violated by decision trees when two columns separate the data equally well, and true of unpruned trees when at no node on the way of the instance two columns tie (C166_tree_partial), and of stumps when no two columns tie (C166_stump_partial), and of bagged trees when this holds on the way through each tree (C166_bagging_partial), and of pruned trees when no two columns tie at any node of the tree before it is pruned (C166_pruned_tree_partial). Networks: the same when the initial weights of the first layer are reordered like the columns (C166_perceptron_partial, C166_mlp_partial, C166_deep_partial; the reconstruction of an autoencoder is reordered like the columns, C166_autoencoder_partial), not when the initial weights stay (C166_network_refuted)."
  },
  {
   "property": "C167",
   "status": "proved",
   "theorems": [
    "Verif.C167_simple",
    "Verif.C167_distances",
    "Verif.C167_knn",
    "Verif.C167_parametric",
    "Verif.C167_trees",
    "Verif.C167_networks",
    "Verif.C167_soft_tree_svm",
    "Verif.C167_test"
   ],
   "note": "For every arithmetic. K-NN and nearest mean with a distance that does not look at classes, as both distances of the library do not."
  },
  {
   "property": "C168",
   "status": "partial",
   "theorems": [
    "Verif.C168_growth_partial",
    "Verif.C168_double_partial",
    "Verif.C168_refuted"
   ],
   "note": "Refuted for two training sets (a constant indexed column with 12 and 1 instances of two classes; two instances whose values are neighbouring doubles), for every library whose log is correctly rounded at the five numbers that occur. Proved: training returns when the continuous values are finite and not neighbouring doubles and no group has an index whose useless split looks better, in particular without indexed attributes. The arithmetic has an unbounded exponent. For the range of double see C209."
  },
  {
   "property": "C169",
   "status": "partial",
   "theorems": [
    "Verif.C169_random_split",
    "Verif.C169_stratified_partial",
    "Verif.C169_refuted"
   ],
   "note": "The random split and the preservation of the data are proved; the stratified sizes only away from integers (C169_stratified_partial), with two counterexamples to the exact sizes in C169_refuted: half of 14 out of 25 instances gives 8, and 7 % of 100 gives 8."
  },
  {
   "property": "C170",
   "status": "proved",
   "theorems": [
    "Verif.C170_accuracy",
    "Verif.C170_test",
    "Verif.C170_order",
    "Verif.C170_precision_recall",
    "Verif.C170_fmeasure",
    "Verif.C170_mean"
   ],
   "note": "Up to 2^53 calls. Undefined precision (no prediction of a class) is a NaN and excluded by hypothesis, as in the code."
  },
  {
   "property": "C171",
   "status": "partial",
   "theorems": [
    "Verif.C171_column_partial",
    "Verif.C171_paired_t_partial",
    "Verif.C171_five_by_two",
    "Verif.C171_refuted"
   ],
   "note": "Refuted for three values 0.1 and for ten equal differences 0.1; proved in the other direction, and in both for values whose multiples are exact, and for the 5x2 tests. The arithmetic has an unbounded exponent. For the range of double see C209."
  },
  {
   "property": "C172",
   "status": "proved",
   "theorems": [
    "Verif.C172_distance",
    "Verif.C172_one_neighbour"
   ],
   "note": "The arithmetic has an unbounded exponent. For the range of double see C209."
  },
  {
   "property": "C173",
   "status": "proved",
   "theorems": [
    "Verif.C173_dummy",
    "Verif.C173_random",
    "Verif.C173_knn",
    "Verif.C173_distances",
    "Verif.C173_kmeans",
    "Verif.C173_naive_bayes",
    "Verif.C173_discriminants",
    "Verif.C173_tree",
    "Verif.C173_stump",
    "Verif.C173_ensemble",
    "Verif.C173_perceptron",
    "Verif.C173_mlp",
    "Verif.C173_deep",
    "Verif.C173_soft_tree",
    "Verif.C173_svm",
    "Verif.C173_order_needed"
   ],
   "note": "All classifiers, as complete runs of a new object. The empty string must keep its name, because some classifiers answer it when they have nothing to answer."
  },
  {
   "property": "C174",
   "status": "proved",
   "theorems": [
    "Verif.C174_history",
    "Verif.C174_get",
    "Verif.C174_keeps"
   ],
   "note": ""
  },
  {
   "property": "C175",
   "status": "partial",
   "theorems": [
    "Verif.C175_softmax_partial",
    "Verif.C175_overflow_refuted",
    "Verif.C175_underflow_refuted"
   ],
   "note": "Holds if all activations are at most 709 and one is at least -745 (C175_softmax_partial, with an error bound for the sum); an activation of 710 or more gets probability NaN (C175_overflow_refuted), and if all are -746 or less all probabilities are NaN (C175_underflow_refuted): normalizeOutput does not subtract the largest activation before exponentiating."
  },
  {
   "property": "C176",
   "status": "partial",
   "theorems": [
    "Verif.C176_training_partial",
    "Verif.C176_overflow_refuted",
    "Verif.C176_nan_spreads",
    "Verif.C176_nan_answers",
    "Verif.C176_refuted"
   ],
   "note": "Holds if inputs, initial weights and changes are so small that no activation can exceed 700 (C176_training_partial). An activation of 710 or more turns the weights of its class into NaN (C176_overflow_refuted), one NaN turns all weights into NaN at the next instance (C176_nan_spreads), and the network then answers its first class for everything (C176_nan_answers); a whole training on four incomes in the millions shows it (C176_refuted)."
  },
  {
   "property": "C177",
   "status": "proved",
   "theorems": [
    "Verif.C177_box",
    "Verif.C177_balance",
    "Verif.C177_solution",
    "Verif.C177_linear_kernel"
   ],
   "note": "Overflow is not modelled: the exponent of the arithmetic is unbounded. An example run shows that the balance is not exact."
  },
  {
   "property": "C178",
   "status": "partial",
   "theorems": [
    "Verif.C178_prefix",
    "Verif.C178_written",
    "Verif.C178_guessed_partial",
    "Verif.C178_refuted"
   ],
   "note": "The reader for guessed types takes the rest of a cut line for an instance: a class spam becomes sp."
  },
  {
   "property": "C179",
   "status": "partial",
   "theorems": [
    "Verif.C179_refuted",
    "Verif.C179_vector_partial"
   ],
   "note": "Support vector machines: the missing coefficients are replaced by the last one read. Sparse vectors cut after a line: undefined behaviour (an uninitialised variable), never another vector."
  },
  {
   "property": "C180",
   "status": "proved",
   "theorems": [
    "Verif.C180_dummy",
    "Verif.C180_neighbours",
    "Verif.C180_ensembles",
    "Verif.C180_trees"
   ],
   "note": "Trees: grown in double precision (any tree for which growing returned, see C168), possibly pruned; stumps are not included."
  },
  {
   "property": "C181",
   "status": "proved",
   "theorems": [
    "Verif.C181_neighbours",
    "Verif.C181_dummy",
    "Verif.C181_ensembles"
   ],
   "note": "Nearest neighbours: distances are ordered numbers (no NaN), at least one neighbour is asked for."
  },
  {
   "property": "C182",
   "status": "proved",
   "theorems": [
    "Verif.C182_dummy",
    "Verif.C182_random",
    "Verif.C182_nearest_mean",
    "Verif.C182_neighbours",
    "Verif.C182_tree",
    "Verif.C182_naive_bayes_differs"
   ],
   "note": "The nearest mean is for continuous data, trees for indices below the declared number of values."
  },
  {
   "property": "C183",
   "status": "partial",
   "theorems": [
    "Verif.C183_fixed_subset",
    "Verif.C183_refuted"
   ],
   "note": "Refuted: for every forest with a subset smaller than the number of attributes some attribute has no influence at all. C183_fixed_subset says which attributes the forest looks at."
  },
  {
   "property": "C184",
   "status": "proved",
   "theorems": [
    "Verif.C184_expected_class",
    "Verif.C184_derived_is_base",
    "Verif.C184_arguments",
    "Verif.C184_no_epochs"
   ],
   "note": "The accessors and casts of all parameter classes are modelled; numbers of hidden nodes are not negative."
  },
  {
   "property": "C185",
   "status": "partial",
   "theorems": [
    "Verif.C185_refuted"
   ],
   "note": "Refuted: the theorem lists the arguments that are never read, for all values and data."
  },
  {
   "property": "C186",
   "status": "partial",
   "theorems": [
    "Verif.C186_skipped_partial",
    "Verif.C186_regular_partial",
    "Verif.C186_first_validation",
    "Verif.C186_reconstruction",
    "Verif.C186_refuted"
   ],
   "note": "Refuted: training a new perceptron on two instances with one and two numbers is undefined for one order and succeeds for the other. The partial theorems say what is true: the passes skip such instances, and whenever training succeeds without looking at stale outputs the object with its history gives the same network."
  },
  {
   "property": "C187",
   "status": "proved",
   "theorems": [
    "Verif.C187_start",
    "Verif.C187_draws",
    "Verif.C187_unsplit"
   ],
   "note": "The random numbers of a node that is later trained are not followed through the training."
  },
  {
   "property": "C188",
   "status": "proved",
   "theorems": [
    "Verif.C188_shrinking"
   ],
   "note": "Exact arithmetic. A shrinking step is taken from any reachable state, not only from those in which the counter has run down."
  },
  {
   "property": "C189",
   "status": "partial",
   "theorems": [
    "Verif.C189_tree_partial",
    "Verif.C189_pruned_tree_partial",
    "Verif.C189_stump_partial",
    "Verif.C189_bagging_partial",
    "Verif.C189_knn_partial",
    "Verif.C189_nearest_mean_partial",
    "Verif.C189_naive_bayes_nominal_refuted",
    "Verif.C189_naive_bayes_refuted"
   ],
   "note": "Refuted for naive Bayes, on nominal data (exact arithmetic) and on numbers (rationals with NaN). The partial theorems cover nearest neighbours, nearest means (distances a double can hold) and trees with and without pruning, stumps and bagging; random forests (the attributes drawn are other ones), discriminants (their covariance becomes singular) and networks are not covered."
  },
  {
   "property": "C190",
   "status": "partial",
   "theorems": [
    "Verif.C190_nearest_mean_partial",
    "Verif.C190_nearest_neighbour_partial",
    "Verif.C190_dummy_partial",
    "Verif.C190_naive_bayes_discrete_partial",
    "Verif.C190_lda_refuted",
    "Verif.C190_qda_refuted",
    "Verif.C190_naive_bayes_refuted"
   ],
   "note": "Refuted for LDA, QDA and naive Bayes on numbers, for every training list with a class of one instance, in double precision; the library's matrix inversion is assumed to give NaNs for a matrix of NaNs. The partial theorems cover the nearest mean and the nearest neighbour in any ordered arithmetic, plain and composite instances, the dummy classifier, and naive Bayes on discrete attributes over the reals; that the new class is answered where its mean or its instance is nearest is C53 and C50. Trees, networks and support vector machines are not covered."
  },
  {
   "property": "C191",
   "status": "partial",
   "theorems": [
    "Verif.C191_multilayer_refuted",
    "Verif.C191_autoencoder_refuted",
    "Verif.C191_deep_refuted",
    "Verif.C191_perceptron_partial",
    "Verif.C191_deep_tanh_refuted"
   ],
   "note": "Refuted for multi-layer perceptron, auto-encoder and deep network for every engine; that the library's Matrix constructor takes the numbers of its engine row by row is a hypothesis. The start is observed after training for zero epochs; for the deep network with tanh after any number. The partial theorem is the one-layer perceptron."
  },
  {
   "property": "C192",
   "status": "partial",
   "theorems": [
    "Verif.C192_svm_refuted",
    "Verif.C192_soft_tree_refuted",
    "Verif.C192_possible_partial"
   ],
   "note": "Proved for all classifiers but two, in every state and for any numbers; the two are refuted for every state: whenever the plain answer is not possible, it is given. The ensemble needs one tree (an empty one is left out here)."
  },
  {
   "property": "C193",
   "status": "partial",
   "theorems": [
    "Verif.C193_parametric_partial",
    "Verif.C193_models_partial",
    "Verif.C193_dummy",
    "Verif.C193_network",
    "Verif.C193_ignored",
    "Verif.C193_neighbours_partial",
    "Verif.C193_one_neighbour",
    "Verif.C193_tree",
    "Verif.C193_neighbours_refuted",
    "Verif.C193_ensemble_refuted",
    "Verif.C193_lda_refuted"
   ],
   "note": "Ties are named in the statements: a class that takes the place of c has the same score, count or probability. Nearest neighbours, ensembles and LDA without a score are refuted with examples. For trees the numbers are real and the empty string is not among the possible classes."
  },
  {
   "property": "C194",
   "status": "partial",
   "theorems": [
    "Verif.C194_sign",
    "Verif.C194_paired_t",
    "Verif.C194_combined",
    "Verif.C194_paired_5x2_t_partial",
    "Verif.C194_paired_5x2_t_refuted"
   ],
   "note": "Proved for four of the five tests; the 5x2 paired t test is refuted, and shown independent of the order as long as the first fold stays first."
  },
  {
   "property": "C195",
   "status": "proved",
   "theorems": [
    "Verif.C195_units",
    "Verif.C195_results"
   ],
   "note": ""
  },
  {
   "property": "C196",
   "status": "proved",
   "theorems": [
    "Verif.C196_test",
    "Verif.C196_testClassifier",
    "Verif.C196_per_class",
    "Verif.C196_f_measure",
    "Verif.C196_weighted"
   ],
   "note": "That the classifier answers is a hypothesis in the form that the first test returned a result."
  },
  {
   "property": "C197",
   "status": "partial",
   "theorems": [
    "Verif.C197_knn_refuted",
    "Verif.C197_network_refuted",
    "Verif.C197_svm_soft_tree_refuted",
    "Verif.C197_tree_refuted",
    "Verif.C197_parametric_refuted",
    "Verif.C197_lary_to_binary_refuted"
   ],
   "note": "Refuted for every classifier. For trees, forests and the parametric classifiers the instances must have the attribute types of one data definition; naive Bayes starts from a new model and ensembles from an empty one. The solver of the support vector machine, matrix inverse and determinant are arbitrary functions."
  },
  {
   "property": "C198",
   "status": "partial",
   "theorems": [
    "Verif.C198_no_probabilities_refuted",
    "Verif.C198_soft_tree_refuted",
    "Verif.C198_simple_partial",
    "Verif.C198_counting_partial",
    "Verif.C198_network_partial"
   ],
   "note": "Refuted for nearest mean, naive Bayes, LDA, QDA, support vector machines and soft decision trees (the functions of the base classes are inherited); proved for all others."
  },
  {
   "property": "C199",
   "status": "partial",
   "theorems": [
    "Verif.C199_written_refuted",
    "Verif.C199_read_refuted",
    "Verif.C199_unsplit_refuted"
   ],
   "note": "Refuted: SoftDecisionTree inherits serialize and loadModel from DecisionTree, which know nothing of its members."
  },
  {
   "property": "C200",
   "status": "partial",
   "theorems": [
    "Verif.C200_attribute_sort_partial",
    "Verif.C200_neighbour_sort_partial",
    "Verif.C200_label_sort",
    "Verif.C200_file_refuted",
    "Verif.C200_neighbours_refuted"
   ],
   "note": "Refuted: a NaN and two different numbers in a column break the contract, and NaN can come from a file. The exact condition is proved. The model itself sorts by insertion and is silent about what happens outside the contract."
  },
  {
   "property": "C201",
   "status": "proved",
   "theorems": [
    "Verif.C201_order",
    "Verif.C201_samples"
   ],
   "note": ""
  },
  {
   "property": "C202",
   "status": "partial",
   "theorems": [
    "Verif.C202_mahalanobis_partial",
    "Verif.C202_network_partial",
    "Verif.C202_svm_partial",
    "Verif.C202_discriminant_partial",
    "Verif.C202_euclidean_refuted",
    "Verif.C202_nearest_mean_refuted",
    "Verif.C202_naive_bayes_refuted",
    "Verif.C202_soft_tree_refuted",
    "Verif.C202_tree_partial",
    "Verif.C202_pruned_tree_partial",
    "Verif.C202_bagging_partial",
    "Verif.C202_stump_partial"
   ],
   "note": "Refuted for the Euclidean distance, nearest mean, naive Bayes and soft decision trees; proved for the others. Random forests are not covered: the numbers drawn mean other attributes."
  },
  {
   "property": "C203",
   "status": "proved",
   "theorems": [
    "Verif.C203_discrete",
    "Verif.C203_normalize"
   ],
   "note": ""
  },
  {
   "property": "C204",
   "status": "partial",
   "theorems": [
    "Verif.C204_partial",
    "Verif.C204_refuted",
    "Verif.C204_normalize_refuted"
   ],
   "note": "Refuted: a value can get another column or the code of another value (`C204_refuted`), and Normalize uses the mean of the data it is given (`C204_normalize_refuted`). Proved for data sets with the same values."
  },
  {
   "property": "C205",
   "status": "partial",
   "theorems": [
    "Verif.C205_local",
    "Verif.C205_no_cut_left",
    "Verif.C205_twice",
    "Verif.C205_order",
    "Verif.C205_best_refuted"
   ],
   "note": "Everything but the last sentence of the statement is proved; that the result is the best tree to be had by cutting is refuted (`C205_best_refuted`)."
  },
  {
   "property": "C206",
   "status": "partial",
   "theorems": [
    "Verif.C206_same_results",
    "Verif.C206_trees_partial",
    "Verif.C206_refused_partial",
    "Verif.C206_lda_partial",
    "Verif.C206_forest_progress",
    "Verif.C206_filter_progress",
    "Verif.C206_naive_bayes_refuted",
    "Verif.C206_nearest_mean_refuted",
    "Verif.C206_lda_refuted",
    "Verif.C206_pruned_tree_refuted",
    "Verif.C206_forest_refuted",
    "Verif.C206_filter_refuted"
   ],
   "note": "Proved for unpruned trees, stumps and refused LDA/QDA lists, and LDA's weights (`C206_trees_partial`, `C206_refused_partial`, `C206_lda_partial`); forests and filters keep exactly the steps done before the exception (`C206_forest_progress`, `C206_filter_progress`). Refuted for naive Bayes, nearest mean, LDA, pruned trees, forests and filters. Not covered: QDA training that throws in the loop over the classes, neural networks, an instance half converted when the exception comes."
  },
  {
   "property": "C207",
   "status": "proved",
   "theorems": [
    "Verif.C207_lda",
    "Verif.C207_nearest_mean",
    "Verif.C207_perceptron",
    "Verif.C207_perceptron_composite",
    "Verif.C207_svm"
   ],
   "note": "Exact arithmetic. The perceptron part for instances with possible classes assumes outputs above -DBL_MAX at the two instances; the support vector part for objects trained once."
  },
  {
   "property": "C208",
   "status": "proved",
   "theorems": [
    "Verif.C208_lda_qda",
    "Verif.C208_lda_nearest_mean",
    "Verif.C208_naive_bayes_nearest_mean"
   ],
   "note": "Exact arithmetic; the library's inverse and determinant are parameters that satisfy the stated laws; some candidate scores above -DBL_MAX in both classifiers."
  },
  {
   "property": "C209",
   "status": "partial",
   "theorems": [
    "Verif.C209_tree_partial",
    "Verif.C209_tree_refuted",
    "Verif.C209_mean_partial",
    "Verif.C209_mean_refuted",
    "Verif.C209_deviation_refuted",
    "Verif.C209_distance_refuted",
    "Verif.C209_far_refuted",
    "Verif.C209_distance_partial",
    "Verif.C209_deviation_partial"
   ],
   "note": "Refuted at both ends of the range, for all values beyond the stated bounds (`C209_tree_refuted`, `C209_mean_refuted`, `C209_deviation_refuted`, `C209_distance_refuted`, `C209_far_refuted`); the partial theorems give ranges in which it holds. Arithmetic: binary64 with its range (`Model/DblB64.lean`), one zero, one NaN; `pow(x, 2)` correctly rounded, `log` correctly rounded at 1/2, 1 and 2."
  },
  {
   "property": "C210",
   "status": "partial",
   "theorems": [
    "Verif.C210_consecutive",
    "Verif.C210_history_refuted",
    "Verif.C210_soft_tree",
    "Verif.C210_reset",
    "Verif.C210_moves",
    "Verif.C210_refuted"
   ],
   "note": "Refuted for random classifiers (`C210_history_refuted` for every generator, `C210_refuted` for the generator of the C standard); proved for soft decision trees. `rand()` and `random()` are taken to be one generator, as in glibc; sequences in which a call fails end there."
  },
  {
   "property": "C211",
   "status": "partial",
   "theorems": [
    "Verif.C211_same_instances",
    "Verif.C211_unchanged_partial",
    "Verif.C211_svm",
    "Verif.C211_dummy_after",
    "Verif.C211_trees_after",
    "Verif.C211_parametric_after",
    "Verif.C211_svm_refuted",
    "Verif.C211_split_refuted"
   ],
   "note": "Refuted for support vector machines and unstratified splits; the rest is proved. Which other functions work on copies of the list is part of the model (`ListUse.leaves`), read off the signatures cited there."
  },
  {
   "property": "C212",
   "status": "partial",
   "theorems": [
    "Verif.C212_perceptron_partial",
    "Verif.C212_multilayer_partial",
    "Verif.C212_deep_partial",
    "Verif.C212_autoencoder_partial",
    "Verif.C212_refuted"
   ],
   "note": "Refuted for a training that ends with the initial weights (`C212_refuted`, a perceptron); proved otherwise for perceptron, multi-layer perceptron, deep network and auto-encoder. Instances must have the same number of inputs (see C186)."
  },
  {
   "property": "C213",
   "status": "partial",
   "theorems": [
    "Verif.C213_once",
    "Verif.C213_refuted"
   ],
   "note": "Once per epoch: proved (`C213_once`); drawn anew: refuted for every seed (`C213_refuted`). That `std::shuffle` with an engine of the same seed and the same length applies the same permutation is part of the model."
  },
  {
   "property": "C214",
   "status": "partial",
   "theorems": [
    "Verif.C214_dummy",
    "Verif.C214_random",
    "Verif.C214_nearest_neighbours",
    "Verif.C214_nearest_neighbours_mahalanobis",
    "Verif.C214_nearest_mean",
    "Verif.C214_naive_bayes_numeric",
    "Verif.C214_naive_bayes_nominal",
    "Verif.C214_lda",
    "Verif.C214_qda",
    "Verif.C214_naive_bayes_refuted"
   ],
   "note": "Proved for the classifiers named, for every arithmetic (so for doubles too); refuted for naive Bayes with mixed columns (`C214_naive_bayes_refuted`). Nearest neighbours need distances that are not NaN, since the sort has no meaning otherwise. The matrix inverse is only assumed to keep the size. Trees, ensembles, networks, soft trees and support vector machines: C58, C65, C136, C119, C121, C129."
  },
  {
   "property": "C215",
   "status": "proved",
   "theorems": [
    "Verif.C215_box",
    "Verif.C215_box_answers",
    "Verif.C215_ends",
    "Verif.C215_stump",
    "Verif.C215_tree_has_gaps"
   ],
   "note": "Proved for trees (`C215_box`, `C215_box_answers`), trained trees (`C215_ends`) and stumps (`C215_stump`). The stronger claim that the instances with a given answer have no gaps is refuted for whole trees (`C215_tree_has_gaps`)."
  },
  {
   "property": "C216",
   "status": "proved",
   "theorems": [
    "Verif.C216_tree",
    "Verif.C216_forest",
    "Verif.C216_stump"
   ],
   "note": "Proved for every arithmetic with IEEE-754 comparisons (stumps: real numbers), for all training runs that succeed. The values of a column seen in training may be infinite but not NaN."
  },
  {
   "property": "C217",
   "status": "partial",
   "theorems": [
    "Verif.C217_euclidean",
    "Verif.C217_mahalanobis",
    "Verif.C217_refuted"
   ],
   "note": "Proved for one neighbour (`C217_euclidean`, `C217_mahalanobis`); refuted for three (`C217_refuted`), where it is not to be expected. Exact arithmetic; ties are resolved by the order of training, as the sort of the model is stable."
  },
  {
   "property": "C218",
   "status": "proved",
   "theorems": [
    "Verif.C218_only_near",
    "Verif.C218_far_instance"
   ],
   "note": "Proved for every arithmetic with IEEE-754 comparisons and every distance that succeeds."
  },
  {
   "property": "C219",
   "status": "partial",
   "theorems": [
    "Verif.C219_sign",
    "Verif.C219_paired_t_uniform",
    "Verif.C219_refuted",
    "Verif.C219_5x2_t"
   ],
   "note": "Proved for the sign test and for uniform changes in the paired t test and, repetition by repetition, in the two 5x2 t tests, in exact arithmetic; refuted for the paired t test in general (`C219_refuted`), which is a known property of that statistic and not a defect of the code."
  },
  {
   "property": "C220",
   "status": "proved",
   "theorems": [
    "Verif.C220_tree",
    "Verif.C220_pruned_tree",
    "Verif.C220_stump",
    "Verif.C220_bagging",
    "Verif.C220_knn_counts_twice",
    "Verif.C220_naive_bayes_counts_twice"
   ],
   "note": "Proved in exact arithmetic for trees, pruned trees, stumps and bagging; refuted for k-NN and naive Bayes, which add up columns by design. Random forests draw columns, so an additional column changes what is drawn."
  },
  {
   "property": "C221",
   "status": "proved",
   "theorems": [
    "Verif.C221_lda",
    "Verif.C221_qda",
    "Verif.C221_knn",
    "Verif.C221_knn_mahalanobis",
    "Verif.C221_nearest_mean",
    "Verif.C221_tree_depends",
    "Verif.C221_naive_bayes_depends"
   ],
   "note": "Proved in exact arithmetic for LDA, QDA, k-NN (Euclidean and Mahalanobis) and nearest means, with a matrix library that inverts non-singular matrices; refuted for trees, as the method implies. Covariance matrices must not be singular, and some class must score above -DBL_MAX in both descriptions."
  },
  {
   "property": "C222",
   "status": "proved",
   "theorems": [
    "Verif.C222_normalize_trees",
    "Verif.C222_normalize_parametric",
    "Verif.C222_pca",
    "Verif.C222_knn_depends",
    "Verif.C222_pca_svm"
   ],
   "note": "Proved in exact arithmetic; the eigenvectors and the inverse are those of a matrix library that computes them correctly, and the conditions of C154/C221 (covariance not singular, some score above -DBL_MAX) apply to discriminant analysis. Refuted for k-NN after normalising, as the method implies."
  },
  {
   "property": "C223",
   "status": "proved",
   "theorems": [
    "Verif.C223_kernel",
    "Verif.C223_turned",
    "Verif.C223_rbf",
    "Verif.C223_gamma",
    "Verif.C223_linear",
    "Verif.C223_one_unit_matters"
   ],
   "note": "Proved in exact arithmetic by a simulation between the two runs of the solver, step by step, shrinking included. C223_one_unit_matters marks the limit that is part of the statement."
  },
  {
   "property": "C224",
   "status": "proved",
   "theorems": [
    "Verif.C224_tree_scale",
    "Verif.C224_stump_scale",
    "Verif.C224_forest_scale",
    "Verif.C224_between_matters"
   ],
   "note": "Proved in exact arithmetic. C224_between_matters marks the limit that is part of the statement."
  },
  {
   "property": "C225",
   "status": "proved",
   "theorems": [
    "Verif.C225_perceptron",
    "Verif.C225_mlp",
    "Verif.C225_deep",
    "Verif.C225_zero_column"
   ],
   "note": "Proved in exact arithmetic for the three classifying networks (the deep network created new); C225_zero_column is an instance: a column of zeros."
  },
  {
   "property": "C226",
   "status": "proved",
   "theorems": [
    "Verif.C226_autoencoder",
    "Verif.C226_deep_numbering",
    "Verif.C226_hidden_numbering"
   ],
   "note": "Proved in exact arithmetic (in floating-point arithmetic the order of a sum matters)."
  },
  {
   "property": "C227",
   "status": "partial",
   "theorems": [
    "Verif.C227_distance_refuted",
    "Verif.C227_distance_partial",
    "Verif.C227_negative_distance_partial",
    "Verif.C227_whole_distances_partial",
    "Verif.C227_text_refuted",
    "Verif.C227_text_partial"
   ],
   "note": "Violated: the numbers of a data set are written without separators (C227_text_refuted), and the distance of a neighbour is appended as one character, which drops its fraction and is undefined from 128 on (C227_distance_refuted). True when all numbers have one digit (C227_text_partial) and for whole distances below 128 (C227_whole_distances_partial); C227_distance_partial and C227_negative_distance_partial say what the text is for every distance."
  },
  {
   "property": "C228",
   "status": "proved",
   "theorems": [
    "Verif.C228_knn",
    "Verif.C228_knn_same_order",
    "Verif.C228_knn_inner",
    "Verif.C228_nearest_mean_inner"
   ],
   "note": "Nearest neighbours in any arithmetic (C228_knn); increasing functions of the distance and turned points over the reals. The nearest-mean part needs no bound on the distances because the compared numbers are equal."
  },
  {
   "property": "C229",
   "status": "proved",
   "theorems": [
    "Verif.C229_names",
    "Verif.C229_names_double",
    "Verif.C229_exchanged",
    "Verif.C229_exchanged_double"
   ],
   "note": "Renaming and exchange over the reals and, for up to 2^53 classifications, bit for bit in double precision, although the rows are added in another order."
  }
 ]
}