{"claims": [
 {"property": "C01", "status": "proved", "theorems": ["Gasur.Props.C01_assign_opt_optimal", "Gasur.Props.C01_assign_opt_full"], "note": "exact arithmetic"},
 {"property": "C02", "status": "proved", "theorems": ["Gasur.Props.C02_assign_opt_total", "Gasur.Props.C02_fuel_irrelevant"], "note": ""},
 {"property": "C03", "status": "proved", "theorems": ["Gasur.Props.C03_assign_opt_cost", "Gasur.Props.C03_assign_opt_all_inf"], "note": ""},
 {"property": "C04", "status": "proved", "theorems": ["Gasur.Props.C04_murty_m_best", "Gasur.Props.C04_murty_edge"], "note": "exact arithmetic; at least one row"},
 {"property": "C05", "status": "proved", "theorems": ["Gasur.Props.C05_murty_rows"], "note": "exact arithmetic"},
 {"property": "C06", "status": "proved", "theorems": ["Gasur.Props.C06_bfm_shortest", "Gasur.Props.C06_bfm_errors"], "note": "exact arithmetic; at least two vertices; error cases characterised"},
 {"property": "C07", "status": "proved", "theorems": ["Gasur.Props.C07_bfm_path_simple", "Gasur.Props.C07_negative_cycle_loops"], "note": "also shows that a negative cycle makes the loop endless"},
 {"property": "C08", "status": "partial", "theorems": ["Gasur.Props.C08_k_shortest_partial", "Gasur.Props.C08_first_two_partial", "Gasur.Props.C08_small_partial", "Gasur.Props.C08_one_missing_partial", "Gasur.Props.C08_never_too_cheap_partial", "Gasur.Props.C08_refuted", "Gasur.Props.C08_refuted_cost", "Gasur.Props.C08_refuted_incomplete", "Gasur.Props.C08_witness", "Gasur.Props.C08_witness_all"], "note": "false of this code (graphs.py:148); refuted with witnesses (wrong cost, duplicates, subsets never returned even if all are asked for); proved: termination, number and shape of paths, every row for every k is the row of a subset with at most one element missing, never too cheap for non-negative costs, the first two paths are the two cheapest subsets with their own costs for every k, and the full claim for k \u2264 2 or at most one element"},
 {"property": "C09", "status": "proved", "theorems": ["Gasur.Props.C09_valid_path", "Gasur.Props.C09_complete", "Gasur.Props.C09_start_outside"], "note": "every maze, start inside it, end and cost; never raises; None only if no route; start outside is not checked (C09_start_outside)"},
 {"property": "C10", "status": "partial", "theorems": ["Gasur.Props.C10_shortest_partial", "Gasur.Props.C10_bound", "Gasur.Props.C10_default_bound", "Gasur.Props.C10_refuted"], "note": "shortest for cost >= sqrt 2; for every cost at most max(cost, sqrt 2)/cost times the shortest; refuted for the default cost 1"},
 {"property": "C100", "status": "partial", "theorems": ["Gasur.Props.C100_ospa_triangle_partial", "Gasur.Props.C100_total_refuted", "Gasur.Props.C100_hellinger_refuted", "Gasur.Props.C100_mahalanobis_refuted"], "note": "False in general: for p = 2 the returned sum of the components violates it, and so do the Hellinger and Mahalanobis methods for p = 1 (refuted with witnesses). Proved for Euclidean and Manhattan, packed slots, every p for the combination of the cited paper, for p = 1 for the returned value, for p > 1 up to the factor 2^(1-1/p)."},
 {"property": "C101", "status": "partial", "theorems": ["Gasur.Props.C101_ospa2_triangle_partial", "Gasur.Props.C101_total_refuted"], "note": "False in general: for p = 2 the returned sum violates it (refuted). Proved for Euclidean and Manhattan whenever the calls return, every p for the combination of the cited paper, for p = 1 for the returned value, for p > 1 up to the factor 2^(1-1/p)."},
 {"property": "C102", "status": "proved", "theorems": ["Gasur.Props.C102_history"], "note": "one entry per extracting call, each the C33 report on the mixture after that call"},
 {"property": "C103", "status": "proved", "theorems": ["Gasur.Props.C103_other_horizon", "Gasur.Props.C103_refused"], "note": "all pairs of different horizons, at least one state variable"},
 {"property": "C104", "status": "partial", "theorems": ["Gasur.Props.C104_latest_partial", "Gasur.Props.C104_refuted"], "note": "Refuted: states is only the last extraction, not one element per time step."},
 {"property": "C105", "status": "proved", "theorems": ["Gasur.Props.C105_plot_states", "Gasur.Props.C105_nothing_else", "Gasur.Props.C105_succeeds", "Gasur.Props.C105_after_run", "Gasur.Props.C105_empty_fails"], "note": "C105_empty_fails: with true states given but no state known at all the call fails (TypeError); C105_succeeds gives the exact condition."},
 {"property": "C106", "status": "proved", "theorems": ["Gasur.Props.C106_plot_labels", "Gasur.Props.C106_nothing_else", "Gasur.Props.C106_after_run"], "note": "For all histories that agree, and after every run as in C24."},
 {"property": "C107", "status": "partial", "theorems": ["Gasur.Props.C107_card_history_partial", "Gasur.Props.C107_agrees_with_tracks", "Gasur.Props.C107_refuted"], "note": "Refuted: with the default abscissae the call always raises AttributeError (self.card_history does not exist)."},
 {"property": "C108", "status": "partial", "theorems": ["Gasur.Props.C108_ospa_plot_partial", "Gasur.Props.C108_after_ospa", "Gasur.Props.C108_refuted"], "note": "Refuted: sub_opts is not used, and a main figure with one axes makes the component plot fail."},
 {"property": "C109", "status": "proved", "theorems": ["Gasur.Props.C109_card_history", "Gasur.Props.C109_card_dist"], "note": ""},
 {"property": "C11", "status": "partial", "theorems": ["Gasur.Props.C11_value", "Gasur.Props.C11_trivial_partial", "Gasur.Props.C11_refuted"], "note": "the second result is the largest Euclidean distance of a later path cell to the end; refuted as cost"},
 {"property": "C110", "status": "partial", "theorems": ["Gasur.Props.C110_animation_partial", "Gasur.Props.C110_refuted"], "note": "Refuted: states of an earlier time step stay visible at a time step without states; no default figure."},
 {"property": "C111", "status": "partial", "theorems": ["Gasur.Props.C111_measurements_partial", "Gasur.Props.C111_always", "Gasur.Props.C111_refuted"], "note": "Refuted: the joint filter records measurements even if save_measurements is not set."},
 {"property": "C112", "status": "proved", "theorems": ["Gasur.Props.C112_ospa_monotone", "Gasur.Props.C112_ospa2_monotone"], "note": "for both calculate_ospa and calculate_ospa2; Hellinger needs positive definite covariances"},
 {"property": "C113", "status": "proved", "theorems": ["Gasur.Props.C113_cphd_history"], "note": "the second component of the cardinality history is the subject of C66"},
 {"property": "C114", "status": "partial", "theorems": ["Gasur.Props.C114_order_partial", "Gasur.Props.C114_cphd_order_partial", "Gasur.Props.C114_refuted", "Gasur.Props.C114_cphd_refuted"], "note": "Proved for all runs in which weights are distinct whenever the mixture is merged or capped (CPHD: or extracted, and the inner covariance does not depend on the measurement). Refuted otherwise with runs of two calls."},
 {"property": "C115", "status": "proved", "theorems": ["Gasur.Props.C115_track_life", "Gasur.Props.C115_determined", "Gasur.Props.C115_counts", "Gasur.Props.C115_joint_track_life"], "note": "GLMB and joint GLMB, any sequence of calls; birth terms must have as many states, covariances and filters as weights."},
 {"property": "C116", "status": "proved", "theorems": ["Gasur.Props.C116_distinct", "Gasur.Props.C116_joint_distinct"], "note": "GLMB and joint GLMB; distinct birth labels, argsort hypothesis recorded."},
 {"property": "C117", "status": "proved", "theorems": ["Gasur.Props.C117_reported_tracks"], "note": "GLMB filter."},
 {"property": "C118", "status": "proved", "theorems": ["Gasur.Props.C118_joint_run_exact"], "note": "exact reals; external numeric functions are exp(-x) and -log x; draws are independent uniform"},
 {"property": "C119", "status": "proved", "theorems": ["Gasur.Props.C119_bound", "Gasur.Props.C119_steady"], "note": "exact arithmetic in an ordered field"},
 {"property": "C12", "status": "proved", "theorems": ["Gasur.Props.C12_gibbs", "Gasur.Props.C12_gibbs_errors"], "note": "Exact arithmetic, finite costs, random numbers as a parameter in [0,1)."},
 {"property": "C120", "status": "proved", "theorems": ["Gasur.Props.C120_coordinates", "Gasur.Props.C120_joint_coordinates", "Gasur.Props.C120_always"], "note": "exact arithmetic; external numeric routines are the same in both runs"},
 {"property": "C121", "status": "proved", "theorems": ["Gasur.Props.C121_coordinates", "Gasur.Props.C121_cphd_coordinates", "Gasur.Props.C121_always"], "note": "exact arithmetic; elementary symmetric functions and argsort are the same in both runs"},
 {"property": "C122", "status": "proved", "theorems": ["Gasur.Props.C122_ospa_moved", "Gasur.Props.C122_ospa2_moved", "Gasur.Props.C122_ospa_unit", "Gasur.Props.C122_ospa2_unit"], "note": "exact reals; for units the assignment routine must be optimal; what the code calls Mahalanobis distance (C61) is kept by rotations and translations"},
 {"property": "C123", "status": "proved", "theorems": ["Gasur.Props.C123_phd_components", "Gasur.Props.C123_phd_memory", "Gasur.Props.C123_cphd_components", "Gasur.Props.C123_cphd_memory", "Gasur.Props.C123_glmb_hypotheses", "Gasur.Props.C123_glmb_memory", "Gasur.Props.C123_joint_hypotheses", "Gasur.Props.C123_joint_memory"], "note": "per call and per time step; the square root passed to the filter must be non-negative (numpy sqrt is); exact arithmetic"},
 {"property": "C124", "status": "proved", "theorems": ["Gasur.Props.C124_tracks", "Gasur.Props.C124_table", "Gasur.Props.C124_reported", "Gasur.Props.C124_joint_tracks", "Gasur.Props.C124_joint_reported"], "note": "reports of the joint filter under the condition of C125"},
 {"property": "C125", "status": "partial", "theorems": ["Gasur.Props.C125_joint_history_partial", "Gasur.Props.C125_joint_reported_tracks_partial", "Gasur.Props.C125_refuted"], "note": "False if states are extracted between predict and correct (C125_refuted: one label reported twice per time step, another object lost); proved if every extraction follows a correct call after the last predict call."},
 {"property": "C126", "status": "proved", "theorems": ["Gasur.Props.C126_decay", "Gasur.Props.C126_forgotten", "Gasur.Props.C126_silence"], "note": "if p_S (1-p_D) < 1, clutter > 0 and a positive pruning threshold; births may still occur before the quiet steps"},
 {"property": "C127", "status": "proved", "theorems": ["Gasur.Props.C127_intensity", "Gasur.Props.C127_cphd_intensity", "Gasur.Props.C127_cleanup_differs"], "note": "PHD: non-negative weights and likelihoods, positive clutter; CPHD: same births and measurement order in both runs; pruning and extraction are not covered and do depend on the representation (C127_cleanup_differs)"},
 {"property": "C128", "status": "proved", "theorems": ["Gasur.Props.C128_murty_prefix", "Gasur.Props.C128_k_shortest_prefix"], "note": "k_shortest: if the larger request is answered (C08 says when)"},
 {"property": "C129", "status": "proved", "theorems": ["Gasur.Props.C129_order", "Gasur.Props.C129_transpose", "Gasur.Props.C129_units", "Gasur.Props.C129_murty_costs", "Gasur.Props.C129_murty_order"], "note": "non-negative costs for assign_opt as in C01; the chosen pairs themselves may differ when the optimum is not unique"},
 {"property": "C13", "status": "proved", "theorems": ["Gasur.Props.C13_joint_update"], "note": "joint update: tracks subset of the candidates, no measurement twice, each index points at its own update"},
 {"property": "C130", "status": "proved", "theorems": ["Gasur.Props.C130_measurement_order"], "note": "The result is the same up to the choice among associations of exactly equal weight (which carry the same labels and weights)."},
 {"property": "C131", "status": "proved", "theorems": ["Gasur.Props.C131_excluded", "Gasur.Props.C131_cheapest"], "note": "Finite costs must be zero or at least eps in absolute value, as in C08 (smaller entries make the code index out of range)."},
 {"property": "C132", "status": "proved", "theorems": ["Gasur.Props.C132_possible"], "note": "Every predicted hypothesis holds only tracks of positive birth or survival probability."},
 {"property": "C133", "status": "proved", "theorems": ["Gasur.Props.C133_costs", "Gasur.Props.C133_paths", "Gasur.Props.C133_ties"], "note": "Costs for every order and tie-break; index lists for distinct finite costs (with ties they can differ: C133_ties)."},
 {"property": "C134", "status": "proved", "theorems": ["Gasur.Props.C134_birth_order"], "note": "whole runs, both directions; ties among log odds of birth terms excluded because the argsort used breaks them by position"},
 {"property": "C135", "status": "proved", "theorems": ["Gasur.Props.C135_save_covs", "Gasur.Props.C135_joint_save_covs", "Gasur.Props.C135_never_fails"], "note": "GLMB and joint GLMB filter with constant or track-dependent probabilities that do not read covariances; birth terms with one covariance per state."},
 {"property": "C136", "status": "partial", "theorems": ["Gasur.Props.C136_detection_odds_partial", "Gasur.Props.C136_ruled_out_pruned_partial", "Gasur.Props.C136_refuted_by_eps", "Gasur.Props.C136_refuted_blind"], "note": "False of the code: eps is added to each component weight and non-positive costs become eps (C136_refuted_by_eps over the reals, C136_refuted_blind for p_D=0). Proved: the odds bound for every hypothesis, and that pruning removes ruled-out associations if the computed odds are at most the threshold. Missing: exactness without pruning, p_D = 0, depleted filters."},
 {"property": "C137", "status": "proved", "theorems": ["Gasur.Props.C137_states_per_time"], "note": "Runs with and without the record compared call by call."},
 {"property": "C138", "status": "proved", "theorems": ["Gasur.Props.C138_cleanup_twice", "Gasur.Props.C138_run", "Gasur.Props.C138_joint_run"], "note": "GLMB and joint filter, both flags in any combination; extraction excluded since it appends a report."},
 {"property": "C139", "status": "partial", "theorems": ["Gasur.Props.C139_cleanup_twice_partial", "Gasur.Props.C139_refuted"], "note": "Proved with merging disabled. With merging it is false of the code (C139_refuted)."},
 {"property": "C14", "status": "proved", "theorems": ["Gasur.Props.C14_tracks_valid"], "note": "all reachable states of any call sequence"},
 {"property": "C140", "status": "partial", "theorems": ["Gasur.Props.C140_units_partial", "Gasur.Props.C140_refuted"], "note": "False of the code: eps is added to likelihoods, whatever their unit (C140_refuted). C140_units_partial: units act exactly as dividing eps by the factor (GLMB correct, no depletion, detection probability in (0,1])."},
 {"property": "C141", "status": "proved", "theorems": ["Gasur.Props.C141_settles", "Gasur.Props.C141_cphd_settles"], "note": "PHD and CPHD; exact arithmetic; the quadratic form of zero is zero and argsort sorts"},
 {"property": "C142", "status": "partial", "theorems": ["Gasur.Props.C142_fallback_partial", "Gasur.Props.C142_filter_fallback_partial", "Gasur.Props.C142_no_fallback", "Gasur.Props.C142_filter_no_fallback", "Gasur.Props.C142_refuted"], "note": "false for the Hellinger distance without covariances of the estimates (C142_refuted, C142_no_fallback, C142_filter_no_fallback); the fallbacks that exist are proved"},
 {"property": "C143", "status": "proved", "theorems": ["Gasur.Props.C143_phd", "Gasur.Props.C143_cphd", "Gasur.Props.C143_glmb", "Gasur.Props.C143_glmb_two", "Gasur.Props.C143_joint"], "note": "GLMB and joint GLMB: all extractions are left out at once, and any two successful sequences that differ only in their extractions agree (that a kept extraction still succeeds when an earlier one is left out is not claimed)"},
 {"property": "C144", "status": "partial", "theorems": ["Gasur.Props.PhdCrash.C144_predict", "Gasur.Props.PhdCrash.C144_correct_partial", "Gasur.Props.PhdCrash.C144_cleanup_partial", "Gasur.Props.PhdCrash.C144_history_partial", "Gasur.Props.PhdCrash.C144_any_history", "Gasur.Props.PhdCrash.C144_refuted_cleanup", "Gasur.Props.PhdCrash.C144_refuted_correct", "Gasur.Props.CrashHonest.C144_no_hidden_fault"], "note": "predict is atomic; correct keeps mixture and states but not the measurement table (refuted with a witness); a cleanup that raises while merging overwrites weights with -1 (refuted with a witness, exact effect proved). History theorem for all sequences whose cleanups do not raise; list alignment and reported states for all sequences."},
 {"property": "C145", "status": "partial", "theorems": ["Gasur.Props.GlmbCrash.C145_predict", "Gasur.Props.GlmbCrash.C145_correct_partial", "Gasur.Props.GlmbCrash.C145_extract_partial", "Gasur.Props.GlmbCrash.C145_cleanup_partial", "Gasur.Props.GlmbCrash.C145_agrees", "Gasur.Props.GlmbCrash.C145_history", "Gasur.Props.GlmbCrash.C145_refuted_correct", "Gasur.Props.GlmbCrash.C145_refuted_extract", "Gasur.Props.GlmbCrash.C145_refuted_cleanup", "Gasur.Props.CrashHonest.C145_no_hidden_fault"], "note": "predict is atomic and the history theorem is proved; as stated (the filter is as before a failed call) it is refuted with witnesses for correct (measurement table), extract_states (reported results emptied) and cleanup (step counter)"},
 {"property": "C146", "status": "partial", "theorems": ["Gasur.Props.CphdCrash.C146_predict_partial", "Gasur.Props.CphdCrash.C146_correct_partial", "Gasur.Props.CphdCrash.C146_cleanup_partial", "Gasur.Props.CphdCrash.C146_history_partial", "Gasur.Props.CphdCrash.C146_any_history", "Gasur.Props.CphdCrash.C146_refuted_predict", "Gasur.Props.CphdCrash.C146_refuted_correct", "Gasur.Props.CrashHonest.C146_no_hidden_fault"], "note": "Atomicity of a failed call is refuted for predict (empty birth term), correct (measurement table) and cleanup (weights, see C144); what survives each failure is proved for all crash points, and whole histories refine the model without exceptions."},
 {"property": "C147", "status": "partial", "theorems": ["Gasur.Props.JglmbCrash.C147_predict", "Gasur.Props.JglmbCrash.C147_correct_partial", "Gasur.Props.JglmbCrash.C147_cleanup_partial", "Gasur.Props.JglmbCrash.C147_agrees", "Gasur.Props.JglmbCrash.C147_history", "Gasur.Props.JglmbCrash.C147_no_hidden_fault", "Gasur.Props.JglmbCrash.C147_one_prediction", "Gasur.Props.JglmbCrash.C147_stuck", "Gasur.Props.JglmbCrash.C147_refuted"], "note": "The clause that later calls work is refuted (C147_stuck, C147_refuted: after a failed correction and the next prediction all corrections raise), and so is atomicity of correct (measurement table) and cleanup; all other clauses are proved for all crash points and histories."},
 {"property": "C148", "status": "proved", "theorems": ["Gasur.Props.C148_phd", "Gasur.Props.C148_glmb", "Gasur.Props.C148_joint"], "note": "exact arithmetic; the exponential function has no zero"},
 {"property": "C149", "status": "proved", "theorems": ["Gasur.Props.C149_clutter_monotone", "Gasur.Props.C149_detected_weight"], "note": "one update; likelihoods and weights non-negative"},
 {"property": "C15", "status": "partial", "theorems": ["Gasur.Props.C15_labels_partial", "Gasur.Props.C15_refuted"], "note": "true if rounded predict times are pairwise distinct; false otherwise (two predicts inside one rounding interval)"},
 {"property": "C150", "status": "proved", "theorems": ["Gasur.Props.OspaHist.C150_last_values", "Gasur.Props.OspaHist.C150_last_params", "Gasur.Props.OspaHist.C150_nothing_yet", "Gasur.Props.OspaHist.C150_recorded_params", "Gasur.Props.OspaHist.C150_values", "Gasur.Props.OspaHist.C150_is_filter_ospa", "Gasur.Props.OspaHist.C150_values2"], "note": "all histories of any number of filters; parameters for histories without restoring (C151 is about the others)"},
 {"property": "C151", "status": "partial", "theorems": ["Gasur.Props.OspaHist.C151_restored_titles_partial", "Gasur.Props.OspaHist.C151_shared", "Gasur.Props.OspaHist.C151_refuted"], "note": "false in the code: save_filter_state stores _ospa_params under the key _ospa2_params (line 1929). Proved: after restoring, the OSPA(2) plot always raises KeyError (C151_restored_titles_partial, which also proves the part that holds), and a later OSPA(2) calculation overwrites the OSPA parameters of both filters (C151_shared); concrete history C151_refuted"},
 {"property": "C152", "status": "proved", "theorems": ["Gasur.Props.Gate.C152_used", "Gasur.Props.Gate.C152_refines", "Gasur.Props.Gate.C152_closed_gate", "Gasur.Props.Gate.C152_wide_gate", "Gasur.Props.Gate.C152_phd", "Gasur.Props.Gate.C152_phd_correct", "Gasur.Props.Gate.C152_phd_blind", "Gasur.Props.Gate.C152_phd_wide", "Gasur.Props.Gate.C152_cphd", "Gasur.Props.Gate.C152_cphd_correct", "Gasur.Props.Gate.C152_cphd_blind"], "note": "all sequences of calls; any inner filter and distance; PHD and CPHD"},
 {"property": "C153", "status": "partial", "theorems": ["Gasur.Props.OspaLocal.C153_ospa_local", "Gasur.Props.OspaLocal.C153_ospa2_local", "Gasur.Props.OspaLocal.C153_ospa_prefix", "Gasur.Props.OspaLocal.C153_ospa2_prefix", "Gasur.Props.OspaLocal.C153_phd_prefix_partial", "Gasur.Props.OspaLocal.C153_glmb_prefix_partial", "Gasur.Props.OspaLocal.C153_glmb2_prefix_partial", "Gasur.Props.OspaLocal.C153_refuted"], "note": "Proved for the functions; for the filters when the truth is listed without None before an object. False otherwise (C153_refuted)."},
 {"property": "C154", "status": "proved", "theorems": ["Gasur.Props.GibbsMore.C154_more_iterations", "Gasur.Props.GibbsMore.C154_sorted", "Gasur.Props.GibbsMore.C154_shift"], "note": "exact arithmetic; expNeg positive with the law of exp(-x) for the shift"},
 {"property": "C155", "status": "partial", "theorems": ["Gasur.Props.PhdHeap.C155_values_partial", "Gasur.Props.PhdHeap.C155_caller", "Gasur.Props.PhdHeap.C155_record", "Gasur.Props.PhdHeap.C155_refuted"], "note": "The full claim would also cover arrays and lists that the filter hands out; it is false there: writing to an array got from states changes the filter (C155_refuted). Proved for all other objects."},
 {"property": "C156", "status": "partial", "theorems": ["Gasur.Props.GlmbHeap.C156_values_partial", "Gasur.Props.GlmbHeap.C156_measurements", "Gasur.Props.GlmbHeap.C156_separate", "Gasur.Props.GlmbHeap.C156_unchanged", "Gasur.Props.GlmbHeap.C156_refuted"], "note": "The full claim would also cover arrays that the filter hands out; false there (C156_refuted). Proved for all other arrays."},
 {"property": "C157", "status": "partial", "theorems": ["Gasur.Props.JglmbHeap.C157_values_partial", "Gasur.Props.JglmbHeap.C157_measurements", "Gasur.Props.JglmbHeap.C157_separate", "Gasur.Props.JglmbHeap.C157_unchanged", "Gasur.Props.JglmbHeap.C157_missed", "Gasur.Props.JglmbHeap.C157_refuted"], "note": "The full claim would also cover arrays that the filter hands out; false there (C157_refuted). Proved for all other arrays."},
 {"property": "C158", "status": "partial", "theorems": ["Gasur.Props.CphdHeap.C158_values_partial", "Gasur.Props.CphdHeap.C158_measurements", "Gasur.Props.CphdHeap.C158_separate", "Gasur.Props.CphdHeap.C158_unchanged", "Gasur.Props.CphdHeap.C158_correct_arrays", "Gasur.Props.CphdHeap.C158_shared", "Gasur.Props.CphdHeap.C158_refuted"], "note": "The full claim would also cover arrays that the filter hands out; false there (C158_refuted). Proved for all other arrays."},
 {"property": "C159", "status": "proved", "theorems": ["Gasur.Props.C159_more_clutter"], "note": "requires enough requested updates (as C98); the filter truncates otherwise"},
 {"property": "C16", "status": "partial", "theorems": ["Gasur.Props.C16_predict", "Gasur.Props.C16_correct_partial", "Gasur.Props.C16_prune_cap", "Gasur.Props.C16_run_partial", "Gasur.Props.C16_refuted"], "note": "predict, prune, cap; correct only without depletion; false for correct with depletion (weights not renormalised)"},
 {"property": "C160", "status": "proved", "theorems": ["Gasur.Props.C160_poisson"], "note": "limit max_expected_card to infinity; correction step only"},
 {"property": "C161", "status": "proved", "theorems": ["Gasur.Props.C161_glmb", "Gasur.Props.C161_cphd"], "note": ""},
 {"property": "C162", "status": "proved", "theorems": ["Gasur.Props.C162_more_updates"], "note": "for every filter state and every pair of values of req_upd; hypotheses: exp/log laws, antitone, positive square roots, probabilities strictly between 0 and 1"},
 {"property": "C163", "status": "proved", "theorems": ["Gasur.Props.C163_better_sensor"], "note": "detection probability the same for all tracks; hypotheses with equally many tracks; enough requested updates (C98)"},
 {"property": "C164", "status": "proved", "theorems": ["Gasur.Props.C164_cleanup_error", "Gasur.Props.C164_joint"], "note": "hypotheses: positive probabilities of sum one (C16, C50) and a correct argsort"},
 {"property": "C165", "status": "proved", "theorems": ["Gasur.Props.C165_forget", "Gasur.Props.C165_limit"], "note": "same detection probability for all tracks; exp/log laws; no predictions"},
 {"property": "C166", "status": "proved", "theorems": ["Gasur.Props.C166_ospa_stable", "Gasur.Props.C166_attained"], "note": "Euclidean and Manhattan method (the Hellinger and Mahalanobis distances do not satisfy the triangle inequality, C100)"},
 {"property": "C167", "status": "proved", "theorems": ["Gasur.Props.C167_ospa2_stable"], "note": "Euclidean and Manhattan method (as C166)"},
 {"property": "C168", "status": "proved", "theorems": ["Gasur.Props.C168_forget", "Gasur.Props.C168_limit", "Gasur.Props.C168_reported"], "note": "the factor is the death probability of the code instead of the probability of a miss (C37)"},
 {"property": "C169", "status": "proved", "theorems": ["Gasur.Props.C169_robust", "Gasur.Props.number_ratio"], "note": "the sensor models differ at most by a factor rho per track; exact threshold of hypotheses is existential"},
 {"property": "C17", "status": "proved", "theorems": ["Gasur.Props.C17_update_structure"], "note": "structure of every updated hypothesis"},
 {"property": "C170", "status": "proved", "theorems": ["Gasur.Props.C170_robust", "Gasur.Props.C170_history"], "note": "measurements after gating; exact arithmetic; histories without clean-ups, with an explicit factor (spread)"},
 {"property": "C171", "status": "proved", "theorems": ["Gasur.Props.C171_cleanup_mass"], "note": "exact arithmetic; calls that raise are C144"},
 {"property": "C172", "status": "proved", "theorems": ["Gasur.Props.C172_unexplained"], "note": "exact arithmetic; measurements after gating"},
 {"property": "C173", "status": "proved", "theorems": ["Gasur.Props.C173_stable", "Gasur.Props.C173_monotone"], "note": "exact arithmetic"},
 {"property": "C174", "status": "proved", "theorems": ["Gasur.Props.C174_triangle", "Gasur.Props.C174_stable", "Gasur.Props.C174_monotone"], "note": "exact arithmetic; no negative cycles"},
 {"property": "C175", "status": "proved", "theorems": ["Gasur.Props.C175_stable", "Gasur.Props.C175_monotone"], "note": "exact arithmetic"},
 {"property": "C176", "status": "proved", "theorems": ["Gasur.Props.C176_stable"], "note": "exact arithmetic and the real exponential; ideal random numbers"},
 {"property": "C18", "status": "proved", "theorems": ["Gasur.Props.C18_cleanup", "Gasur.Props.C18_predict"], "note": "merging and distinctness"},
 {"property": "C19", "status": "partial", "theorems": ["Gasur.Props.C19_clean_updates_partial", "Gasur.Props.C19_refuted"], "note": "hypotheses keep their entries; every entry used only without depletion, false with depletion"},
 {"property": "C20", "status": "proved", "theorems": ["Gasur.Props.C20_prune"], "note": ""},
 {"property": "C21", "status": "proved", "theorems": ["Gasur.Props.C21_cap"], "note": ""},
 {"property": "C22", "status": "partial", "theorems": ["Gasur.Props.C22_cardinality_partial", "Gasur.Props.C22_refuted_predict", "Gasur.Props.C22_refuted_correct"], "note": "true after prune, cap, correct without depletion; false after predict and after correct with depletion"},
 {"property": "C23", "status": "partial", "theorems": ["Gasur.Props.C23_best_hypothesis_partial", "Gasur.Props.C23_refuted"], "note": "true when the cardinality distribution matches the hypotheses; false after predict (hypothesis of another cardinality reported)"},
 {"property": "C24", "status": "proved", "theorems": ["Gasur.Props.C24_history"], "note": "any call sequence with distinct rounded predict times (see C15)"},
 {"property": "C25", "status": "partial", "theorems": ["Gasur.Props.C25_glmb_partial", "Gasur.Props.C25_glmb_but_ospa2_partial", "Gasur.Props.C25_jglmb_partial", "Gasur.Props.C25_refuted_no_filter", "Gasur.Props.C25_refuted_ospa2", "Gasur.Props.C25_refuted_glmb", "Gasur.Props.C25_refuted_smc", "Gasur.Props.C25_refuted_phd"], "note": "False as stated: a GLMB filter without inner filter gets a tuple as filter, OSPA(2) parameters are overwritten, SMC functions are not saved, PHD/CPHD save and load always raise (C25_refuted_*). Proved lossless for GLMB/joint GLMB filters with an inner filter and equal OSPA parameters; the inner filter save/load is assumed lossless."},
 {"property": "C26", "status": "partial", "theorems": ["Gasur.Props.C26_snapshot_partial", "Gasur.Props.C26_reachable", "Gasur.Props.C26_store_model", "Gasur.Props.C26_restored_now", "Gasur.Props.C26_refuted_correct", "Gasur.Props.C26_refuted_measurements"], "note": "False as stated (shared objects): C26_refuted_*. Proved for every sequence whose first hypothesis-changing call is predict or correct with measurements, and without save_measurements for the measurement table."},
 {"property": "C27", "status": "proved", "theorems": ["Gasur.Props.C27_aligned_nonneg", "Gasur.Props.C27_never_fails"], "note": "Any sequence of calls; either invariant holds or a division by zero occurred (C27_aligned_nonneg); with positive clutter and pruning there is no failure at all (C27_never_fails)."},
 {"property": "C28", "status": "proved", "theorems": ["Gasur.Props.C28_predict_mass", "Gasur.Props.C28_cphd_predict"], "note": "PHD and CPHD"},
 {"property": "C29", "status": "proved", "theorems": ["Gasur.Props.C29_correct_mass", "Gasur.Props.C29_correct_no_meas", "Gasur.Props.C29_correct_failure"], "note": "C29_correct_failure characterises the only failure (zero denominator)."},
 {"property": "C30", "status": "proved", "theorems": ["Gasur.Props.C30_prune"], "note": ""},
 {"property": "C31", "status": "proved", "theorems": ["Gasur.Props.C31_merge", "Gasur.Props.C31_merge_negative_threshold"], "note": "For merge_threshold >= 0; C31_merge_negative_threshold shows that a negative threshold always fails."},
 {"property": "C32", "status": "partial", "theorems": ["Gasur.Props.C32_cap_partial", "Gasur.Props.C32_cap_zero"], "note": "Proved for max_gauss >= 1; false for max_gauss = 0 (C32_cap_zero: idx[0:-0] is empty)."},
 {"property": "C33", "status": "proved", "theorems": ["Gasur.Props.C33_extract", "Gasur.Props.C33_round", "Gasur.Props.C33_half"], "note": ""},
 {"property": "C34", "status": "partial", "theorems": ["Gasur.Props.C34_gate_partial", "Gasur.Props.C34_gate_sublist", "Gasur.Props.C34_refuted"], "note": "Holds when the Cholesky factor is normal (e.g. diagonal or 1-d innovation covariance); false in general (C34_refuted: transposed inverse factor)."},
 {"property": "C35", "status": "partial", "theorems": ["Gasur.Props.C35_constructor_partial", "Gasur.Props.C35_refuted"], "note": "False: the base constructor resets the gate to 0 (C35_refuted). The other arguments are retained."},
 {"property": "C36", "status": "proved", "theorems": ["Gasur.Props.C36_distribution", "Gasur.Props.C36_predict_total", "Gasur.Props.C36_correct_total", "Gasur.Props.C36_default_nan"], "note": "every sequence of calls; no NaN and no failure under the stated conditions; with the default prob_survive = 1 predict gives NaN"},
 {"property": "C37", "status": "partial", "theorems": ["Gasur.Props.C37_mass_partial", "Gasur.Props.C37_iff", "Gasur.Props.C37_refuted"], "note": "the identity holds exactly when prob_miss_detection = 1 - prob_survive (or no object is possible); refuted otherwise"},
 {"property": "C38", "status": "partial", "theorems": ["Gasur.Props.C38_prediction_partial", "Gasur.Props.C38_refuted", "Gasur.Props.C38_births_refuted"], "note": "proved for priors on {0,1} and single-Gaussian birth terms; refuted in general (factorial in the numerator, missing top survivor, only the first birth weight)"},
 {"property": "C39", "status": "partial", "theorems": ["Gasur.Props.C39_ospa_bounded_partial", "Gasur.Props.C39_one_per_step", "Gasur.Props.C39_total_refuted"], "note": "both components in [0,c] for all inputs and methods; one value per time step; total <= c proved for p=1 and refuted for p>=2 (witness total sqrt 2)"},
 {"property": "C40", "status": "partial", "theorems": ["Gasur.Props.C40_ospa_symmetric", "Gasur.Props.C40_ospa_is_ospa_partial", "Gasur.Props.C40_ospa_permutation_partial", "Gasur.Props.C40_ospa_zero_iff_partial", "Gasur.Props.C40_permutation_refuted"], "note": "symmetry proved in full; exact OSPA value, permutation invariance and zero-iff-equal proved when objects occupy the first slots; refuted otherwise"},
 {"property": "C41", "status": "partial", "theorems": ["Gasur.Props.C41_perfect_estimate_partial", "Gasur.Props.C41_phd_ospa_exact", "Gasur.Props.C41_glmb_refuted"], "note": "proved for packed slots and for the PHD filters; refuted for GLMB filters (dead track leaves an empty slot)"},
 {"property": "C42", "status": "partial", "theorems": ["Gasur.Props.C42_ospa2_value", "Gasur.Props.C42_ospa2_bounded", "Gasur.Props.C42_ospa2_symmetric", "Gasur.Props.C42_ospa2_relabel_partial", "Gasur.Props.C42_ospa2_window_one", "Gasur.Props.C42_ospa2_raises_iff", "Gasur.Props.C42_relabel_refuted"], "note": "value, bounds, symmetry, window 1 proved whenever the call returns; exact characterisation of when it raises; relabelling can turn success into an exception (refuted)"},
 {"property": "C43", "status": "partial", "theorems": ["Gasur.Props.C43_setup_preserves_partial", "Gasur.Props.C43_setup_total", "Gasur.Props.C43_setup_raises_iff", "Gasur.Props.C43_refuted", "Gasur.Props.C43_glmb_setup"], "note": "GLMB set-up proved in full; base-class set-up proved whenever it returns, exact characterisation of when it raises; refuted for lists with None holes"},
 {"property": "C44", "status": "proved", "theorems": ["Gasur.Props.C44_density", "Gasur.Props.C44_reference_not_checked", "Gasur.Props.C44_object", "Gasur.Props.C44_elqr"], "note": "Constructor checks of DensityBased, GaussianObject and ELQRGaussian characterised for all arguments; C44_reference_not_checked records that y_ref <= 0 is accepted."},
 {"property": "C45", "status": "proved", "theorems": ["Gasur.Props.C45_updates", "Gasur.Props.C45_one", "Gasur.Props.C45_side_effects", "Gasur.Props.C45_own_list"], "note": "All sequences of updates; EigOk (a correct eigenvalue routine) is the recorded hypothesis on scipy.linalg.eig, it exists by the spectral theorem (eigOk_exists)."},
 {"property": "C46", "status": "proved", "theorems": ["Gasur.Props.C46_nearest", "Gasur.Props.C46_center"], "note": ""},
 {"property": "C47", "status": "proved", "theorems": ["Gasur.Props.C47_order"], "note": "Also for inputs on which the cost fails."},
 {"property": "C48", "status": "proved", "theorems": ["Gasur.Props.C48_matching", "Gasur.Props.C48_empty", "Gasur.Props.C48_fresh"], "note": "The choice is the greedy matching by squared Mahalanobis distance below the chi-square threshold (threshold as a parameter); one plan per component, in order, each starting at the component mean, no plan used twice; empty mixture and fresh plans treated separately."},
 {"property": "C49", "status": "proved", "theorems": ["Gasur.Props.C49_covariances", "Gasur.Props.C49_no_covariance", "Gasur.Props.C49_default", "Gasur.Props.C49_pdf"], "note": "Student t as a gamma scale mixture of Mathlib multivariateGaussian; second moments by integration; scipy densities are parameters in C49_pdf"},
 {"property": "C50", "status": "proved", "theorems": ["Gasur.Props.C50_never_fails"], "note": ""},
 {"property": "C51", "status": "proved", "theorems": ["Gasur.Props.C51_bayes_weights"], "note": ""},
 {"property": "C52", "status": "proved", "theorems": ["Gasur.Props.C52_draw", "Gasur.Props.C52_weights"], "note": "Stated for one row update, with the weights that gibbs uses."},
 {"property": "C53", "status": "proved", "theorems": ["Gasur.Props.C53_support"], "note": "Existence of draws; three iterations are enough for every injective assignment."},
 {"property": "C54", "status": "proved", "theorems": ["Gasur.Props.C54_tracks_valid", "Gasur.Props.C54_predict_shifts"], "note": "indices valid after any call sequence; predict shifts"},
 {"property": "C55", "status": "proved", "theorems": ["Gasur.Props.C55_labels", "Gasur.Props.C55_settled"], "note": "labels unique; candidates are the own tracks once correct was called"},
 {"property": "C56", "status": "proved", "theorems": ["Gasur.Props.C56_joint_weights", "Gasur.Props.C56_run"], "note": ""},
 {"property": "C57", "status": "proved", "theorems": ["Gasur.Props.C57_joint_bayes"], "note": "exp/log exact"},
 {"property": "C58", "status": "proved", "theorems": ["Gasur.Props.C58_joint_never_fails"], "note": ""},
 {"property": "C59", "status": "proved", "theorems": ["Gasur.Props.C59_missed_kept"], "note": ""},
 {"property": "C60", "status": "partial", "theorems": ["Gasur.Props.C60_predict_partial", "Gasur.Props.C60_refuted"], "note": "false with births (C60_refuted); true without births"},
 {"property": "C61", "status": "partial", "theorems": ["Gasur.Props.C61_core_distances_partial", "Gasur.Props.C61_fallback", "Gasur.Props.C61_mahalanobis_refuted"], "note": "non-negativity, symmetry, Hellinger <= 1 and the choice of the core distance proved; Mahalanobis refuted (covariance instead of inverse)"},
 {"property": "C62", "status": "partial", "theorems": ["Gasur.Props.C62_kept_histories_partial", "Gasur.Props.C62_refuted"], "note": "Exactly which histories are kept is proved for all states; the claim itself is refuted: measurement indices of different time steps are confused, because [[]]*n repeats one list object."},
 {"property": "C63", "status": "partial", "theorems": ["Gasur.Props.C63_most_probable_partial", "Gasur.Props.C63_terminates", "Gasur.Props.C63_cardinality_refuted", "Gasur.Props.C63_labels_refuted", "Gasur.Props.C63_endless_refuted"], "note": "Proved for every positive threshold for the hypotheses with the most probable number of tracks, with termination; refuted: other cardinalities are missed, label sets contain labels of earlier sets, a threshold of 0 never returns."},
 {"property": "C64", "status": "partial", "theorems": ["Gasur.Props.C64_posterior_partial", "Gasur.Props.C64_refuted"], "note": "proved when prob_miss_detection = 1 - prob_survive; refuted otherwise"},
 {"property": "C65", "status": "proved", "theorems": ["Gasur.Props.C65_extract"], "note": "all aligned mixtures, all argsort tie breakings"},
 {"property": "C66", "status": "partial", "theorems": ["Gasur.Props.C66_history_partial", "Gasur.Props.C66_refuted"], "note": "mode proved; the recorded standard deviation is that of the probabilities, refuted"},
 {"property": "C67", "status": "partial", "theorems": ["Gasur.Props.C67_components_partial", "Gasur.Props.C67_refuted"], "note": "proved for inner filters whose covariance does not depend on the measurement; refuted otherwise"},
 {"property": "C68", "status": "partial", "theorems": ["Gasur.Props.C68_gives_up_partial", "Gasur.Props.C68_refuted"], "note": "False of the code: C68_refuted (a maze of 5 x 38 cells with a route of 72 steps, the search gives up). Partial: it gives up only if there are more than 100000 different simple routes that begin at the start."},
 {"property": "C69", "status": "partial", "theorems": ["Gasur.Props.C69_formula_partial", "Gasur.Props.C69_refuted"], "note": "False of the code for every input with positive weights: the code has the factor 2 where the documentation has 20 (C69_refuted). Partial: it is the formula with the factor 2, with all other claims."},
 {"property": "C70", "status": "partial", "theorems": ["Gasur.Props.C70_valid_partial", "Gasur.Props.C70_refuted", "Gasur.Props.C70_one_coordinate"], "note": "Proved: symmetric and positive semidefinite, one per waypoint, weights. False: definite (single waypoint: covariance 0, the cost then fails); states with one coordinate always fail."},
 {"property": "C71", "status": "proved", "theorems": ["Gasur.Props.C71_translation"], "note": ""},
 {"property": "C72", "status": "partial", "theorems": ["Gasur.Props.C72_axes_partial", "Gasur.Props.C72_refuted"], "note": "False of the code: rows instead of columns of the eigenvector matrix are used (C72_refuted). Holds if that matrix is symmetric."},
 {"property": "C73", "status": "partial", "theorems": ["Gasur.Props.C73_shift_partial", "Gasur.Props.C73_refuted", "Gasur.Props.C73_refuted_inputs"], "note": "C73_shift_partial: all tables except cost_to_come_vec are shifted from their own previous values. C73_refuted: cost_to_come_vec is taken from cost_to_go_vec, so the full property is false of this code. Also refuted for plans with different numbers of inputs (C73_refuted_inputs)."},
 {"property": "C74", "status": "partial", "theorems": ["Gasur.Props.C74_refuted", "Gasur.Props.C74_initialize_refuted"], "note": "False of this code: C74_refuted shows for all inputs that iterate raises whenever a measured component is in the gate of a previous plan (attribute ctrl_input vs ctrl_inputs); C74_initialize_refuted the same for initialize on every reachable state."},
 {"property": "C75", "status": "partial", "theorems": ["Gasur.Props.C75_first_round_partial", "Gasur.Props.C75_refuted"], "note": "C75_first_round_partial: holds for one round. C75_refuted: false from the second round on (states = x_starts aliases the start array)."},
 {"property": "C76", "status": "partial", "theorems": ["Gasur.Props.C76_keywords_partial", "Gasur.Props.C76_refuted"], "note": "C76_keywords_partial: all documented keywords but two set their attribute. C76_refuted: ctrl_inputs and cost_to_go_vec are ignored (the code reads control_input and cost_go_vec)."},
 {"property": "C77", "status": "proved", "theorems": ["Gasur.Props.C77_round_cost"], "note": "All plans have the same number of inputs (the code takes the number from the first plan); inherited final cost a parameter."},
 {"property": "C78", "status": "proved", "theorems": ["Gasur.Props.C78_stop"], "note": "Passes of BaseELQR (gncpy) are parameters."},
 {"property": "C79", "status": "proved", "theorems": ["Gasur.Props.C79_plans"], "note": "For max_iters >= 1; passes of BaseELQR are parameters."},
 {"property": "C80", "status": "proved", "theorems": ["Gasur.Props.C80_quadratize"], "note": "Numerical gradient, Hessian and eigenvalue routine are parameters; the eigenvalue routine is assumed to return eigenpairs, the Hessian is assumed symmetric."},
 {"property": "C81", "status": "proved", "theorems": ["Gasur.Props.C81_sweeps"], "note": "Passes of BaseELQR are parameters."},
 {"property": "C82", "status": "proved", "theorems": ["Gasur.Props.C82_turn_minimises"], "note": ""},
 {"property": "C83", "status": "proved", "theorems": ["Gasur.Props.C83_order", "Gasur.Props.C83_quadratize"], "note": "Passes of BaseELQR are parameters that treat all plans alike (hypothesis SameMethods); C83_quadratize shows this for the part that is in this repository."},
 {"property": "C84", "status": "proved", "theorems": ["Gasur.Props.C84_sample", "Gasur.Props.C84_sample_fails", "Gasur.Props.C84_classes"], "note": "a random result is represented by its distribution; numpy choice and scipy draws by their documented distributions"},
 {"property": "C85", "status": "proved", "theorems": ["Gasur.Props.C85_best_associations"], "note": "no depletion of the inner filter: every track has a likelihood for every measurement (depleted updates are C16/C51)"},
 {"property": "C86", "status": "proved", "theorems": ["Gasur.Props.C86_smc_never_fails"], "note": "particle weights and totality"},
 {"property": "C87", "status": "partial", "theorems": ["Gasur.Props.C87_particles_partial", "Gasur.Props.C87_no_particles", "Gasur.Props.C87_refuted"], "note": "detected tracks and tracks without particles right; missed tracks are not reweighted (refuted)"},
 {"property": "C88", "status": "partial", "theorems": ["Gasur.Props.C88_detection_weight_partial", "Gasur.Props.C88_refuted"], "note": "exact weights; the detection probability is counted twice (refuted)"},
 {"property": "C89", "status": "partial", "theorems": ["Gasur.Props.C89_survival_weights_partial", "Gasur.Props.C89_refuted"], "note": "exact weights; survival probability at the moved particles (refuted)"},
 {"property": "C90", "status": "partial", "theorems": ["Gasur.Props.C90_functions_unused", "Gasur.Props.C90_constant_partial", "Gasur.Props.C90_refuted"], "note": "right for constant functions equal to the attributes; otherwise the functions are ignored (refuted)"},
 {"property": "C91", "status": "partial", "theorems": ["Gasur.Props.C91_birth_tracks", "Gasur.Props.C91_stm_birth_tracks_partial", "Gasur.Props.C91_refuted"], "note": "proved for Gaussian mixtures; for STM the covariances are wrong (refuted)"},
 {"property": "C92", "status": "proved", "theorems": ["Gasur.Props.C92_smc_joint_never_fails"], "note": "Survival probabilities in [a, 1] with a > 0, detection probabilities in [0, 1], draws in [0, 1); the particle filter is a parameter that keeps weights normalised."},
 {"property": "C93", "status": "partial", "theorems": ["Gasur.Props.C93_predict_bayes_partial", "Gasur.Props.C93_refuted"], "note": "Proved when at most two sets of births (or one birth term) are requested and every hypothesis' share is below 5/2 (or it has at most one track); false beyond (C93_refuted): k_shortest drops probable subsets. Hypotheses with tracks carry the extra factor exp(-eps)."},
 {"property": "C94", "status": "proved", "theorems": ["Gasur.Props.C94_stationary"], "note": "exact arithmetic, independent uniform random numbers"},
 {"property": "C95", "status": "proved", "theorems": ["Gasur.Props.C95_converges"], "note": "exact arithmetic, independent uniform random numbers"},
 {"property": "C96", "status": "proved", "theorems": ["Gasur.Props.C96_found"], "note": "exact arithmetic, independent uniform random numbers"},
 {"property": "C97", "status": "proved", "theorems": ["Gasur.Props.C97_joint_exact", "Gasur.Props.C97_reachable"], "note": "State-level theorem and its instance for all reachable states."},
 {"property": "C98", "status": "proved", "theorems": ["Gasur.Props.C98_update_exact"], "note": "Exact arithmetic; expNeg, negLog, sqrt are parameters with the laws of exp(-x), -log, sqrt. Quantifies over every outcome of correct; the example shows that correct succeeds for every R in a concrete case."},
 {"property": "C99", "status": "proved", "theorems": ["Gasur.Props.C99_truncation_error"], "note": "Exact arithmetic as in C98; needs that some hypothesis is left after correct and a positive clutter intensity."}
]}
