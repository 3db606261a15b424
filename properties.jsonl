{"id": "C01", "title": "assign_opt is optimal", "statement": "assign_opt(D) returns an assignment of rows to columns that uses only finite entries, gives no column to two rows, assigns as many rows as any such assignment can, and among those with that many rows has the smallest total cost.", "quantifier": "every matrix of any shape with non-negative or infinite entries (exact arithmetic), against every competing assignment", "why_tests_cant": "optimality compares with factorially many assignments, for every size and every pattern of infinities; a unit test compares a handful of matrices", "anchors": ["src/gasur/utilities/graphs_subroutines.py: assign_opt, __aop_step2a/2b/3/4/5, __aop_build_assign, __aop_comp_assign"]}
{"id": "C02", "title": "assign_opt always terminates and never fails internally", "statement": "On every matrix without a finite negative entry assign_opt returns (no infinite recursion, no index error, no infinite dual step) after a number of cover sweeps bounded by a polynomial in the shape; it raises the 'non-negative' error exactly when some finite entry is negative.", "quantifier": "every matrix of any shape", "why_tests_cant": "the mutual recursion step2a/2b/3/4/5 and the `while z_found` / `while star_row < n_rows` loops have no syntactic bound; a test cannot show they stop on every input", "anchors": ["src/gasur/utilities/graphs_subroutines.py: assign_opt, __aop_step3, __aop_step4, __aop_step5"]}
{"id": "C03", "title": "assign_opt's reported cost is the cost of its assignment", "statement": "The cost returned is exactly the sum of the input entries at the returned (row, column) pairs; unassigned rows are -1 and contribute 0; a matrix with no finite entry returns all -1 and cost 0.", "quantifier": "every matrix of any shape", "why_tests_cant": "must hold on every path through the solver, including rows whose optimum fell on a substituted infinity", "anchors": ["src/gasur/utilities/graphs_subroutines.py: assign_opt, __aop_comp_assign"]}
{"id": "C04", "title": "murty_m_best returns the m best assignments in order", "statement": "murty_m_best(C, m) returns exactly min(m, number of feasible assignments) assignments, pairwise distinct, in non-decreasing cost order, and every feasible assignment that is not returned costs at least as much as every returned one. (An assignment maps each row to 0 = unassigned at cost 0, or to a distinct column with finite cost.)", "quantifier": "every cost matrix with at least one row, any m, entries finite of either sign or +inf", "why_tests_cant": "completeness of a ranked enumeration quantifies over all assignments and over every split of the search tree", "anchors": ["src/gasur/utilities/graphs.py: murty_m_best, __murty_helper"]}
{"id": "C05", "title": "murty_m_best rows are assignments with correct cost", "statement": "Every returned row uses each column at most once, only uses finite entries, has entries in 0..n_cols, and its reported cost equals the sum of the original cost entries it uses.", "quantifier": "every cost matrix with at least one row and every m", "why_tests_cant": "involves the offset x, the dummy columns, and pinned/banned copies of the matrix at every depth of the search", "anchors": ["src/gasur/utilities/graphs.py: murty_m_best, __murty_helper"]}
{"id": "C06", "title": "bfm_shortest_path distances are true shortest distances", "statement": "If the graph has no negative-weight cycle, the cost returned by bfm_shortest_path is the minimum weight of any walk from source to destination (inf iff there is none), and the returned path is a walk in the graph from source to destination with exactly that weight.", "quantifier": "every square weight matrix with no negative cycle (entries below eps in magnitude meaning 'no arc'), every source and destination", "why_tests_cant": "minimum over all walks of all lengths, for all arc orders and early-exit points", "anchors": ["src/gasur/utilities/graphs.py: bfm_shortest_path, __bfm_helper"]}
{"id": "C07", "title": "bfm_shortest_path always stops and reconstructs a simple path", "statement": "Absent negative cycles, following predecessors from the destination always reaches the source in at most n steps without repeating a vertex (so the reconstruction loop stops).", "quantifier": "every square weight matrix with no negative cycle", "why_tests_cant": "the predecessor array is updated in place during relaxation; acyclicity must hold after every prefix of every relaxation order", "anchors": ["src/gasur/utilities/graphs.py: bfm_shortest_path, __bfm_helper"]}
{"id": "C08", "title": "k_shortest returns the k cheapest subsets in order", "statement": "k_shortest(costs, k) returns the k cheapest subsets of indices (as increasing-cost paths), each with its cost, in non-decreasing cost order, k of them whenever that many subsets exist.", "quantifier": "every cost vector and every k", "why_tests_cant": "ranking over all 2^n subsets; the deviation step rewrites partial paths, so errors only show on particular cost orders", "anchors": ["src/gasur/utilities/graphs.py: k_shortest, __k_short_helper"]}
{"id": "C09", "title": "a_star_search returns a valid walk", "statement": "Whenever a_star_search returns a path, the path starts at the start cell, consecutive cells are 8-neighbours, every cell is inside the maze and every cell after the start is walkable, no cell repeats, and if the search did not hit its iteration cap the path ends at the end cell.", "quantifier": "every maze, start, end and step cost", "why_tests_cant": "path validity must hold for every maze shape and every expansion order", "anchors": ["src/gasur/utilities/graphs.py: a_star_search", "src/gasur/utilities/graphs_subroutines.py: AStarNode, astar_return_path"]}
{"id": "C10", "title": "a_star_search finds a shortest path", "statement": "The returned path has the fewest steps among all walkable 8-connected paths from start to end.", "quantifier": "every maze, start, end and step cost", "why_tests_cant": "minimum over all paths; depends on admissibility of the heuristic relative to the step cost", "anchors": ["src/gasur/utilities/graphs.py: a_star_search"]}
{"id": "C11", "title": "a_star_search's second result is the cost of the path", "statement": "The second value returned by a_star_search is the cost of the returned path, i.e. the step cost times the number of steps.", "quantifier": "every maze, start, end and step cost", "why_tests_cant": "a value-level claim over all mazes", "anchors": ["src/gasur/utilities/graphs.py: a_star_search", "src/gasur/utilities/graphs_subroutines.py: astar_return_path"]}
{"id": "C12", "title": "gibbs samples are valid assignments", "statement": "For a cost matrix with finite entries and at least twice as many columns as rows, every row returned by gibbs maps rows to pairwise distinct in-range columns, the returned rows are pairwise distinct, the returned cost of each row is the sum of its entries, the all-missed assignment (columns n..2n-1) is among them, and there are at most num_iters rows.", "quantifier": "every cost matrix, every num_iters >= 1 and every sequence of random draws in [0,1)", "why_tests_cant": "quantifies over all random draw sequences", "anchors": ["src/gasur/utilities/sampling.py: gibbs"]}
{"id": "C13", "title": "joint GLMB update never shares a measurement", "statement": "In the joint GLMB update each new hypothesis updates a subset of the tracks of the predicted hypothesis, each surviving track points at the updated table entry for its own track and its own measurement (or missed detection), and no measurement is used by two tracks of the same hypothesis.", "quantifier": "every predicted hypothesis, every gibbs sample row, every number of measurements", "why_tests_cant": "index arithmetic over all sizes: track number, measurement number and table layout must agree for all combinations", "anchors": ["src/gasur/swarm_estimator/tracker.py: JointGeneralizedLabeledMultiBernoulli.correct, _gen_cor_tab"]}
{"id": "C14", "title": "GLMB hypotheses only reference existing, distinct tracks", "statement": "After any sequence of predict, correct, prune, cap and cleanup calls every hypothesis's track indices are in range of the track table and pairwise distinct.", "quantifier": "every sequence of filter calls with any measurements, any births, any thresholds", "why_tests_cant": "invariant over unbounded histories of operations that renumber a shared table", "anchors": ["src/gasur/swarm_estimator/tracker.py: GeneralizedLabeledMultiBernoulli.predict, correct, cleanup, _clean_predictions, _clean_updates, _prune, _cap"]}
{"id": "C15", "title": "GLMB labels are unique within a hypothesis", "statement": "In every hypothesis of every reachable filter state the tracks have pairwise distinct labels, where a label is (rounded birth time, birth-term index).", "quantifier": "every sequence of filter calls at strictly increasing times", "why_tests_cant": "a global invariant across time steps; depends on how birth times are rounded into labels", "anchors": ["src/gasur/swarm_estimator/tracker.py: _gen_birth_tab, _gen_birth_hyps, _set_pred_hyps, _gen_cor_hyps"]}
{"id": "C16", "title": "GLMB hypothesis weights are a probability distribution", "statement": "After predict, correct, prune and cap, if any hypotheses remain then all hypothesis probabilities are non-negative and sum to one.", "quantifier": "every filter state with positive weights, all measurement sets", "why_tests_cant": "normalisation must hold for every number of hypotheses and every combination of dropped hypotheses", "anchors": ["src/gasur/swarm_estimator/tracker.py: _gen_birth_hyps, _gen_surv_hyps, _set_pred_hyps, _gen_cor_hyps, _prune, _cap, correct"]}
{"id": "C17", "title": "GLMB update assigns each measurement to at most one track", "statement": "Each hypothesis produced by correct keeps exactly the tracks of its parent (same labels, in order), each updated with at most one measurement or a missed detection, and no measurement is used twice within the hypothesis.", "quantifier": "every predicted hypothesis and every measurement set", "why_tests_cant": "quantifies over all assignment matrices passed to the ranked assignment solver", "anchors": ["src/gasur/swarm_estimator/tracker.py: _gen_cor_tab, _gen_cor_hyps, _correct_track_tab_entry"]}
{"id": "C18", "title": "GLMB duplicate-hypothesis clean-up preserves probability", "statement": "After predict no two hypotheses contain the same set of tracks, and the probability of every set of tracks is the sum of the probabilities of the hypotheses that contained that set before the clean-up.", "quantifier": "every list of predicted hypotheses", "why_tests_cant": "all possible duplicate patterns and orders", "anchors": ["src/gasur/swarm_estimator/tracker.py: _clean_predictions"]}
{"id": "C19", "title": "GLMB unused-track clean-up does not change any hypothesis", "statement": "Dropping unused track-table entries after correct leaves every hypothesis referring to exactly the same table entries (labels, histories, densities) as before; every remaining table entry is used by some hypothesis.", "quantifier": "every table and hypothesis list", "why_tests_cant": "renumbering must be consistent for every usage pattern", "anchors": ["src/gasur/swarm_estimator/tracker.py: _clean_updates"]}
{"id": "C20", "title": "GLMB prune", "statement": "Pruning keeps exactly the hypotheses whose probability exceeds prune_threshold, in order, renormalised; when none survives the filter is left with an empty hypothesis list.", "quantifier": "every hypothesis list and threshold", "why_tests_cant": "all weight patterns, including everything pruned", "anchors": ["src/gasur/swarm_estimator/tracker.py: GeneralizedLabeledMultiBernoulli._prune"]}
{"id": "C21", "title": "GLMB cap", "statement": "Capping leaves at most max_hyps hypotheses, namely the most probable ones, renormalised to sum to one, and leaves shorter lists unchanged.", "quantifier": "every hypothesis list and every max_hyps", "why_tests_cant": "all sizes and ties", "anchors": ["src/gasur/swarm_estimator/tracker.py: GeneralizedLabeledMultiBernoulli._cap"]}
{"id": "C22", "title": "GLMB cardinality distribution matches the hypotheses", "statement": "After predict, correct, prune and cap, the reported cardinality distribution at n is the total probability of the hypotheses with n tracks.", "quantifier": "every reachable filter state", "why_tests_cant": "the distribution is a cached value updated by several operations; must agree after every one of them", "anchors": ["src/gasur/swarm_estimator/tracker.py: _calc_card_dist, predict, correct, _prune, _cap, cardinality"]}
{"id": "C23", "title": "GLMB state extraction uses the best hypothesis of the most likely cardinality", "statement": "extract_states reports the tracks of a hypothesis whose number of tracks is the most probable cardinality and whose probability is maximal among hypotheses with that number of tracks; if no such hypothesis exists nothing is reported for the current step.", "quantifier": "every filter state", "why_tests_cant": "argmax/tie patterns over all hypothesis lists", "anchors": ["src/gasur/swarm_estimator/tracker.py: extract_states, _extract_helper, cardinality"]}
{"id": "C24", "title": "GLMB extraction history stays aligned and labelled uniquely", "statement": "After any sequence of extractions the reported states, labels (and covariances) lists have one entry per time step, entries of the same length at each step, and a track's states are reported at consecutive steps starting at its birth step.", "quantifier": "every history of predict/correct/extract", "why_tests_cant": "the history is rewritten retroactively; alignment must hold after unbounded sequences", "anchors": ["src/gasur/swarm_estimator/tracker.py: _update_extract_hist, extract_states, _extract_helper"]}
{"id": "C25", "title": "saving and restoring filter state is lossless", "statement": "Loading the dictionary produced by save_filter_state restores every saved attribute, so that the restored filter behaves the same.", "quantifier": "every filter state including filters with no inner filter set", "why_tests_cant": "round trip over all states; aliasing and mismatched keys only show for particular attributes", "anchors": ["src/gasur/swarm_estimator/tracker.py: RandomFiniteSetBase.save_filter_state/load_filter_state, GeneralizedLabeledMultiBernoulli.save_filter_state/load_filter_state"]}
{"id": "C26", "title": "a saved filter state is a snapshot", "statement": "Calling predict/correct/cleanup on a filter after save_filter_state does not change what a later load_filter_state of that saved state restores.", "quantifier": "every sequence of calls made after saving", "why_tests_cant": "depends on aliasing between the saved dictionary and live lists for arbitrary subsequent histories", "anchors": ["src/gasur/swarm_estimator/tracker.py: GeneralizedLabeledMultiBernoulli.save_filter_state, correct, cleanup, _cap, _prune"]}
{"id": "C27", "title": "PHD mixture lists stay aligned and weights stay non-negative", "statement": "After any sequence of predict, correct, prune, merge, cap and cleanup calls the mixture has the same number of weights, means and covariances, and all weights are non-negative.", "quantifier": "every sequence of operations, measurements and parameters", "why_tests_cant": "invariant over unbounded histories", "anchors": ["src/gasur/swarm_estimator/tracker.py: ProbabilityHypothesisDensity.predict, correct, _prune, _merge, _cap, cleanup"]}
{"id": "C28", "title": "PHD predict mass balance", "statement": "After predict the expected number of targets (sum of weights) equals prob_survive times the previous sum plus the total birth weight, and the old components come first, in order, followed by the birth components.", "quantifier": "every mixture, birth model and survival probability", "why_tests_cant": "for all numbers of components and time-varying transitions", "anchors": ["src/gasur/swarm_estimator/tracker.py: ProbabilityHypothesisDensity.predict, _predict_prob_density"]}
{"id": "C29", "title": "PHD correct mass balance", "statement": "After correct the expected number of targets equals prob_miss_detection times the previous sum plus one term in [0,1) per measurement, S/(clutter+S); with no measurement only the missed-detection copy remains; the number of components is (number of measurements + 1) times the previous number.", "quantifier": "every mixture with non-negative weights, every measurement set, positive clutter intensity", "why_tests_cant": "real-valued bound over all mixtures and measurement sets", "anchors": ["src/gasur/swarm_estimator/tracker.py: ProbabilityHypothesisDensity.correct, _correct_prob_density"]}
{"id": "C30", "title": "PHD prune keeps exactly the components at or above the threshold", "statement": "Pruning removes exactly the components with weight below prune_threshold, keeps the rest unchanged and in order, and keeps weight/mean/covariance of each survivor together.", "quantifier": "every mixture and threshold", "why_tests_cant": "all index-deletion patterns", "anchors": ["src/gasur/swarm_estimator/tracker.py: ProbabilityHypothesisDensity._prune"]}
{"id": "C31", "title": "PHD merge preserves mass and mean", "statement": "Merging terminates, never increases the number of components, preserves the total weight and the weighted mean of the mixture.", "quantifier": "every mixture with positive weights, every merge threshold >= 0, every Mahalanobis-type distance", "why_tests_cant": "the greedy loop regroups components arbitrarily; preservation must hold for every grouping", "anchors": ["src/gasur/swarm_estimator/tracker.py: ProbabilityHypothesisDensity._merge"]}
{"id": "C32", "title": "PHD cap keeps the heaviest components and the total weight", "statement": "Capping leaves at most max_gauss components, they are the heaviest ones, and their weights are rescaled so that the total weight is unchanged; shorter mixtures are unchanged.", "quantifier": "every mixture and every max_gauss", "why_tests_cant": "all sizes and orders; boundary max_gauss = 0", "anchors": ["src/gasur/swarm_estimator/tracker.py: ProbabilityHypothesisDensity._cap"]}
{"id": "C33", "title": "PHD state extraction", "statement": "extract_states reports each component with weight at least extract_threshold exactly round(weight) times, in order, and nothing else.", "quantifier": "every mixture and threshold", "why_tests_cant": "rounding mode at half-integers and all weights", "anchors": ["src/gasur/swarm_estimator/tracker.py: ProbabilityHypothesisDensity.extract_states"]}
{"id": "C34", "title": "measurement gating keeps exactly the measurements inside the gate", "statement": "With gating on, the measurements used are exactly those (in order, without repetition of positions) whose squared Mahalanobis distance to some component is below the gate.", "quantifier": "every measurement list and mixture", "why_tests_cant": "for all measurement sets, all covariance shapes", "anchors": ["src/gasur/swarm_estimator/tracker.py: RandomFiniteSetBase._gate_meas"]}
{"id": "C35", "title": "the gate passed to the PHD constructor is used", "statement": "A PHD filter constructed with gating_on and inv_chi2_gate = g gates with threshold g.", "quantifier": "every constructor argument", "why_tests_cant": "an initialisation-order property of every constructed object", "anchors": ["src/gasur/swarm_estimator/tracker.py: ProbabilityHypothesisDensity.__init__, RandomFiniteSetBase.__init__"]}
{"id": "C36", "title": "CPHD cardinality distribution is a probability distribution", "statement": "After predict and after correct the cardinality distribution is non-negative, has max_expected_card+1 entries and sums to one.", "quantifier": "every cardinality distribution, birth rate, survival and detection probability in the open unit interval, every measurement set", "why_tests_cant": "analytic claim about log-sum-exp style normalisation over all inputs", "anchors": ["src/gasur/swarm_estimator/tracker.py: CardinalizedPHD.predict, correct, _correct_prob_density"]}
{"id": "C37", "title": "CPHD intensity and cardinality agree", "statement": "After correct the sum of the intensity weights equals the mean of the updated cardinality distribution.", "quantifier": "every mixture with cardinality mean equal to its mass, every measurement set", "why_tests_cant": "an algebraic identity between two separately computed quantities over all inputs", "anchors": ["src/gasur/swarm_estimator/tracker.py: CardinalizedPHD._correct_prob_density"]}
{"id": "C38", "title": "CPHD predicted cardinality is the binomial thinning of the prior convolved with births", "statement": "The predicted cardinality distribution is the Bernoulli thinning of the prior with the survival probability, convolved with the Poisson birth distribution (then normalised).", "quantifier": "every prior distribution and every survival probability", "why_tests_cant": "distribution-level identity for all priors", "anchors": ["src/gasur/swarm_estimator/tracker.py: CardinalizedPHD.predict"]}
{"id": "C39", "title": "OSPA is bounded", "statement": "At every time step localisation and cardinality components are in [0, c], and the total is between 0 and c.", "quantifier": "every pair of track sets, every cut-off c > 0 and order p >= 1", "why_tests_cant": "a bound over all distance matrices and assignments", "anchors": ["src/gasur/utilities/distributions.py: calculate_ospa"]}
{"id": "C40", "title": "OSPA is symmetric, label-order independent, and zero exactly on equal sets", "statement": "Swapping truth and estimate, or permuting the tracks in either of them, does not change OSPA; it is zero iff both sets have the same number of objects and can be matched at zero distance.", "quantifier": "every pair of track sets", "why_tests_cant": "quantifies over all permutations", "anchors": ["src/gasur/utilities/distributions.py: calculate_ospa"]}
{"id": "C41", "title": "OSPA of a perfect estimate is zero whatever slots the objects occupy", "statement": "If the estimated objects at a time step are the true objects, OSPA at that step is zero, regardless of which slots of the arrays are empty.", "quantifier": "every arrangement of empty slots", "why_tests_cant": "depends on the pattern of missing (NaN) slots in both arrays", "anchors": ["src/gasur/utilities/distributions.py: calculate_ospa", "src/gasur/swarm_estimator/tracker.py: calculate_ospa, _ospa_setup_emat, GeneralizedLabeledMultiBernoulli._ospa_setup_emat"]}
{"id": "C42", "title": "OSPA(2) is bounded, symmetric and label-order independent", "statement": "OSPA(2) components are in [0, c] and unchanged by swapping truth and estimate or relabelling tracks; with window length 1 and p = 1 it equals OSPA when all slots are filled.", "quantifier": "every pair of track sets and every window length", "why_tests_cant": "windowed averages with missing data over all histories", "anchors": ["src/gasur/utilities/distributions.py: calculate_ospa2"]}
{"id": "C43", "title": "truth/estimate matrix set-up preserves every state", "statement": "Setting up the OSPA matrices places every supplied state at its time step in its own slot, and marks every other slot as missing.", "quantifier": "every history of extracted states and truth lists", "why_tests_cant": "index bookkeeping over all ragged histories", "anchors": ["src/gasur/swarm_estimator/tracker.py: _ospa_setup_tmat, _ospa_setup_emat"]}
{"id": "C44", "title": "guidance configuration checks", "statement": "DensityBased rejects a reference point y_ref >= 1, GaussianObject rejects non-positive weights, ELQRGaussian rejects a similarity threshold >= 1; accepted configurations store the given values.", "quantifier": "every argument value", "why_tests_cant": "decision logic over all real arguments", "anchors": ["src/gasur/guidance.py: DensityBased.__init__, GaussianObject, ELQRGaussian.__init__"]}
{"id": "C45", "title": "update_targets accumulates and reweights targets", "statement": "After any sequence of update_targets calls that each leave at least one target, the target list is the newest batch followed by the older ones (only the newest batch after a reset), with equal weights that sum to one and unchanged means; the caller's list is extended by the older targets, and passing the object's own list never returns.", "quantifier": "every sequence of target batches and reset flags, states with at least two coordinates", "why_tests_cant": "unbounded sequences of updates; aliasing of the caller's list", "anchors": ["src/gasur/guidance.py: DensityBased.update_targets"]}
{"id": "C46", "title": "nearest target and target centre", "statement": "find_nearest_target returns a target at minimal distance (the first such), or an empty result when there is none; target_center is the arithmetic mean of the target means.", "quantifier": "every set of targets and every state", "why_tests_cant": "minimum over all targets", "anchors": ["src/gasur/guidance.py: ELQRGaussian.find_nearest_target, DensityBased.target_center"]}
{"id": "C47", "title": "density cost does not depend on the order of objects or targets", "statement": "density_based_cost is invariant under permuting the objects and permuting the targets.", "quantifier": "every number and order of objects and targets", "why_tests_cant": "quantifies over all permutations of the agents", "anchors": ["src/gasur/guidance.py: DensityBased.density_based_cost"]}
{"id": "C48", "title": "guidance initialisation matches each planned Gaussian at most once", "statement": "ELQRGaussian.initialize yields exactly one Gaussian per measurement-mixture component, in order, starting at that component's mean, and no previous Gaussian is reused for two of them.", "quantifier": "every previous plan and every new mixture", "why_tests_cant": "greedy matching over all overlap patterns", "anchors": ["src/gasur/guidance.py: ELQRGaussian.initialize"]}
{"id": "C49", "title": "Student's t mixture covariance", "statement": "For every Student's t mixture with dof > 2 the covariances are the scaling matrices times dof/(dof-2), and these are the covariances of the Student's t distributions of the components; with dof <= 2, where the variance is infinite, an error is raised. The pdf of a mixture is the weighted sum of the component pdfs.", "quantifier": "every mixture, dimension, location and number of degrees of freedom", "why_tests_cant": "that the matrices are second moments is a statement about integrals, for all real dof and all matrices", "anchors": ["src/gasur/utilities/distributions.py: GaussianMixture, StudentsTMixture"]}
{"id": "C50", "title": "GLMB recursion never fails on well-formed input", "statement": "With positive clutter intensity, birth and survival probabilities strictly between 0 and 1, detection probabilities below 1 and non-negative likelihoods, any number of predict/correct/cleanup time steps from a new filter completes without an exception, whatever the measurements, thresholds and flags, and all hypothesis probabilities stay positive.", "quantifier": "every number of time steps, every births/measurements/flags in each", "why_tests_cant": "absence of index errors, zero divisions and subroutine failures over unbounded histories", "anchors": ["src/gasur/swarm_estimator/tracker.py: GeneralizedLabeledMultiBernoulli.predict, correct, cleanup, extract_states"]}
{"id": "C51", "title": "GLMB update follows Bayes' rule", "statement": "There is one normalising constant such that each updated hypothesis has probability parent probability x exp(-clutter rate) x clutter intensity^(number of measurements) x product over its tracks of (1 - p_D) for a missed track and p_D x likelihood / clutter intensity for a detected track.", "quantifier": "every predicted filter state, every measurement set and every surviving association", "why_tests_cant": "a product formula assembled from log-domain matrices and the ranked assignment costs; must hold for every association", "anchors": ["src/gasur/swarm_estimator/tracker.py: _gen_cor_hyps, _gen_cor_tab, _correct_track_tab_entry"]}
{"id": "C52", "title": "gibbs draws each column with the right probability", "statement": "In one row update, a column that other rows do not use is drawn exactly when the random number lies in an interval inside [0,1) of length exp(-cost) divided by the sum of exp(-cost) over all columns that other rows do not use; columns of other rows have weight zero.", "quantifier": "every cost matrix, current solution, row, column and random number in [0,1)", "why_tests_cant": "an exact statement about probabilities for every matrix; a test only sees finitely many draws", "anchors": ["src/gasur/utilities/sampling.py: gibbs"]}
{"id": "C53", "title": "gibbs can return every valid assignment", "statement": "With at least three iterations every assignment of the rows to pairwise distinct columns is returned for some random numbers: the all-missed start does not exclude any association.", "quantifier": "every cost matrix with at least twice as many columns as rows and every injective assignment", "why_tests_cant": "reachability of every element of an exponentially large set", "anchors": ["src/gasur/utilities/sampling.py: gibbs"]}
{"id": "C54", "title": "joint GLMB hypotheses only reference existing, distinct tracks", "statement": "After any sequence of predict, correct, cleanup and extract_states calls on the joint filter every hypothesis's track indices are in range of the track table and pairwise distinct; predict puts the new tracks before the old ones, so the indices of the hypotheses are relative to the old tracks until correct.", "quantifier": "every sequence of calls with any measurements, births, thresholds and random numbers", "why_tests_cant": "invariant over unbounded histories of operations that renumber a shared table", "anchors": ["src/gasur/swarm_estimator/tracker.py: JointGeneralizedLabeledMultiBernoulli.predict, correct, GeneralizedLabeledMultiBernoulli.cleanup"]}
{"id": "C55", "title": "joint GLMB labels are unique within a hypothesis", "statement": "If the rounded times of the predict calls are pairwise different then in every reachable state of the joint filter the tracks of a hypothesis, together with the new tracks not yet corrected, have pairwise different labels.", "quantifier": "every sequence of calls of the joint filter", "why_tests_cant": "a global invariant across time steps and random draws", "anchors": ["src/gasur/swarm_estimator/tracker.py: JointGeneralizedLabeledMultiBernoulli.predict, correct"]}
{"id": "C56", "title": "joint GLMB weights and cardinality", "statement": "After the joint correct all hypothesis probabilities are non-negative and sum to at most one; if no inner filter reported depletion they sum to one and the cardinality distribution at n is the total probability of the hypotheses with n tracks.", "quantifier": "every filter state with non-negative weights, all measurements, births and random numbers", "why_tests_cant": "normalisation over all sampled hypotheses", "anchors": ["src/gasur/swarm_estimator/tracker.py: JointGeneralizedLabeledMultiBernoulli.correct"]}
{"id": "C57", "title": "joint GLMB update follows Bayes' rule on the drawn associations", "statement": "The probability of each updated hypothesis is the total weight of the drawn associations that choose its tracks and measurements, divided by the total weight of all drawn associations; the weight of an association is parent probability x exp(-clutter rate) x clutter intensity^(number of measurements) x product over all candidates of (1 - existence probability) if dropped, existence probability x (1 - p_D) if missed, existence probability x p_D x likelihood / clutter intensity if detected, where factors that are not positive are replaced by eps.", "quantifier": "every filter state, measurement set, birth set and sequence of random numbers", "why_tests_cant": "a product formula assembled from one joint log-domain matrix, restricted to each hypothesis's rows and columns", "anchors": ["src/gasur/swarm_estimator/tracker.py: JointGeneralizedLabeledMultiBernoulli.correct, _gen_cor_tab"]}
{"id": "C58", "title": "joint GLMB recursion never fails on well-formed input", "statement": "With positive clutter intensity, birth probabilities of at least 0 and less than 1, and non-negative likelihoods, any number of predict/correct/cleanup time steps of the joint filter from a new filter completes without an exception, and all hypothesis probabilities stay positive.", "quantifier": "every number of time steps, every births/measurements/flags/random numbers in each", "why_tests_cant": "absence of index errors, zero divisions and sampler failures over unbounded histories", "anchors": ["src/gasur/swarm_estimator/tracker.py: JointGeneralizedLabeledMultiBernoulli.predict, correct, cleanup"]}
{"id": "C59", "title": "joint GLMB update always keeps the all-missed association", "statement": "For every hypothesis before the joint correct there is one afterwards whose tracks are exactly all new tracks and all its own tracks, each as a missed detection; in particular correct never leaves the filter without hypotheses, even if every inner filter reports depletion.", "quantifier": "every filter state, all measurements, births and random numbers", "why_tests_cant": "must hold for every outcome of the random sampler and every pattern of depletion", "anchors": ["src/gasur/swarm_estimator/tracker.py: JointGeneralizedLabeledMultiBernoulli.correct; src/gasur/utilities/sampling.py: gibbs"]}
{"id": "C60", "title": "joint GLMB predict keeps the tracks of each hypothesis", "statement": "predict of the joint filter does not change which tracks (labels) a hypothesis consists of, so that states can be extracted between predict and correct.", "quantifier": "every filter state and every birth set", "why_tests_cant": "an alignment between two data structures that must hold for every state", "anchors": ["src/gasur/swarm_estimator/tracker.py: JointGeneralizedLabeledMultiBernoulli.predict"]}
{"id": "C61", "title": "OSPA core distances are what the documentation says", "statement": "Each core distance available for OSPA is non-negative and symmetric (Hellinger at most one), and the Mahalanobis option computes the Mahalanobis distance, with the inverse of the covariance.", "quantifier": "every pair of objects with positive definite covariances, every method", "why_tests_cant": "A test with identity covariances cannot tell the covariance from its inverse; positivity of the Hellinger distance rests on an inequality between determinants for all positive definite matrices.", "anchors": ["src/gasur/utilities/distributions.py: OSPAMethod, calculate_ospa"]}
{"id": "C62", "title": "GLMB extraction keeps a reported track unless the chosen hypothesis supersedes it", "statement": "Calling extract_states with update keeps every previously reported track history whose label is not in the chosen hypothesis and which shares no measurement of the same time step with a track of that hypothesis, in the previous order, drops the others, and adds one history per track of the chosen hypothesis.", "quantifier": "for every filter state and every earlier sequence of extractions", "why_tests_cant": "whether a history is dropped depends on all measurement associations of all earlier time steps, and the lists of used measurements alias each other", "anchors": ["src/gasur/swarm_estimator/tracker.py:_update_extract_hist", "src/gasur/swarm_estimator/tracker.py:extract_states"]}
{"id": "C63", "title": "GLMB extract_most_prob_states returns the hypotheses above the threshold", "statement": "extract_most_prob_states(thresh) terminates and returns the best hypothesis and then each other hypothesis whose association probability is at least thresh, each exactly once and in order of decreasing probability, together with exactly the labels of the tracks of that hypothesis.", "quantifier": "for every filter state and every threshold", "why_tests_cant": "the loop zeroes probabilities of the very hypotheses it ranks; ties, other cardinalities and the threshold decide whether it stops", "anchors": ["src/gasur/swarm_estimator/tracker.py:extract_most_prob_states", "src/gasur/swarm_estimator/tracker.py:extract_states"]}
{"id": "C64", "title": "CPHD posterior cardinality follows Bayes' rule", "statement": "After correct the probability of n objects is proportional to its prior probability times the density of the received measurement set given n independent objects distributed with the normalised intensity, each detected with prob_detection, plus Poisson clutter.", "quantifier": "every mixture, cardinality distribution, measurement set and detection and survival probability", "why_tests_cant": "an identity between a sum over elementary symmetric functions and a sum over all association events, for every number of measurements and objects", "anchors": ["src/gasur/swarm_estimator/tracker.py: CardinalizedPHD._correct_prob_density"]}
{"id": "C65", "title": "CPHD extract_states takes the heaviest components up to the most probable number of objects", "statement": "extract_states never fails; it takes components by decreasing weight while the number of agents so far is below the most probable number of objects and the weight rounds to at least one, appends their means and covariances, and agents_per_state lists their rounded weights.", "quantifier": "every mixture and cardinality distribution", "why_tests_cant": "a loop with three exit conditions over all weights and distributions, with ties", "anchors": ["src/gasur/swarm_estimator/tracker.py: CardinalizedPHD.extract_states, cardinality"]}
{"id": "C66", "title": "CPHD cardinality history holds mode and standard deviation of the number of objects", "statement": "Each correct appends one pair to the cardinality history: the most probable number of objects and the standard deviation of the number of objects under the new distribution.", "quantifier": "every filter state and measurement set", "why_tests_cant": "a statistical claim about every distribution", "anchors": ["src/gasur/swarm_estimator/tracker.py: CardinalizedPHD._correct_prob_density, plot_card_history"]}
{"id": "C67", "title": "CPHD corrected components come from the inner filter", "statement": "After correct the mixture consists of the predicted components with rescaled weights followed, per measurement, by one component per predicted component with the mean and covariance that the inner filter computes for that component and that measurement, with weight proportional to predicted weight times likelihood.", "quantifier": "every inner filter, mixture and measurement set", "why_tests_cant": "must hold for every inner filter and number of measurements; the test filters have covariances that do not depend on the measurement", "anchors": ["src/gasur/swarm_estimator/tracker.py: CardinalizedPHD._correct_prob_density"]}
{"id": "C68", "title": "a_star_search finds a route whenever there is one", "statement": "If there is a route from start to end, a_star_search returns a path that ends at the end; it does not give up after its 100000 iterations.", "quantifier": "every rectangular maze, start inside it, end and cost", "why_tests_cant": "the number of iterations is not bounded by the number of cells, because the same position is queued again with the same cost; a test maze has few equal routes", "anchors": ["src/gasur/utilities/graphs.py: a_star_search", "src/gasur/utilities/graphs_subroutines.py: AStarNode"]}
{"id": "C69", "title": "density_based_cost is the documented cost", "statement": "For non-empty objects and targets with positive definite covariances and a reference point between 0 and 1, density_based_cost returns the value of the formula in its documentation; the weight of the last term lies between 0 and 1, grows with the distance of the furthest object and is y_ref at the radius of influence.", "quantifier": "every number of objects and targets, every dimension, all weights, means, covariances, safety factors", "why_tests_cant": "an identity of real functions of unboundedly many arguments; the test compares one value that was computed with the code", "anchors": ["src/gasur/guidance.py: DensityBased.density_based_cost"]}
{"id": "C70", "title": "convert_waypoints yields usable areas", "statement": "For every non-empty list of waypoints convert_waypoints returns one component per waypoint, in order, centred at it, with equal weights and a symmetric positive definite covariance, so that the cost can be computed.", "quantifier": "every list of waypoints and every correct eigenvalue routine", "why_tests_cant": "definiteness must hold for every constellation, also degenerate ones (the source has a todo for it)", "anchors": ["src/gasur/guidance.py: DensityBased.convert_waypoints"]}
{"id": "C71", "title": "density cost does not depend on the origin", "statement": "Moving all objects and all targets by the same displacement does not change density_based_cost.", "quantifier": "every displacement, every set of objects and targets", "why_tests_cant": "all displacements and all configurations", "anchors": ["src/gasur/guidance.py: DensityBased.density_based_cost"]}
{"id": "C72", "title": "axes of the areas around waypoints", "statement": "Along each principal direction of the other waypoints and the overall centre, the area that convert_waypoints puts around a waypoint extends as far as the largest projection of the way from the waypoint to one of them.", "quantifier": "every list of waypoints and every correct eigenvalue routine", "why_tests_cant": "for waypoints that are symmetric about the axes, as in the tests, the difference between rows and columns of the eigenvector matrix does not show", "anchors": ["src/gasur/guidance.py: DensityBased.convert_waypoints (find_principal_components, find_largest_proj_dist)"]}
{"id": "C73", "title": "a warm start continues the previous plan one step later", "statement": "When initialize reuses a previous Gaussian for a measured component, the new plan is the previous one shifted by one time step: means, controls, gains and each cost table drop their first entry and are extended at the end, and the first state is the measured mean.", "quantifier": "every previous plan with full tables, every measured mixture", "why_tests_cant": "eight tables of unbounded length must each be shifted from their own previous values", "anchors": ["src/gasur/guidance.py: ELQRGaussian.initialize"]}
{"id": "C74", "title": "successive guidance updates reuse the previous plans", "statement": "Calling iterate (or initialize) again with measured components near the previous plans succeeds and starts from those plans.", "quantifier": "every reachable list of plans, every measured mixture and every inherited pass", "why_tests_cant": "all histories of calls; the existing tests call iterate once", "anchors": ["src/gasur/guidance.py: ELQRGaussian.initialize, iterate, GaussianObject"]}
{"id": "C75", "title": "every round of iterate starts from the measured states", "statement": "However many rounds iterate does, the plan it returns for a measured component starts at that component's mean (if the inherited backward pass keeps the start state it is given).", "quantifier": "every number of rounds and every inherited pass", "why_tests_cant": "aliasing between the array of start states and the array that the cost evaluation advances shows only from the second round on", "anchors": ["src/gasur/guidance.py: ELQRGaussian.iterate"]}
{"id": "C76", "title": "GaussianObject keyword arguments set the documented attributes", "statement": "Every documented keyword argument of GaussianObject sets the attribute of the same name, and attributes that are not given have their defaults.", "quantifier": "every combination of keyword arguments", "why_tests_cant": "all combinations of arguments", "anchors": ["src/gasur/guidance.py: GaussianObject"]}
{"id": "C77", "title": "the cost of a guidance round is the cost of its closed loop trajectory", "statement": "The cost that iterate computes in a round is the sum, over all time steps but the last, of the density based cost of the plans at the states reached from the start states under the new feedback laws, plus the final cost of each plan towards its nearest target.", "quantifier": "every number of plans, horizon, dynamics, gains", "why_tests_cant": "an invariant of a loop over the horizon with a nested loop over the plans", "anchors": ["src/gasur/guidance.py: ELQRGaussian.iterate"]}
{"id": "C78", "title": "when iterate stops", "statement": "iterate does at most max_iters rounds, each from the plans left by the one before, and stops at the first round whose cost differs from that of the round before by less than the tolerance, never before the second.", "quantifier": "every sequence of costs", "why_tests_cant": "all sequences of costs, which depend on the inherited passes", "anchors": ["src/gasur/guidance.py: ELQRGaussian.iterate"]}
{"id": "C79", "title": "iterate returns one plan per measured component", "statement": "If iterate returns, there is exactly one plan per component of the measured mixture, in order, with the component's covariance and weight, the dynamics supplied for that index and as many means as the horizon.", "quantifier": "every mixture, every horizon, every inherited pass", "why_tests_cant": "a frame property through all passes and rounds", "anchors": ["src/gasur/guidance.py: ELQRGaussian.iterate"]}
{"id": "C80", "title": "quadratize_cost yields a convex model with the right slope", "statement": "The quadratic model of the cost that ELQRGaussian computes has a symmetric positive semidefinite state matrix, leaves a Hessian without negative eigenvalues unchanged, and its gradient at the expansion point is the gradient of the cost.", "quantifier": "every symmetric Hessian, gradient and expansion point, every correct eigenvalue routine", "why_tests_cant": "definiteness must hold for all matrices; a test has one Hessian", "anchors": ["src/gasur/guidance.py: ELQRGaussian.quadratize_non_quad_state"]}
{"id": "C81", "title": "a guidance round is a forward and a backward sweep", "statement": "Each round of iterate sweeps forward over the time steps, sets the turning point and sweeps backward; in each step every plan is handed its own gains, costs, start state, dynamics and control at its state, and the states of all plans before any is changed, and only the entries of that step are replaced.", "quantifier": "every number of plans, horizon, tables and inherited pass", "why_tests_cant": "index bookkeeping of nested loops with in-place updates of eight tables, for all horizons", "anchors": ["src/gasur/guidance.py: ELQRGaussian.iterate"]}
{"id": "C82", "title": "the turning point minimises the estimated total cost", "statement": "At the end of the forward sweep the last state of each plan becomes the unique minimum of cost-to-come plus quadratized final cost, if the sum of the matrices is positive semidefinite.", "quantifier": "all matrices and vectors", "why_tests_cant": "optimality among all states", "anchors": ["src/gasur/guidance.py: ELQRGaussian.iterate"]}
{"id": "C83", "title": "plans do not depend on the order of the measured components", "statement": "Without previous plans, iterate with the components of the measured mixture (and the dynamics) in another order returns the same plans in that order, if the inherited passes treat all plans alike and all have the same number of inputs; the quadratic cost model does treat them alike.", "quantifier": "every permutation of every mixture, any number of rounds", "why_tests_cant": "quantifies over all permutations and all executions of the nested loops", "anchors": ["src/gasur/guidance.py: ELQRGaussian.iterate, quadratize_non_quad_state"]}
{"id": "C84", "title": "samples of a mixture follow its density", "statement": "If the lists of a Gaussian or Student's t mixture have the same length and the weights are non-negative with sum one, the result of sample is distributed with density pdf; sample raises a ValueError exactly if the mixture is empty, the number of weights is not the number of means, a weight is negative or the weights do not sum to one.", "quantifier": "every mixture, dimension and component distribution", "why_tests_cant": "a statement about the distribution of a random result", "anchors": ["src/gasur/utilities/distributions.py: GaussianMixture, StudentsTMixture"]}
{"id": "C85", "title": "the GLMB update keeps the most likely associations", "statement": "correct replaces every hypothesis by its k most likely associations of tracks with measurements (or all, if there are fewer), without repetition, with weights by Bayes' rule and the measurement histories extended accordingly, where k is the hypothesis's share of req_upd; nothing is lost.", "quantifier": "every number of tracks, measurements and hypotheses, all likelihoods and probabilities", "why_tests_cant": "optimality among exponentially many associations, for all likelihoods", "anchors": ["src/gasur/swarm_estimator/tracker.py: GeneralizedLabeledMultiBernoulli.correct; src/gasur/utilities/graphs.py: murty_m_best_all_meas"]}
{"id": "C86", "title": "the particle GLMB filter never fails", "statement": "Any number of predict, correct and cleanup calls on a new SMC-GLMB filter completes without an exception, hypothesis weights stay positive, and the particle weights of every track stay a probability distribution.", "quantifier": "every number of time steps, births, particles and measurements, all survival and detection functions with values inside the stated ranges", "why_tests_cant": "invariant over unboundedly many steps; concerns division by sums of user-supplied functions", "anchors": ["src/gasur/swarm_estimator/tracker.py: _SMCGLMBBase, SMCGeneralizedLabeledMultiBernoulli"]}
{"id": "C87", "title": "particle weights follow Bayes' rule in the update", "statement": "After correct in the SMC-GLMB filter the particle weights of a detected track are proportional to p_D(x) w, those of a missed track to (1 - p_D(x)) w. A track without particles has likelihood zero for every measurement and is left as it is.", "quantifier": "every table, measurement list, detection function and particle filter", "why_tests_cant": "for all functions and distributions", "anchors": ["src/gasur/swarm_estimator/tracker.py: _SMCGLMBBase._inner_correct"]}
{"id": "C88", "title": "detection hypotheses of the particle GLMB filter have Bayes weights", "statement": "In the SMC-GLMB update a detection has the factor sum_i w_i p_D(x_i) g(z|x_i) / kappa against 1 - sum_i w_i p_D(x_i) for a missed detection.", "quantifier": "every table, number of hypotheses and measurements, detection function and likelihood", "why_tests_cant": "exact weights for all inputs", "anchors": ["src/gasur/swarm_estimator/tracker.py: _SMCGLMBBase._calc_avg_prob_det_mdet, _inner_correct; GeneralizedLabeledMultiBernoulli.correct"]}
{"id": "C89", "title": "particle weights follow Bayes' rule in the prediction", "statement": "After predict in the SMC-GLMB filter the particle weights of a surviving track are proportional to w_i p_S(x_i) with x_i the particle before the motion.", "quantifier": "every table, survival function and particle filter", "why_tests_cant": "for all functions and distributions", "anchors": ["src/gasur/swarm_estimator/tracker.py: _SMCGLMBBase._inner_predict"]}
{"id": "C90", "title": "the particle joint filter uses the given survival and detection functions", "statement": "The hypothesis weights of the SMC-JGLMB filter after correct are those of Bayes' rule with the mean survival and detection probabilities of compute_prob_survive and compute_prob_detection.", "quantifier": "every state, draw and pair of functions", "why_tests_cant": "for all functions and random draws", "anchors": ["src/gasur/swarm_estimator/tracker.py: _SMCGLMBBase, JointGeneralizedLabeledMultiBernoulli.correct"]}
{"id": "C91", "title": "a new track represents the distribution of its birth term", "statement": "After predict the i-th entry of the track table has label (time, i), the weights, means and covariances of the i-th birth mixture, and one filter state per component with the parameters of that component, although all are made from one shared filter object.", "quantifier": "every list of birth mixtures with any number of components, every filter", "why_tests_cant": "loops over a shared mutable filter object, for all mixtures", "anchors": ["src/gasur/swarm_estimator/tracker.py: GeneralizedLabeledMultiBernoulli._init_filt_states, _STMGLMBBase._init_filt_states, _gen_birth_tab"]}
{"id": "C92", "title": "the particle joint filter never fails", "statement": "Any number of predict, correct and cleanup calls on a new SMC-JGLMB filter completes without an exception, hypothesis weights stay positive, and the particle weights of every track stay a probability distribution, for all random draws.", "quantifier": "every number of time steps, births, particles, measurements and random draws, all survival and detection functions with values inside the stated ranges", "why_tests_cant": "invariant over unboundedly many steps and all draws of the Gibbs sampler", "anchors": ["src/gasur/swarm_estimator/tracker.py: _SMCGLMBBase, SMCJointGeneralizedLabeledMultiBernoulli"]}
{"id": "C93", "title": "the GLMB prediction follows Bayes' rule", "statement": "After predict, the probability of a set of tracks is proportional to the sum, over the retained pairs of a set of births and a set of survivors of a hypothesis that give it, of (probability of exactly those births) * (prior probability of the hypothesis) * (probability that exactly those tracks survive); retained are the req_births most probable sets of births and for each hypothesis the round(req_surv * sqrt(w) / sum of sqrt(w)) most probable sets of survivors.", "quantifier": "every table, set of hypotheses, list of birth terms, birth and survival probabilities and requested numbers", "why_tests_cant": "a statement about all subsets of births and tracks, and exact weights", "anchors": ["src/gasur/swarm_estimator/tracker.py: GeneralizedLabeledMultiBernoulli.predict, _gen_birth_hyps, _gen_surv_hyps, _set_pred_hyps, _clean_predictions; src/gasur/utilities/graphs.py: k_shortest"]}
{"id": "C94", "title": "Gibbs sampling has the right stationary distribution", "statement": "If the assignment before an iteration of gibbs is distributed with probabilities proportional to exp(-total cost) over the assignments of the rows to pairwise different columns, and the random numbers are independent and uniform in [0, 1), so is the assignment after the iteration.", "quantifier": "every cost matrix of every size", "why_tests_cant": "a statement about probability distributions over all assignments", "anchors": ["src/gasur/utilities/sampling.py: gibbs"]}
{"id": "C95", "title": "Gibbs sampling converges", "statement": "From every start, the distribution of the assignment after n iterations of gibbs converges geometrically to the one with probabilities proportional to exp(-total cost).", "quantifier": "every cost matrix with at least twice as many columns as rows, every start, every number of iterations", "why_tests_cant": "a limit of probability distributions", "anchors": ["src/gasur/utilities/sampling.py: gibbs"]}
{"id": "C96", "title": "Gibbs sampling finds every assignment eventually", "statement": "For every assignment of the rows to pairwise different columns, the probability that gibbs returns it tends to 1 as the number of iterations grows.", "quantifier": "every cost matrix with at least twice as many columns as rows, every assignment", "why_tests_cant": "a limit of probabilities", "anchors": ["src/gasur/utilities/sampling.py: gibbs"]}
{"id": "C97", "title": "The joint update becomes exact as the number of requested updates grows", "statement": "Take a state of the joint GLMB filter after any number of time steps and the next predict. As the requested number of updates (req_upd) grows, the probability that correct returns the exact posterior tends to 1: the weight of each returned hypothesis is the total weight of the joint associations (birth, death, missed detection, measurement) that make its choices divided by the total weight of all joint associations of all hypotheses, and every association is represented unless the inner filter reports depletion.", "quantifier": "every state with positive weights on which correct does not fail (in particular every state reachable by time steps), all birth terms, measurements and parameters", "why_tests_cant": "a limit of probabilities over the random numbers of gibbs", "anchors": ["src/gasur/swarm_estimator/tracker.py: JointGeneralizedLabeledMultiBernoulli.correct", "src/gasur/utilities/sampling.py: gibbs"]}
{"id": "C98", "title": "The GLMB update is exact if enough updates are requested", "statement": "For every state and every list of measurements there is a number R0 such that for every requested number of updates (req_upd) of at least R0, the hypotheses after correct are exactly one for each hypothesis before it and each association of its tracks with the measurements, and the weight of each is its Bayes weight divided by the sum of all Bayes weights.", "quantifier": "every table, set of hypotheses with positive weights, list of measurements, all detection probabilities strictly between 0 and 1 and positive likelihoods, every req_upd from R0 on", "why_tests_cant": "a statement about all associations and all sufficiently large parameters", "anchors": ["src/gasur/swarm_estimator/tracker.py: GeneralizedLabeledMultiBernoulli.correct, _gen_cor_hyps", "src/gasur/utilities/graphs.py: murty_m_best"]}
{"id": "C99", "title": "The truncation error of the GLMB update is known and as small as possible", "statement": "If correct keeps the associations A of all associations F, the distance (sum of absolute differences of the weights) between the hypothesis weights after correct and the exact posterior is 2 (1 - mass(A) / mass(F)), where mass is the sum of the Bayes weights; and no choice of at most as many associations of each hypothesis has a larger mass.", "quantifier": "every table, set of hypotheses with positive weights, list of measurements, all detection probabilities strictly between 0 and 1 and positive likelihoods, every req_upd, every alternative choice of associations", "why_tests_cant": "a statement about all associations and all alternative choices", "anchors": ["src/gasur/swarm_estimator/tracker.py: GeneralizedLabeledMultiBernoulli.correct, _gen_cor_hyps", "src/gasur/utilities/graphs.py: murty_m_best"]}
{"id": "C100", "title": "OSPA satisfies the triangle inequality", "statement": "At every time step the OSPA distance between A and C (calculate_ospa) is at most the OSPA distance between A and B plus the one between B and C, so that two estimators can be compared through a third.", "quantifier": "every three series of point sets, every cut-off, order and core distance", "why_tests_cant": "a statement about all point sets of all sizes and all real coordinates", "anchors": ["src/gasur/utilities/distributions.py: calculate_ospa"]}
{"id": "C101", "title": "OSPA(2) satisfies the triangle inequality", "statement": "At every time step the OSPA(2) distance between A and C (calculate_ospa2) is at most the one between A and B plus the one between B and C.", "quantifier": "every three series of labelled point sets, every cut-off, order, window length and core distance", "why_tests_cant": "a statement about all track sets of all sizes and all real coordinates", "anchors": ["src/gasur/utilities/distributions.py: calculate_ospa2"]}
{"id": "C102", "title": "the history of extracted PHD states is complete", "statement": "After any sequence of calls the history of extracted states has exactly one entry for each call that extracted states (extract_states, or cleanup with extraction enabled), in order, and each entry is the report on the mixture held right after that call; later calls neither change nor lose it.", "quantifier": "every sequence of predict, correct, cleanup and extract_states calls of any length, with any flags", "why_tests_cant": "the history after an unbounded sequence of calls", "anchors": ["src/gasur/swarm_estimator/tracker.py: ProbabilityHypothesisDensity.extract_states, cleanup; RandomFiniteSetBase.__init__ (_states, _covs)"]}
{"id": "C103", "title": "plans made for another horizon are never reused", "statement": "If horizon_len is changed between calls of initialize, the old plans (complete for the old horizon) are never continued: either an exception is raised, or no measured component was within the similarity threshold of an old plan, all old plans stay in the list, and every new plan stays at the measured mean over the new horizon.", "quantifier": "every pair of different horizons, every list of previous plans and measured mixture", "why_tests_cant": "array broadcasting makes some mismatched shapes assignable; all shapes must be excluded", "anchors": ["src/gasur/guidance.py: ELQRGaussian.initialize"]}
{"id": "C104", "title": "states, covariances and cardinality of the PHD filters report the whole history", "statement": "states is a list with one element per time step, each a list of the best states extracted at that time step (and covariances likewise if they are saved).", "quantifier": "every sequence of predict, correct, cleanup and extract_states calls of any length, with any flags", "why_tests_cant": "the report after an unbounded sequence of calls", "anchors": ["src/gasur/swarm_estimator/tracker.py: ProbabilityHypothesisDensity.states, covariances, cardinality"]}
{"id": "C105", "title": "plot_states draws exactly what was extracted and recorded", "statement": "For each extraction that reported a state the figure has the points of all its states; around each state with a saved covariance the ellipse of that covariance if a bound is given; one line for the k-th true states of all times, with gaps; all recorded measurements if asked for; nothing else, and no legend entry occurs twice. After any sequence of calls the figure can be made (with true states: if some state or true state exists).", "quantifier": "every history of states, covariances, true states and measurements of any length, every choice of plotted components and options", "why_tests_cant": "an equation for histories of any length and any pattern of empty time steps", "anchors": ["src/gasur/swarm_estimator/tracker.py: ProbabilityHypothesisDensity.plot_states"]}
{"id": "C106", "title": "plot_states_labels draws one line for each track", "statement": "After any sequence of calls the figure has exactly one line and one text for each label with a reported state. At each time the line has the state reported with this label, and a gap if there is none, and the text is at the first of them; the ellipses, true states and measurements are those of the history; no legend entry occurs twice.", "quantifier": "every sequence of calls with different rounded times, every choice of plotted components and options", "why_tests_cant": "an equation for histories of any length in which labels appear and disappear", "anchors": ["src/gasur/swarm_estimator/tracker.py: GeneralizedLabeledMultiBernoulli.plot_states_labels"]}
{"id": "C107", "title": "plot_card_history of the GLMB filters draws the number of states of each time step", "statement": "plot_card_history draws one step line whose height at time t is the number of states reported at t, over the given abscissae or, by default, over the indices of the time steps. It agrees with plot_states_labels: the height at t is the number of lines with a point at t.", "quantifier": "every history of reported states, labels and covariances, every list of abscissae", "why_tests_cant": "a relation between two figures for histories of any length", "anchors": ["src/gasur/swarm_estimator/tracker.py: GeneralizedLabeledMultiBernoulli.plot_card_history, plot_states_labels"]}
{"id": "C108", "title": "OSPA plots use the figures they are given", "statement": "plot_ospa_history and plot_ospa2_history draw the distance of each time step on the figure in main_opts (or a new one) and its two components on the figure in sub_opts (or another new one).", "quantifier": "every series of localisation and cardinality values, every list of abscissae, all given figures", "why_tests_cant": "series of any length and figures with any content", "anchors": ["src/gasur/swarm_estimator/tracker.py: RandomFiniteSetBase._plt_ospa_hist, _plt_ospa_hist_subs, plot_ospa_history; GeneralizedLabeledMultiBernoulli.plot_ospa2_history"]}
{"id": "C109", "title": "cardinality plots of the CPHD filter show mode and bounds", "statement": "plot_card_history raises RuntimeWarning without a history; otherwise it draws the mode of each correct call, the modes plus and minus the requested number of standard deviations, and the true cardinalities if there are as many as abscissae (a warning if not). plot_card_dist draws for each cardinality n the probability of n.", "quantifier": "every history and distribution, bound, list of abscissae and true cardinalities of any length", "why_tests_cant": "an equation for histories of any length", "anchors": ["src/gasur/swarm_estimator/tracker.py: CardinalizedPHD.plot_card_history, plot_card_dist; GeneralizedLabeledMultiBernoulli.plot_card_dist"]}
{"id": "C110", "title": "each frame of the animation shows the states of its time step", "statement": "animate_state_plot can be called with its default options, and in the frame of time step t exactly the states extracted at t and the measurements recorded at t are visible.", "quantifier": "every history of states and measurements, every sequence of frames", "why_tests_cant": "what is visible depends on all frames shown before", "anchors": ["src/gasur/swarm_estimator/tracker.py: ProbabilityHypothesisDensity.animate_state_plot, __ani_state_plotting"]}
{"id": "C111", "title": "measurements are recorded exactly if save_measurements is set", "statement": "After any sequence of correct calls a GLMB filter has recorded the measurements of every call in order if save_measurements is set, and none otherwise.", "quantifier": "every sequence of correct calls of any length", "why_tests_cant": "the table after an unbounded sequence of calls", "anchors": ["src/gasur/swarm_estimator/tracker.py: GeneralizedLabeledMultiBernoulli.correct; JointGeneralizedLabeledMultiBernoulli.correct; ProbabilityHypothesisDensity.correct; CardinalizedPHD.correct"]}
{"id": "C112", "title": "OSPA grows with the cut-off and the order", "statement": "If calculate_ospa (or calculate_ospa2) succeeds with cut-off c and order p, it also succeeds with any cut-off c' >= c and order q >= p, and then at every time step localisation, cardinality and their sum are at least as large.", "quantifier": "every pair of series of point sets, core distance, option, cut-offs c <= c' and orders 1 <= p <= q", "why_tests_cant": "inequality between the results of two calls over all real inputs and all orders", "anchors": ["src/gasur/utilities/distributions.py: calculate_ospa, calculate_ospa2"]}
{"id": "C113", "title": "the histories of the CPHD filter are complete", "statement": "After any sequence of calls a CPHD filter's history of extracted states has exactly one entry per extracting call, in order, each the report on the mixture and cardinality distribution right after that call; agents_per_state belongs to the last extraction; the cardinality history has exactly one entry per correction, starting with the most probable number of objects right after it.", "quantifier": "every sequence of calls of any length (predict, correct, cleanup with any flags, extract_states, setting max_expected_card)", "why_tests_cant": "the histories after an unbounded sequence of calls, including calls made later", "anchors": ["src/gasur/swarm_estimator/tracker.py: CardinalizedPHD.extract_states; CardinalizedPHD.correct; ProbabilityHypothesisDensity.cleanup"]}
{"id": "C114", "title": "the order of measurements and birth terms does not matter for the PHD filters", "statement": "If two PHD (or CPHD) filters receive the same calls, only with the measurements of each correction and the birth terms of each prediction in a different order, then after every call both have the same components and report the same states with the same covariances (up to order); the CPHD filters also have the same cardinality distribution and history.", "quantifier": "every sequence of calls of any length and every reordering in each call", "why_tests_cant": "all permutations of all inputs over whole histories", "anchors": ["src/gasur/swarm_estimator/tracker.py: ProbabilityHypothesisDensity.predict; ProbabilityHypothesisDensity.correct; ProbabilityHypothesisDensity.cleanup; CardinalizedPHD.predict; CardinalizedPHD.correct; CardinalizedPHD.extract_states"]}
{"id": "C115", "title": "every track is a single-object track", "statement": "After any sequence of calls, every track the GLMB (or joint GLMB) filter holds is what a single-object filter would hold: it was born with one birth term of one predict call, every later predict moves each of its components, every later correct either leaves it alone or updates each of its components with exactly the one measurement recorded in its association history, and nothing else changes it; its label and association history determine all its states, covariances and weights, and the lengths of its histories count the calls since its birth.", "quantifier": "every sequence of calls of any length, every measurement set, every inner filter", "why_tests_cant": "the complete stored history of every track after unbounded interleavings of the calls", "anchors": ["src/gasur/swarm_estimator/tracker.py: GeneralizedLabeledMultiBernoulli.predict; GeneralizedLabeledMultiBernoulli.correct; JointGeneralizedLabeledMultiBernoulli.correct; GeneralizedLabeledMultiBernoulli.cleanup"]}
{"id": "C116", "title": "no hypothesis is counted twice", "statement": "After any sequence of calls whose predict calls have different rounded times, no two tracks of the GLMB (or joint GLMB) filter have the same label and association history, and no two hypotheses consist of the same tracks.", "quantifier": "every sequence of calls of any length, every measurement set, every random draw of the joint filter", "why_tests_cant": "uniqueness over all pairs of hypotheses after unbounded sequences of calls that each clean up after themselves", "anchors": ["src/gasur/swarm_estimator/tracker.py: GeneralizedLabeledMultiBernoulli._clean_updates; GeneralizedLabeledMultiBernoulli._clean_predictions; GeneralizedLabeledMultiBernoulli._prune; GeneralizedLabeledMultiBernoulli._cap; JointGeneralizedLabeledMultiBernoulli.correct"]}
{"id": "C117", "title": "everything the GLMB filter reports is the best estimate of a track", "statement": "After any sequence of calls with distinct birth labels that ends with an extraction, there are single-object tracks with pairwise distinct labels, each a track of the filter after some of the calls, such that each state, label and covariance reported for a time step is the component of largest weight of one of these tracks at that time step, and each of these tracks is reported at every time step it covers.", "quantifier": "every sequence of calls of any length, every measurement set, every inner filter", "why_tests_cant": "the whole reported history after unbounded sequences of calls, including states kept from earlier extractions", "anchors": ["src/gasur/swarm_estimator/tracker.py: GeneralizedLabeledMultiBernoulli.extract_states; GeneralizedLabeledMultiBernoulli.cleanup"]}
{"id": "C118", "title": "with enough updates a whole run of the joint filter is exact", "statement": "For any finite sequence of time steps (predict, correct, cleanup), the probability that the joint GLMB filter, with its random draws, goes through exactly the states of an ideal filter, which keeps every joint association with its exact weight in every correct call, tends to 1 as the requested number of updates grows.", "quantifier": "every sequence of time steps of any length, every measurement set, every inner filter", "why_tests_cant": "the probability of a property of whole random runs, in the limit of an unbounded parameter", "anchors": ["src/gasur/swarm_estimator/tracker.py: JointGeneralizedLabeledMultiBernoulli.correct; JointGeneralizedLabeledMultiBernoulli.predict", "src/gasur/utilities/sampling.py: gibbs"]}
{"id": "C119", "title": "the expected number of objects of the PHD filter stays bounded", "statement": "After any sequence of calls on a PHD filter the total weight is non-negative and at most what survival, births, missed detections and one object per measurement allow; if survival undetected is not certain, births weigh at most b and there are at most m measurements in each time step, then after any number of time steps the total weight is at most (p_miss b + m)/(1 - p_survive p_miss), and no report ever contains more than twice as many states.", "quantifier": "every sequence of calls of any length, every measurement set, every non-negative likelihood", "why_tests_cant": "a bound that must hold for ever, over unbounded runs", "anchors": ["src/gasur/swarm_estimator/tracker.py: ProbabilityHypothesisDensity.predict; ProbabilityHypothesisDensity.correct; ProbabilityHypothesisDensity.cleanup; ProbabilityHypothesisDensity.extract_states"]}
{"id": "C120", "title": "the GLMB filters do not depend on the coordinate system", "statement": "If all times, inner filters, states, covariances, births and measurements of a sequence of calls are expressed in other coordinates, and the inner filter is the same in these coordinates, then a GLMB filter and a joint GLMB filter (with the same random draws) fail exactly if and as they fail in the original coordinates, and otherwise keep the same hypotheses, probabilities, cardinality distribution, weights and association histories, while all tracks, states, covariances and labels, including everything reported, are those of the original run in the other coordinates. Every inner filter has such a version if the coordinates can be changed back.", "quantifier": "every sequence of calls of any length, every change of coordinates (injective on times), every inner filter", "why_tests_cant": "an equality of two whole runs for all inputs, all coordinate changes and all failures", "anchors": ["src/gasur/swarm_estimator/tracker.py: GeneralizedLabeledMultiBernoulli.predict; GeneralizedLabeledMultiBernoulli.correct; GeneralizedLabeledMultiBernoulli.cleanup; GeneralizedLabeledMultiBernoulli.extract_states; JointGeneralizedLabeledMultiBernoulli.predict; JointGeneralizedLabeledMultiBernoulli.correct"]}
{"id": "C121", "title": "the PHD filters do not depend on the coordinate system", "statement": "If states are transformed by an affine map, covariances by a linear map, and measurements by any map with densities on the measurement space (likelihoods and clutter density) multiplied by a factor, such that inner filter and Mahalanobis distance stay the same, then a PHD filter and a CPHD filter fail exactly if and as they fail in the original coordinates, and otherwise have the same weights and cardinality distribution, with all states and covariances, including everything reported, those of the original run in the other coordinates.", "quantifier": "every sequence of calls of any length, every affine change of coordinates, every non-zero factor, every inner filter", "why_tests_cant": "an equality of two whole runs for all inputs, all coordinate changes and all failures", "anchors": ["src/gasur/swarm_estimator/tracker.py: ProbabilityHypothesisDensity.predict; ProbabilityHypothesisDensity.correct; ProbabilityHypothesisDensity.cleanup; CardinalizedPHD.predict; CardinalizedPHD.correct; CardinalizedPHD.extract_states"]}
{"id": "C122", "title": "OSPA does not depend on the coordinate system", "statement": "If truth and estimates are moved together, OSPA and OSPA(2) stay the same: under translations for the Manhattan distance, under rotations, reflections and translations for the Euclidean distance, and under every invertible affine map (covariances moving along) for the Hellinger distance. With the Euclidean or Manhattan distance, measuring states and cut-off in another unit of length multiplies localisation and cardinality part by the ratio of the units.", "quantifier": "all state arrays, cut-offs, orders, windows, maps and units; every optimal assignment routine", "why_tests_cant": "an equality over all point sets and all maps of a continuous group", "anchors": ["src/gasur/utilities/distributions.py: calculate_ospa; calculate_ospa2"]}
{"id": "C123", "title": "the filters need bounded memory", "statement": "However long a filter runs and whatever is born, measured and drawn at random, the number of mixture components of a PHD or cardinalized PHD filter and of hypotheses of a GLMB and joint GLMB filter stays below a bound that depends only on the parameters (requested and maximal numbers; for the PHD filters also on the number of births and measurements of one time step), if every time step ends with cleanup with capping; after each time step it is at most the maximal number. The cardinality distribution of the cardinalized PHD filter always has max_expected_card + 1 entries.", "quantifier": "every number of time steps, every input, every point within a time step", "why_tests_cant": "a bound for runs of any length; a test stops after some steps", "anchors": ["src/gasur/swarm_estimator/tracker.py: ProbabilityHypothesisDensity.predict; ProbabilityHypothesisDensity.correct; ProbabilityHypothesisDensity.cleanup; CardinalizedPHD.predict; CardinalizedPHD.correct; GeneralizedLabeledMultiBernoulli.predict; GeneralizedLabeledMultiBernoulli.correct; GeneralizedLabeledMultiBernoulli.cleanup; JointGeneralizedLabeledMultiBernoulli.correct"]}
{"id": "C124", "title": "no more objects than birth terms", "statement": "A GLMB filter and a joint GLMB filter never have a hypothesis with more tracks than birth terms were passed to predict so far, the cardinality distribution has no entry for larger numbers, and the objects reported for a time step carry labels of birth terms of predict calls up to this time step, each label at most once.", "quantifier": "every sequence of calls of any length; for the reports: distinct birth labels, calls ending with an extraction (joint filter: extractions only when correct followed the last predict, see C125)", "why_tests_cant": "a bound over all histories, measurements and assignments", "anchors": ["src/gasur/swarm_estimator/tracker.py: GeneralizedLabeledMultiBernoulli.predict; GeneralizedLabeledMultiBernoulli.correct; GeneralizedLabeledMultiBernoulli.extract_states; JointGeneralizedLabeledMultiBernoulli.predict; JointGeneralizedLabeledMultiBernoulli.correct"]}
{"id": "C125", "title": "what the joint GLMB filter reports", "statement": "For calls with distinct birth times whose last call extracts states, the states, labels and covariances the joint GLMB filter reports have one entry per time step, of equal lengths and with distinct labels, consist of track histories reported at consecutive steps from their birth on, and every reported state is the best estimate of a single-object track that the filter had.", "quantifier": "every sequence of calls of any length, all random draws", "why_tests_cant": "a statement over all histories and draws", "anchors": ["src/gasur/swarm_estimator/tracker.py: JointGeneralizedLabeledMultiBernoulli.predict; JointGeneralizedLabeledMultiBernoulli.correct; GeneralizedLabeledMultiBernoulli.extract_states"]}
{"id": "C126", "title": "the PHD filter forgets objects that are no longer seen", "statement": "In time steps without births and measurements the total weight of the PHD filter goes down at least by the factor p_S (1 - p_D) each; if that is below 1 and components are pruned, after sufficiently many such steps, a number that depends only on the weight before, the mixture is empty without any call having failed, and it stays empty and every report is empty while nothing is born, whatever is measured.", "quantifier": "every reachable state, any number of quiet time steps, any measurements afterwards", "why_tests_cant": "a limit statement over unbounded histories", "anchors": ["src/gasur/swarm_estimator/tracker.py: ProbabilityHypothesisDensity.predict; ProbabilityHypothesisDensity.correct; ProbabilityHypothesisDensity.cleanup"]}
{"id": "C127", "title": "prediction and correction depend only on the intensity", "statement": "Two PHD filters whose mixtures are the same intensity (the same total weight at every mean and covariance, in any order and however components are split) and that get the same inputs (measurements in any order, births of the same total intensity) are the same intensity after any number of predictions and corrections, and none of these calls fails; two CPHD filters with the same intensity and cardinality distribution stay so, including the cardinality history, or both fail.", "quantifier": "all intensities and all ways to write them as mixtures, all sequences of predictions and corrections", "why_tests_cant": "infinitely many mixtures represent one intensity; a statement about two runs", "anchors": ["src/gasur/swarm_estimator/tracker.py: ProbabilityHypothesisDensity.predict; ProbabilityHypothesisDensity.correct; CardinalizedPHD.predict; CardinalizedPHD.correct"]}
{"id": "C128", "title": "asking for more answers only adds answers", "statement": "murty_m_best for m assignments returns exactly the first m rows and costs it returns for any larger number, and k_shortest for k subsets returns exactly the first k it returns for any larger number.", "quantifier": "all cost matrices with at least one row, all cost vectors, all pairs of numbers of requested answers", "why_tests_cant": "a statement about two calls for all matrices and all numbers", "anchors": ["src/gasur/utilities/graphs.py: murty_m_best; k_shortest"]}
{"id": "C129", "title": "assignment results do not depend on the layout of the cost matrix", "statement": "Reordering the rows and columns of a cost matrix, or transposing it, changes neither the cost nor the number of pairs that assign_opt finds; a new unit and zero of the costs changes the cost accordingly. The costs that murty_m_best returns are the m smallest of the costs of all assignments, in order and with multiplicity, so they do not depend on the order of rows and columns either.", "quantifier": "all cost matrices, all permutations, all factors and constants, all m", "why_tests_cant": "relates runs of a search algorithm on different inputs for all matrices", "anchors": ["src/gasur/utilities/graphs_subroutines.py: assign_opt", "src/gasur/utilities/graphs.py: murty_m_best"]}
{"id": "C130", "title": "the order of the measurements does not matter for the GLMB update", "statement": "Given the same measurements of a step in another order, the update of the labelled multi-Bernoulli filter yields the same hypotheses in the same order, with the same weights and the same labels, and the same cardinality distribution, for any requested number of updated hypotheses.", "quantifier": "all filter states, all lists of measurements, all permutations of them, all requested numbers of updates", "why_tests_cant": "relates two runs of a ranked search over associations for all inputs and all reorderings", "anchors": ["src/gasur/swarm_estimator/tracker.py: GeneralizedLabeledMultiBernoulli.correct"]}
{"id": "C131", "title": "an infinite cost excludes an element from the shortest paths", "statement": "For k_shortest an infinite cost means that the element cannot be used: the result is the one for the list of finite costs alone, with the indices translated back; no returned path contains an element of infinite cost, and the first path is a cheapest subset.", "quantifier": "all cost vectors with any number of infinite entries, all orders of ties in the sort, all k", "why_tests_cant": "relates the runs of a graph search on different inputs for all vectors", "anchors": ["src/gasur/utilities/graphs.py: k_shortest; bfm_shortest_path"]}
{"id": "C132", "title": "what is impossible stays out of the predicted hypotheses", "statement": "Birth and survival probabilities of zero are accepted by the GLMB filter, and after predict no hypothesis contains a target born from a birth term of probability zero or a target whose survival probability was zero.", "quantifier": "all filter states, all lists of birth terms with any probabilities, all inner filters, all numbers of requested hypotheses", "why_tests_cant": "the infinite costs go through a graph search over all subsets; tests use a few probabilities", "anchors": ["src/gasur/swarm_estimator/tracker.py: GeneralizedLabeledMultiBernoulli.predict; GeneralizedLabeledMultiBernoulli._gen_surv_hyps; GeneralizedLabeledMultiBernoulli._gen_birth_tab", "src/gasur/utilities/graphs.py: k_shortest"]}
{"id": "C133", "title": "the order of the elements does not matter for k_shortest", "statement": "Rearranging the costs given to k_shortest changes neither the number of returned paths nor their costs, however ties are broken; if no two finite costs are equal, the returned index lists are the same with the indices rearranged accordingly.", "quantifier": "all cost vectors (with infinite entries), all rearrangements, all sorts, all k", "why_tests_cant": "relates two runs of a graph search on different inputs for all vectors and permutations", "anchors": ["src/gasur/utilities/graphs.py: k_shortest"]}
{"id": "C134", "title": "the order of the birth terms does not matter for the GLMB filter", "statement": "Take two sequences of calls on a new GLMB filter that differ only in the order in which the birth terms are passed to predict (birth terms of positive probability having different log odds, survival and detection probabilities not depending on the label). The two runs succeed or fail together, and afterwards the hypotheses, their probabilities and order, the tracks in each, the cardinality distribution, and all reported states and covariances are the same; the labels differ exactly by the renumbering of the birth terms.", "quantifier": "all sequences of predict/correct/cleanup/extract calls, all rearrangements of the birth terms at each time, all measurements", "why_tests_cant": "relates two whole runs for all histories and all permutations", "anchors": ["src/gasur/swarm_estimator/tracker.py: GeneralizedLabeledMultiBernoulli.predict; GeneralizedLabeledMultiBernoulli.correct; GeneralizedLabeledMultiBernoulli.cleanup; GeneralizedLabeledMultiBernoulli.extract_states", "src/gasur/utilities/graphs.py: k_shortest"]}
{"id": "C135", "title": "not saving covariances changes nothing else", "statement": "With save_covs switched off (the default) the GLMB and joint GLMB filters store no covariances for birth terms and None for predicted and updated tracks. The same calls on a filter with and on one without save_covs have the same outcome: both fail with the same error, or both return, and then hypotheses, probabilities, cardinality distribution, tracks, association histories, reported states and labels are equal. In particular the filter with the default setting never fails on well-formed input.", "quantifier": "all sequences of predict/correct/cleanup/extract calls, all inner filters", "why_tests_cant": "relates two configurations over all histories", "anchors": ["src/gasur/swarm_estimator/tracker.py: GeneralizedLabeledMultiBernoulli.__init__ (save_covs); GeneralizedLabeledMultiBernoulli.predict; GeneralizedLabeledMultiBernoulli.correct; GeneralizedLabeledMultiBernoulli.extract_states; GeneralizedLabeledMultiBernoulli.cleanup"]}
{"id": "C136", "title": "an association that is ruled out is not made", "statement": "After correct, no hypothesis of positive probability attributes a measurement to a track that cannot have produced it: one for which the inner filter returns likelihood zero, or one that cannot be detected (p_D = 0). More generally a hypothesis that attributes measurement j to track t is at most as probable as the odds p_D * likelihood / ((1 - p_D) * clutter intensity) of that detection against a miss.", "quantifier": "all tables of tracks, hypotheses, measurement lists of any length, inner filters and parameters", "why_tests_cant": "a bound for every hypothesis the k-best enumeration returns", "anchors": ["src/gasur/swarm_estimator/tracker.py: GeneralizedLabeledMultiBernoulli._correct_track_tab_entry; GeneralizedLabeledMultiBernoulli._gen_cor_hyps; GeneralizedLabeledMultiBernoulli.correct; GeneralizedLabeledMultiBernoulli._prune"]}
{"id": "C137", "title": "the plot of the number of states per time step", "statement": "With debug_plots set, plot_number_states_per_time of the CPHD filter draws for each extraction, in order, the number of states it reported; without it nothing is drawn. Recording these numbers changes neither the outcome of any call nor the state of the filter.", "quantifier": "all sequences of calls on a new filter", "why_tests_cant": "histories of any length", "anchors": ["src/gasur/swarm_estimator/tracker.py: CardinalizedPHD.__init__; CardinalizedPHD.extract_states; CardinalizedPHD.plot_number_states_per_time"]}
{"id": "C138", "title": "cleaning up a GLMB filter twice is cleaning up once", "statement": "After cleanup of a GLMB or joint GLMB filter (any combination of pruning and capping) a second cleanup with the same settings drops no further hypothesis and changes no probability, label, track or cardinality; only the time counter advances. (Renormalising after pruning and capping never pushes a kept hypothesis below the threshold.)", "quantifier": "all sequences of calls before (and all hypotheses with non-negative probabilities of total at most one), all thresholds and limits, both flags", "why_tests_cant": "a fixed-point statement over all states", "anchors": ["src/gasur/swarm_estimator/tracker.py: GeneralizedLabeledMultiBernoulli._prune; GeneralizedLabeledMultiBernoulli._cap; GeneralizedLabeledMultiBernoulli.cleanup"]}
{"id": "C139", "title": "cleaning up a PHD filter twice is cleaning up once", "statement": "After cleanup (any combination of pruning, merging and capping) a second cleanup with the same settings changes no component.", "quantifier": "all densities with non-negative weights, all thresholds and limits, all flags", "why_tests_cant": "a fixed-point statement over all states", "anchors": ["src/gasur/swarm_estimator/tracker.py: ProbabilityHypothesisDensity._prune; ProbabilityHypothesisDensity._merge; ProbabilityHypothesisDensity._cap; ProbabilityHypothesisDensity.cleanup"]}
{"id": "C140", "title": "the GLMB update does not depend on the units of the measurements", "statement": "If the measurements are given in other units, so that all likelihoods and the clutter density are multiplied by the same positive factor, correct of a GLMB filter has the same outcome: the same exception, or the same tracks, component weights, hypotheses and probabilities.", "quantifier": "all states, measurements, inner filters, parameters and factors", "why_tests_cant": "a statement about two runs for every factor", "anchors": ["src/gasur/swarm_estimator/tracker.py: GeneralizedLabeledMultiBernoulli._correct_track_tab_entry; GeneralizedLabeledMultiBernoulli._gen_cor_hyps; GeneralizedLabeledMultiBernoulli.correct"]}
{"id": "C141", "title": "repeated clean-ups of a PHD filter settle", "statement": "Calling cleanup again and again without extraction (any combination of pruning, merging and capping, always the same) on a PHD or CPHD filter never fails and settles: with n components of positive weight, after at most n + 1 calls a further call changes nothing, and there are at most n components.", "quantifier": "all densities with positive weights, all thresholds and limits, all flags, any number of calls", "why_tests_cant": "a statement about every density and any number of calls", "anchors": ["src/gasur/swarm_estimator/tracker.py: ProbabilityHypothesisDensity.cleanup; ProbabilityHypothesisDensity._merge; ProbabilityHypothesisDensity._prune; ProbabilityHypothesisDensity._cap"]}
{"id": "C142", "title": "OSPA falls back to the Euclidean distance when covariances are missing", "statement": "If covariances that the chosen core distance needs are not available (not passed, or not saved by the filter), calculate_ospa and calculate_ospa2 return the values for the Euclidean distance with the given cut-off instead of failing.", "quantifier": "all truths and estimates, all core distances, cut-offs and orders, all combinations of missing covariances", "why_tests_cant": "a statement about all combinations of arguments and all arrays", "anchors": ["src/gasur/utilities/distributions.py: calculate_ospa; calculate_ospa2", "src/gasur/swarm_estimator/tracker.py: RandomFiniteSetBase.calculate_ospa; RandomFiniteSetBase._ospa_input_check"]}
{"id": "C143", "title": "Extracting states does not influence the filters", "statement": "extract_states and the extraction flag of cleanup only write results: if a sequence of calls succeeds, the same sequence with extractions left out succeeds too and ends with the same mixture, tracks, hypotheses, cardinality distribution and step counter; for PHD and CPHD the results of the shorter sequence are among those of the longer one, in the same order.", "quantifier": "all sequences of calls on a new PHD, CPHD, GLMB or joint GLMB filter and all choices of extractions to leave out (GLMB: all at once; and any two successful sequences that differ only in extractions)", "why_tests_cant": "ranges over all histories and all positions of the extractions in them", "anchors": ["src/gasur/swarm_estimator/tracker.py: ProbabilityHypothesisDensity.extract_states; ProbabilityHypothesisDensity.cleanup; CardinalizedPHD.extract_states; GeneralizedLabeledMultiBernoulli.extract_states; GeneralizedLabeledMultiBernoulli.cleanup; JointGeneralizedLabeledMultiBernoulli.correct"]}
{"id": "C144", "title": "A PHD filter call that raises leaves the filter usable", "statement": "If a call on the PHD filter raises (the inner filter raises for some component, or a covariance cannot be inverted while merging), the filter is as it was before the call: predict leaves everything as it was; correct leaves mixture and reported states as they were but has already recorded the measurements; a cleanup that raises while merging leaves the weight -1 on components it has merged, so that they are lost at the next pruning. If the caller catches the exceptions and goes on and no cleanup raised, mixture and reported states are what the successful calls give by themselves; in every case the mixture's lists stay parallel and reported states are not changed.", "quantifier": "all sequences of calls on a new PHD filter, all points at which the inner filter or the inversion raises", "why_tests_cant": "ranges over all crash points of all calls in all histories", "anchors": ["src/gasur/swarm_estimator/tracker.py: ProbabilityHypothesisDensity.predict; ProbabilityHypothesisDensity._predict_prob_density; ProbabilityHypothesisDensity.correct; ProbabilityHypothesisDensity._correct_prob_density; ProbabilityHypothesisDensity._merge; ProbabilityHypothesisDensity.cleanup"]}
{"id": "C145", "title": "A GLMB filter call that raises leaves the filter usable", "statement": "If a call on the GLMB filter raises and the caller catches the exception, the filter is as it was before the call and the calls after it work as if the failed call had not been made. What holds: predict leaves everything as it was; correct leaves tracks, hypotheses and cardinality as they were but has already recorded the measurements; extract_states touches only the reported results, which it has emptied; a cleanup that raises has finished the time step and lacks only the results. In any history tracks, hypotheses, cardinality distribution and step counter are those of the successful predict and correct calls and all clean-ups.", "quantifier": "all sequences of calls on a new GLMB filter, all points at which the inner filter raises or an index is out of range", "why_tests_cant": "ranges over all crash points of all calls in all histories", "anchors": ["src/gasur/swarm_estimator/tracker.py: GeneralizedLabeledMultiBernoulli.predict; GeneralizedLabeledMultiBernoulli.correct; GeneralizedLabeledMultiBernoulli.cleanup; GeneralizedLabeledMultiBernoulli.extract_states; GeneralizedLabeledMultiBernoulli._prune; GeneralizedLabeledMultiBernoulli._cap"]}
{"id": "C146", "title": "A CPHD filter call that raises leaves the filter usable", "statement": "If a call on the CPHD filter raises and the caller catches the exception, the filter is as it was before the call. What holds: predict leaves everything as it was, except that with a birth term without components the mixture has already been predicted and extended while the cardinality distribution is the old one; correct leaves everything as it was but has recorded the measurements; cleanup raises only in merging and leaves the pruned components, some with weight -1, and everything else. If no birth term is empty and no clean-up raises, the filter after any history is that of the calls that ended normally, and extract_states never raises. In any history the lists of the mixture stay parallel, reported states are never withdrawn and every scan given to correct is recorded.", "quantifier": "all sequences of calls on a new CPHD filter, all points at which the inner filter raises, an index is out of range, a division by zero occurs or a covariance has no inverse", "why_tests_cant": "ranges over all crash points of all calls in all histories", "anchors": ["src/gasur/swarm_estimator/tracker.py: CardinalizedPHD.predict; CardinalizedPHD.correct; CardinalizedPHD._correct_prob_density; CardinalizedPHD.extract_states; ProbabilityHypothesisDensity.cleanup"]}
{"id": "C147", "title": "A joint GLMB filter call that raises leaves the filter usable", "statement": "If a call on the joint GLMB filter raises and the caller catches the exception, the filter is as it was before the call and later calls work. What holds: predict leaves everything as it was; correct leaves everything as it was but has recorded the measurements; extract_states touches only the results; a cleanup that raises has finished the time step and lacks only the results; the core of the state after any history is that of the successful predict and correct calls and all clean-ups. What does not hold: with a constant positive number of birth terms a correction ends normally only if exactly one prediction ended normally since the last correction that did, so after a failed correction the filter never recovers unless that correction is repeated before the next prediction.", "quantifier": "all sequences of calls on a new joint GLMB filter, all points at which the inner filter raises, arrays have different lengths or an index is out of range", "why_tests_cant": "ranges over all crash points of all calls in all histories", "anchors": ["src/gasur/swarm_estimator/tracker.py: JointGeneralizedLabeledMultiBernoulli.predict; JointGeneralizedLabeledMultiBernoulli.correct; JointGeneralizedLabeledMultiBernoulli._gen_cor_tab; GeneralizedLabeledMultiBernoulli.cleanup; GeneralizedLabeledMultiBernoulli.extract_states"]}
{"id": "C148", "title": "only the clutter intensity matters", "statement": "Two PHD, GLMB or joint GLMB filters that differ only in clutter_rate and clutter_den, with the same product, behave the same: every sequence of calls has the same outcome, results and exceptions included.", "quantifier": "all states, all sequences of calls, all pairs of rates and densities with equal product (joint filter: for the same random draws)", "why_tests_cant": "an equality of all runs for all reparametrisations", "anchors": ["src/gasur/swarm_estimator/tracker.py: ProbabilityHypothesisDensity.correct; GeneralizedLabeledMultiBernoulli.correct; JointGeneralizedLabeledMultiBernoulli.correct"]}
{"id": "C149", "title": "more clutter, less weight for measurements", "statement": "If the clutter intensity is raised from a positive value, no weight of a PHD update grows and none shrinks by more than the ratio of the intensities; means, covariances and the weights of missed objects do not change. The total weight that the measurements contribute is at most their unnormalised weight divided by the clutter intensity.", "quantifier": "all mixtures with non-negative weights, all measurement lists, all inner filters with non-negative likelihoods, all intensities", "why_tests_cant": "an inequality over all inputs and all pairs of intensities", "anchors": ["src/gasur/swarm_estimator/tracker.py: ProbabilityHypothesisDensity.correct; ProbabilityHypothesisDensity._correct_prob_density"]}
{"id": "C150", "title": "OSPA attributes describe the last call that returned", "statement": "At any time the ospa arrays of a filter are those of its last calculate_ospa that returned since it was constructed or restored (likewise ospa2 and calculate_ospa2): calls that raise and calls on other filters have no effect. If nothing has been restored, ospa_method and the parameters in the plot titles are those of that call too, and before it there is nothing to plot. The recorded method, cut-off and power reproduce the values. Each value is between 0 and the recorded cut-off, one per time step of the truth, or one zero per time step of the filter if no state is known at all.", "quantifier": "all histories of constructing, extracting, calculate_ospa, calculate_ospa2, saving and restoring on any number of filters; all arguments", "why_tests_cant": "it quantifies over all histories of several filters that may share objects", "anchors": ["src/gasur/swarm_estimator/tracker.py: RandomFiniteSetBase.calculate_ospa; RandomFiniteSetBase.ospa_method; RandomFiniteSetBase._ospa_find_s_dim; GeneralizedLabeledMultiBernoulli.calculate_ospa2; RandomFiniteSetBase.plot_ospa_history"]}
{"id": "C151", "title": "a restored filter reports its OSPA and OSPA(2) parameters as the saved one did, and independently of it", "statement": "After restoring a saved GLMB filter, ospa, ospa2, ospa_method and the titles of both plots are those of the saved filter, and later calculations on one of the two filters do not change what the other one reports.", "quantifier": "all histories before saving, all filters, all later calculations", "why_tests_cant": "it quantifies over histories of two filters that share a dictionary", "anchors": ["src/gasur/swarm_estimator/tracker.py: GeneralizedLabeledMultiBernoulli.save_filter_state; GeneralizedLabeledMultiBernoulli.load_filter_state; GeneralizedLabeledMultiBernoulli.plot_ospa2_history"]}
{"id": "C152", "title": "runs of the PHD and CPHD filters with gating", "statement": "However gating is switched and the gate moved, a run with gating has the outcome of a run without gating in which each correct gets a sublist of its measurements: those whose distance to some component of the mixture at that time is below the gate; the recorded measurements are these lists. With a gate that is not positive - which is what the constructor always sets - no measurement is ever used, so the estimates do not depend on the measurements. With a gate wider than all distances the PHD filter gives the same outcome as without gating.", "quantifier": "all sequences of calls and assignments of gating_on and inv_chi2_gate, all inner filters, all measurements", "why_tests_cant": "the gate depends on the mixture, hence on the whole history of calls", "anchors": ["src/gasur/swarm_estimator/tracker.py: ProbabilityHypothesisDensity.correct; CardinalizedPHD.correct; RandomFiniteSetBase._gate_meas; ProbabilityHypothesisDensity.__init__"]}
{"id": "C153", "title": "the evaluation of a longer run extends that of a shorter one", "statement": "The OSPA value at a time step depends only on the objects of this step, and the OSPA(2) value only on the tracks within the window that ends there. So evaluating the first n time steps of a run, by the functions or through a filter, succeeds if evaluating the whole run does, and gives the first n values.", "quantifier": "all estimates, truths, cut-offs, powers, core distances, window lengths, and all n", "why_tests_cant": "every pair of runs that agree in a window", "anchors": ["src/gasur/utilities/distributions.py: calculate_ospa; calculate_ospa2", "src/gasur/swarm_estimator/tracker.py: RandomFiniteSetBase.calculate_ospa; RandomFiniteSetBase._ospa_setup_tmat; RandomFiniteSetBase._ospa_setup_emat; GeneralizedLabeledMultiBernoulli._ospa_setup_emat; GeneralizedLabeledMultiBernoulli.calculate_ospa2"]}
{"id": "C154", "title": "what the result of gibbs depends on", "statement": "With the same random numbers, every assignment that gibbs returns it also returns, with the same cost, for any larger number of iterations. The rows come in strictly increasing lexicographic order. Adding a number to all costs of a row leaves the returned assignments as they are and adds it to each returned cost.", "quantifier": "all cost matrices, numbers of iterations, random numbers and row shifts", "why_tests_cant": "all pairs of calls; the Markov chain has unbounded length", "anchors": ["src/gasur/utilities/sampling.py: gibbs"]}
{"id": "C155", "title": "the PHD filter and the objects of the caller", "statement": "The PHD filter shares arrays between its mixture, its birth terms and its reports, and changes list objects in place; this cannot be seen from outside. No call changes an object that the filter did not make: birth terms and measurements of the caller stay as they are. What has been reported is never changed by later calls. Whatever happens between the calls to objects that the filter did not make, the filter reports what belongs to the values of the birth terms at construction and of the measurements when they were passed.", "quantifier": "all heaps, birth terms, parameters and histories of calls (also calls that raise) with arbitrary changes by other code in between", "why_tests_cant": "aliasing bugs only show up for particular interleavings of calls and in-place changes", "anchors": ["src/gasur/swarm_estimator/tracker.py: RandomFiniteSetBase.__init__, ProbabilityHypothesisDensity.predict, correct, _prune, _merge, _cap, extract_states, cleanup, states"]}
{"id": "C156", "title": "the GLMB filter and the arrays of the caller", "statement": "The GLMB filter never makes an array of the caller part of its tracks, records or reports: birth states, birth covariances and measurements are copied. No call changes the contents of any array that existed before the call; in particular states reported earlier stay as they are. Whatever the program does with its own arrays between the calls (also with arrays that it has passed to earlier calls), the filter behaves as if it had got the contents of the arrays at the time of each call, and its recorded measurements are these contents.", "quantifier": "all programs that create arrays, change their own arrays and call the filter in any order; all inner filters, parameters and birth terms", "why_tests_cant": "aliasing bugs only show up for particular interleavings of calls and in-place changes", "anchors": ["src/gasur/swarm_estimator/tracker.py: _TabEntry.setup, GeneralizedLabeledMultiBernoulli._init_filt_states, predict, correct, _clean_updates, extract_states, cleanup, states, covariances"]}
{"id": "C157", "title": "the joint GLMB filter and the arrays of the caller", "statement": "As C156 for the joint GLMB filter: birth states, birth covariances and measurements of the caller are copied and never become part of the tracks, records or reports; no call changes the contents of any array that existed before; the filter behaves as if it had got the contents of the arrays at the time of each call, and always records these contents of the measurements. In addition tracks without a measurement get arrays of their own, so after a correction without measurements the track table shares no array with earlier reports.", "quantifier": "all programs that create arrays, change their own arrays and call the filter in any order; all inner filters, parameters, birth terms and random numbers", "why_tests_cant": "aliasing bugs only show up for particular interleavings of calls and in-place changes", "anchors": ["src/gasur/swarm_estimator/tracker.py: JointGeneralizedLabeledMultiBernoulli.predict, _gen_cor_tab, correct"]}
{"id": "C158", "title": "the CPHD filter and the arrays of the caller", "statement": "As C155 and C156 for the cardinalized PHD filter: birth terms are copied when the filter is constructed and measurements when they are given, so the caller may change or reuse its own arrays at any time; the filter behaves as if it had got the birth terms as they were at construction and the measurements as they were at each call, and records these measurements; no array of the caller becomes part of the mixture, birth terms, records or reports; no call changes the contents of an existing array. After a correction all arrays of the mixture are new and all means are different arrays, but the covariances of the components of one predicted component are one array for all measurements, so changing one of them in place changes the others.", "quantifier": "all programs that create arrays, change their own arrays and call the filter in any order; all inner filters, parameters, birth terms, measurements and mixtures", "why_tests_cant": "aliasing bugs only show up for particular interleavings of calls and in-place changes", "anchors": ["src/gasur/swarm_estimator/tracker.py: CardinalizedPHD, predict, correct, _correct_prob_density, extract_states, cleanup"]}
{"id": "C159", "title": "more clutter, fewer detected tracks", "statement": "If two GLMB filters differ only in the clutter rate or clutter density and enough updates are requested, then after updating the same state with the same measurements, the filter with the higher clutter intensity finds it at most as probable as the other that at least n tracks were detected, for every n; and it assigns at most the same mean to every increasing function of the number of detected tracks.", "quantifier": "all states, measurements, detection and survival models, clutter rates and densities, n and increasing functions", "why_tests_cant": "a comparison of two whole posterior distributions; a test compares a few numbers", "anchors": ["src/gasur/swarm_estimator/tracker.py: GeneralizedLabeledMultiBernoulli: correct, _gen_cor_hyps, clutter_rate, clutter_den"]}
{"id": "C160", "title": "with a Poisson distributed number of objects the CPHD correction is the PHD correction", "statement": "If the cardinality distribution of a CPHD filter is the Poisson distribution whose mean is the total weight of its mixture, cut off at max_expected_card, then its correction with any measurements succeeds, yields the means of the PHD filter's correction of the same mixture (missed components first instead of last), and weights that come as close to those of the PHD filter as one likes when max_expected_card is large enough.", "quantifier": "all mixtures with positive total weight, measurements, parameters with positive clutter and survival probability strictly between 0 and 1, inner filters with non-negative likelihoods, and tolerances", "why_tests_cant": "a limit, and a comparison of two different algorithms on all inputs", "anchors": ["src/gasur/swarm_estimator/tracker.py: CardinalizedPHD.correct, _correct_prob_density, ProbabilityHypothesisDensity.correct"]}
{"id": "C161", "title": "when nothing is measured, fewer objects", "statement": "If correct of a GLMB filter whose tracks all have the same detection probability, or of a CPHD filter, gets no measurements, then it is not more probable afterwards than before that there are at least n objects, for every n, and no increasing function of the number of objects has a larger mean than before; a GLMB hypothesis keeps its number of objects.", "quantifier": "all states whose hypothesis probabilities or cardinality distribution sum to one, all parameters with probabilities strictly between 0 and 1, all n and increasing functions", "why_tests_cant": "a comparison of whole distributions for all of them", "anchors": ["src/gasur/swarm_estimator/tracker.py: GeneralizedLabeledMultiBernoulli.correct, CardinalizedPHD.correct"]}
{"id": "C162", "title": "asking for more updates never makes the GLMB update worse", "statement": "If correct is run with a larger req_upd on the same hypotheses and measurements, then it keeps at least as many associations of every hypothesis, they carry at least as much of the exact Bayes posterior, and the total variation distance of the new weights from that posterior is not larger.", "quantifier": "all filter states, measurements and pairs of values of req_upd for which correct succeeds and leaves some hypothesis", "why_tests_cant": "the exact posterior is not computed by the code, and the number of associations grows exponentially", "anchors": ["src/gasur/swarm_estimator/tracker.py: GeneralizedLabeledMultiBernoulli.correct"]}
{"id": "C163", "title": "a better sensor, more detections", "statement": "If two GLMB filters differ in their detection probability only and all hypotheses have equally many tracks, then after correct with the same measurements it is not less probable for the filter with the higher detection probability that at least k tracks were detected, for every k, and every increasing function of the number of detected tracks has a mean that is not smaller.", "quantifier": "all states whose hypotheses have equally many tracks, all measurements, all pairs of detection probabilities strictly between 0 and 1, all k and increasing functions, all sufficiently large req_upd", "why_tests_cant": "a comparison of two posteriors over all associations, for all inputs", "anchors": ["src/gasur/swarm_estimator/tracker.py: GeneralizedLabeledMultiBernoulli.correct, GeneralizedLabeledMultiBernoulli.prob_detection"]}
{"id": "C164", "title": "what a clean-up of a GLMB filter can change", "statement": "cleanup of a GLMB filter changes the probability of no statement about which tracks are there (such as there being n objects, or a certain track) by more than the sum of the probabilities of the hypotheses it drops, which is at most the threshold times the number of pruned hypotheses plus the probabilities of the capped ones; no choice of as many of the hypotheses above the threshold drops less.", "quantifier": "all hypotheses with positive probabilities that sum to one, all thresholds and caps, all statements about the tracks", "why_tests_cant": "a bound over all events and all hypothesis lists", "anchors": ["src/gasur/swarm_estimator/tracker.py: GeneralizedLabeledMultiBernoulli.cleanup, GeneralizedLabeledMultiBernoulli._prune, GeneralizedLabeledMultiBernoulli._cap, JointGeneralizedLabeledMultiBernoulli"]}
{"id": "C165", "title": "objects that are no longer measured are forgotten", "statement": "If a GLMB filter gets k empty scans one after the other, without predictions, pruning and capping, then its hypotheses have the Bayes weights for k misses of each track, and the probability that there are more than n objects is at most (1 - p_D)^k divided by the probability at the beginning that there were exactly n; if that was possible, it falls below every bound as k grows.", "quantifier": "all numbers of scans, all states whose probabilities are positive and sum to one, all interleavings with clean-ups that drop nothing and extractions, all n and bounds", "why_tests_cant": "a statement about all run lengths and a limit", "anchors": ["src/gasur/swarm_estimator/tracker.py: GeneralizedLabeledMultiBernoulli.correct, GeneralizedLabeledMultiBernoulli.cleanup, GeneralizedLabeledMultiBernoulli.extract_states"]}
{"id": "C166", "title": "OSPA is stable", "statement": "If the estimates move by at most a distance delta each and the true objects by at most epsilon each (Euclidean or Manhattan method, order at least 1) and the same slots stay occupied, then calculate_ospa still returns if it did, no cardinality component changes, and the localisation component and the error of each time step change by at most delta + epsilon; the bound is attained.", "quantifier": "all estimates and truths (whatever slots are occupied), movements, cut-offs, orders, both values of use_empty and all optimal assignment solvers", "why_tests_cant": "tests compare single values; this bounds the change over all pairs of nearby inputs although the matching may change completely", "anchors": ["src/gasur/utilities/distributions.py: calculate_ospa"]}
{"id": "C167", "title": "OSPA(2) is stable", "statement": "If at each time step the estimates move by at most delta each and the true objects by at most epsilon each (Euclidean or Manhattan method, order at least 1) and the same slots stay occupied, then calculate_ospa2 still returns if it did, no cardinality component changes, and the localisation component and the error of each time step change by at most delta + epsilon, for every window length.", "quantifier": "all estimates and truths (whatever slots are occupied), movements, cut-offs, orders, window lengths and all optimal assignment solvers", "why_tests_cant": "tests compare single values; this bounds the change over all pairs of nearby inputs although the matching of the tracks may change completely", "anchors": ["src/gasur/utilities/distributions.py: calculate_ospa2"]}
{"id": "C168", "title": "the CPHD filter forgets objects that are no longer measured", "statement": "If a CPHD filter gets k empty scans without predictions in between, whatever clean-ups are made, then the probability of n objects is proportional to its first value times (1 - p_S)^(k n) (the code uses the death probability here); the probability of more than n objects is at most (1 - p_S)^k divided by the first probability of n objects and falls below every bound; and from some number of scans on cardinality is the smallest number that was possible and, if that is zero, extract_states reports no objects.", "quantifier": "all numbers of scans, all states with a cardinality distribution, all interleavings with clean-ups and extractions, all n and bounds", "why_tests_cant": "a statement about all run lengths and a limit", "anchors": ["src/gasur/swarm_estimator/tracker.py: CardinalizedPHD.correct, CardinalizedPHD.cleanup, CardinalizedPHD.extract_states, CardinalizedPHD.cardinality"]}
{"id": "C169", "title": "a wrong sensor model has bounded effects on the GLMB filter", "statement": "Take two GLMB filters in the same state and with the same measurements but different detection probabilities, likelihoods and clutter intensities, such that for each track and measurement the factors (missed detection; detection over clutter) of the two differ at most by a factor rho. If both ask for enough hypotheses, their hypotheses after the correction correspond one to one (same previous hypothesis, same association of tracks and measurements) and the weights of corresponding hypotheses differ at most by the factor rho^(2N), N the largest number of tracks; so do the probabilities of every statement about the number of objects.", "quantifier": "all states, measurements, pairs of sensor models, rho >= 1 and sufficiently large requested numbers", "why_tests_cant": "a statement about all pairs of models and an existential threshold", "anchors": ["src/gasur/swarm_estimator/tracker.py: GeneralizedLabeledMultiBernoulli.correct"]}
{"id": "C170", "title": "a wrong sensor model or a wrong prior has bounded effects on the PHD filter", "statement": "Take two PHD filters with the same components whose weights differ at most by a factor a, and inner filters that move estimates in the same way, such that the odds of a detection against clutter and the probabilities of a missed detection differ at most by a factor rho. After correct with the same measurements they have again the same components in the same order, weights differ at most by the factor (rho a)^2 and the expected numbers of objects (sums of the weights) differ at most by the factor rho a, whatever the number of measurements and components. With survival probabilities that differ at most by rho, after every sequence of predictions and corrections with the same births, motion and measurements the components are still the same and the weights differ at most by a factor that depends only on rho, a and the sequence of calls.", "quantifier": "all mixtures with non-negative weights, measurements, pairs of sensor models with positive clutter, rho >= 1 and a >= 1", "why_tests_cant": "a statement about all pairs of models and priors", "anchors": ["src/gasur/swarm_estimator/tracker.py: ProbabilityHypothesisDensity.correct, ProbabilityHypothesisDensity._correct_prob_density"]}
{"id": "C171", "title": "what a clean-up of a PHD filter does to the expected number of objects", "statement": "cleanup of a PHD filter, with any choice of pruning, merging, capping (to any number of components) and extraction, lowers the sum of the weights by exactly the sum of the weights below prune_threshold if it prunes, which is at most prune_threshold for each pruned component, and by nothing otherwise.", "quantifier": "all mixtures with aligned lists and non-negative weights, all flags and parameters, all calls that return", "why_tests_cant": "a statement about all mixtures, flags and parameters", "anchors": ["src/gasur/swarm_estimator/tracker.py: ProbabilityHypothesisDensity.cleanup, ProbabilityHypothesisDensity._prune, ProbabilityHypothesisDensity._merge, ProbabilityHypothesisDensity._cap"]}
{"id": "C172", "title": "measurements that no component of a PHD filter explains do not matter", "statement": "If some of the measurements given to correct of a PHD filter have likelihood zero for every component, then correct returns with and without them, the expected number of objects is the same, and after pruning with a positive threshold the mixtures are the same, component by component and in the same order.", "quantifier": "all mixtures with non-negative weights, inner filters with non-negative likelihoods, lists of measurements with any number of unexplained ones at any positions, positive clutter and pruning threshold", "why_tests_cant": "a statement about all lists of measurements", "anchors": ["src/gasur/swarm_estimator/tracker.py: ProbabilityHypothesisDensity.correct, ProbabilityHypothesisDensity._prune"]}
{"id": "C173", "title": "the costs of the m best assignments are stable and monotone", "statement": "If each entry of the cost matrix changes by at most delta and the same entries are infinite, then murty_m_best returns as many rows as before and the cost of the i-th row changes by at most r delta, r the number of rows of the matrix. If entries go up, possibly to infinity, then at most as many rows are returned and the cost of no i-th row goes down.", "quantifier": "all cost matrices with at least one row, all delta >= 0, all m and i", "why_tests_cant": "a statement about all pairs of cost matrices", "anchors": ["src/gasur/utilities/graphs.py: murty_m_best"]}
{"id": "C174", "title": "shortest distances obey the triangle inequality and are stable", "statement": "On graphs with at least two vertices and no negative cycle, whatever the signs of the weights, the distances that bfm_shortest_path returns satisfy d(u, x) <= d(u, v) + d(v, x) and d(u, u) = 0. If two such graphs with n vertices have the same arcs with weights that differ at most by delta, the same vertices are reachable and the distances differ at most by (n - 1) delta. If arcs are removed from such a graph and weights go up, no distance goes down.", "quantifier": "all graphs without negative cycles and tiny weights, all vertices, delta >= 0", "why_tests_cant": "a statement about all graphs and pairs of graphs", "anchors": ["src/gasur/utilities/graphs.py: bfm_shortest_path"]}
{"id": "C175", "title": "the cost of the best assignment is stable and monotone", "statement": "If each entry of a cost matrix without negative entries changes by at most delta and the same entries are infinite, then assign_opt assigns as many rows as before and its cost changes by at most delta for each assigned row. If entries go up, possibly to infinity, then at most as many rows are assigned, and if as many are, the cost does not go down.", "quantifier": "all pairs of cost matrices without negative entries, with the same infinite entries or one above the other, all delta", "why_tests_cant": "a statement about all pairs of cost matrices", "anchors": ["src/gasur/utilities/graphs_subroutines.py: assign_opt"]}
{"id": "C176", "title": "Gibbs sampling is stable", "statement": "If two cost matrices with N rows differ by at most delta in each entry, then the probabilities that the sampler behind gibbs is at a given assignment after n iterations, from any two initial assignments, differ at most by the factor exp(2 N delta), up to an error that vanishes geometrically in n.", "quantifier": "all pairs of finite cost matrices with at least twice as many columns as rows, all initial assignments, numbers of iterations and assignments; independent uniform random numbers", "why_tests_cant": "a statement about probabilities and a limit", "anchors": ["src/gasur/utilities/sampling.py: gibbs"]}
