# Formal model of drjdlarson/gasur in Lean 4 — design

## 1. Layout

* `lean/Verif/Model/*.lean` — executable models of the code, one file per source area. Every
  definition cites the `/repo` file and lines it models, and says where it simplifies.
* `lean/Verif/Spec/*.lean` — small specifications written without using the model's helpers.
* `lean/Verif/Proofs/*.lean` — lemmas and invariants.
* `lean/Verif/Props/*.lean` — the property theorems (names `Cnn_…`), each next to an `example`
  showing that a concrete, non-trivial input meets its hypotheses.
* `MANIFEST.json` maps property ids to theorem names; `seeded/LOG.jsonl` logs the wrong-program tests.

## 2. Modelling conventions

* **Numbers.** Python floats are modelled by exact arithmetic: an arbitrary linearly ordered
  commutative ring (graph and assignment algorithms), an arbitrary linearly ordered field (PHD,
  GLMB weights, OSPA), or `ℝ` where `exp/log/sqrt` is used. Rounding, overflow and
  NaN-from-overflow are not modelled. `+inf` is `⊤ : WithTop K`; NaN used as a "missing" marker is
  `none : Option`.
* **Arrays.** Matrices are functions `Fin r → Fin c → α`; Python lists are `List`. Python `for`
  loops are folds over `List.finRange`; a loop with `break` is `find?`/recursion; `while` loops and
  tail-recursive helpers take fuel and a theorem shows that the fuel suffices.
* **Exceptions** are values (`Except Err α`); the theorems say when they are raised.
* **Mutation** is state passing. Where aliasing is observable (C25, C26, C45, C151, C155, C156, C157, C158) an explicit heap of
  references is modelled (`Model/SaveLoad`, `Model/Snapshot`, `Model/OspaSession`, `Model/PhdHeap`, `Model/GlmbHeap`, `Model/JglmbHeap`, `Model/CphdHeap`, `Model/Elqr`'s start states).
* **External calls** (gncpy filters, `log_sum_exp`, `get_elem_sym_fnc`,
  `scipy.optimize.linear_sum_assignment`, `scipy.linalg.eig`, the random generator, the order of ties in
  `argsort`, the chi2 quantile, `scipy.stats` densities, the passes of gncpy's `BaseELQR`) are parameters of the
  model; whatever is assumed of them is an explicit hypothesis of the theorem.

## 3. Trusted base

* Lean 4.33.0's kernel. Every theorem depends at most on the axioms `propext`, `Classical.choice` and
  `Quot.sound` (`#print axioms`); there are no axioms of our own, no `native_decide`, no `bv_decide`,
  and no unfinished proof.
* Mathlib's definitions where a statement mentions them (`Matrix.PosSemidef`, `Matrix.det`,
  `Measure.withDensity`, `multivariateGaussian`, `gammaMeasure`, `Finset.sum`, …).
* The reading of the Python source by which the definitions in `Verif/Model` were written. The code
  is not run here; the citation on each definition is the tie.
* Exact arithmetic instead of IEEE floats (section 2), and Python's unbounded recursion (bfm, murty).
* The hypotheses on external routines that appear in the theorem statements:
  * `linear_sum_assignment` returns an optimal assignment (`Spec/Ospa`), existence shown;
  * `scipy.linalg.eig` returns eigenpairs forming an orthogonal basis (`EigOk`), existence shown by the
    spectral theorem;
  * `argsort` returns a sorting permutation, any order of ties;
  * the inner filter (gncpy) is arbitrary: its predict/correct are arbitrary functions, its likelihoods
    are non-negative where stated;
  * the random numbers are an arbitrary sequence in `[0, 1)`;
  * `get_elem_sym_fnc` is the elementary symmetric polynomial, `log_sum_exp` is `log Σ exp`.

### What is modelled

| source (under `src/gasur/`) | model | remarks |
|---|---|---|
| `utilities/graphs.py` `k_shortest` 11-81, `__k_short_helper` 84-165 | `Model/KShortest` | complete |
| `utilities/graphs.py` `bfm_shortest_path` 168-306 | `Model/Bfm` | complete; ring-valued costs |
| `utilities/graphs.py` `murty_m_best` 309-429 | `Model/Murty` | complete |
| `utilities/graphs.py` `a_star_search` 432-581, `graphs_subroutines.py` 258-311 | `Model/AStar` | complete |
| `utilities/graphs_subroutines.py` `assign_opt` 9-255 | `Model/Assign` | complete |
| `utilities/sampling.py` `gibbs` 5-83 | `Model/Gibbs` | complete; finite costs |
| `utilities/distributions.py` mixtures 16-164 | `Model/Mixture` | complete but for a list-valued `dof` |
| `utilities/distributions.py` OSPA 167-555 | `Model/Ospa` | complete; Hellinger on valid covariances |
| `guidance.py` `DensityBased` 16-271 | `Model/Density` | complete |
| `guidance.py` `GaussianObject`, `ELQRGaussian` 274-763 | `Model/Elqr`, `Model/Quadratize` | the inherited passes and state plots excepted |
| `swarm_estimator/tracker.py` base class 25-544 | `Model/Gating`, `Model/SaveLoad`, `Model/Ospa`, `Model/OspaSession` (attributes and shared dictionaries), `Model/Plot` | complete |
| `tracker.py` PHD 547-1293 | `Model/Phd`, `Model/GatedRun` (with gating), `Model/Crash` (exceptions), `Model/PhdHeap` (references), `Model/SaveLoad`, `Model/Plot` | see the note on plots |
| `tracker.py` CPHD 1296-1773 | `Model/Cphd`, `Model/GatedRun` (with gating), `Model/CphdCrash` (exceptions), `Model/CphdHeap` (references), `Model/CphdDebug`, `Model/Plot` | see the note on plots |
| `tracker.py` GLMB 1776-3185 | `Model/Glmb`, `Model/GlmbCrash` (exceptions), `Model/GlmbHeap` (references), `Model/GlmbNoCov` (`save_covs = False`), `Model/Snapshot`, `Model/SaveLoad`, `Model/Plot` | see the note on plots |
| `tracker.py` joint GLMB 3445-3691 | `Model/Jglmb`, `Model/JglmbCrash` (exceptions), `Model/JglmbHeap` (references), `Model/JglmbNoCov` (`save_covs = False`) | complete |
| `tracker.py` `_init_filt_states` 2025-2040, STM 3188-3207, SMC 3247-3407 | `Model/Smc` | STM `_gate_meas` excepted |

Plots are modelled as the list of the drawing calls with their data and legend entries. Not modelled: colours, markers, titles,
axis labels and `gncpy.plotting` (the ellipse of a covariance is represented by its 2×2 block and the bound; setting titles is
assumed not to fail), ellipses in animations, plotted indices out of range. NaN at times without a state is a gap (`none`).

Not modelled: the configuration files and the packaging, gncpy itself (not in
the repository snapshot). The STM and SMC variants of the trackers replace a few methods of their base classes; these
are in `Model/Smc`, and since the models of the base classes take the inner filter's state as an opaque type, the
theorems on tables, hypotheses, weights, labels and extraction apply to the variants too. `_STMGLMBBase._gate_meas` is not
modelled: it reads an attribute `probDensity` that track table entries do not have.

## 4. Plan per property

| id | what is modelled | how it is proved |
|----|------------------|------------------|
| C01–C03 | `assign_opt` and its step 2a/2b/3/4/5 helpers as a phase machine over (dist, stars, primes, covers) | invariant (stars are independent zeros, cover/star/prime discipline, dual potentials with complementary slackness), alternating-path argument for step 4, LP-duality argument for optimality, explicit fuel bound |
| C04–C05 | `murty_m_best`, `__murty_helper` with slots/NaN bookkeeping | partition invariant: feasible set = popped ⊎ live subproblems; dummy-column exchange lemma |
| C06–C07 | `bfm_shortest_path`, `__bfm_helper` | Bellman–Ford invariants (distance = weight of some walk; parent tree acyclic); walk shortening |
| C08 | `k_shortest`, `__k_short_helper` | false: negation with witnesses; partial theorems: shape and first path; every row is that of a subset with at most one element missing (invariant of the path table); the first two paths are the two best subsets for every `k`; the full claim for `k ≤ 2` or one element |
| C09–C11, C68 | `a_star_search`, `astar_return_path` | path invariant on node chains; C10 for consistent heuristics, witness against unit cost; C11 false: witness; C68: counting of simple routes, witness by simulation lemma |
| C12, C52, C53 | `gibbs` with the draws as a parameter | invariant of the inner loop; measure of the interval of draws; constructed draws |
| C13, C54–C60 | joint GLMB predict/correct and decode of sampled rows | index arithmetic + C12, invariants over call sequences, Bayes' rule by factoring the row sums |
| C14–C24, C50, C51, C62, C63 | GLMB table/hypothesis bookkeeping, with the inner filter as a parameter | invariants over arbitrary operation sequences |
| C25–C26 | attribute dictionaries with references | round trip; simulation between heap and value semantics; negations with witnesses |
| C27–C33 | PHD mixture operations | list induction |
| C34–C35 | `_gate_meas`, constructors | list lemma; matrix algebra of the Cholesky factor; negation with witness |
| C36–C38, C64–C67 | CPHD predict/correct/extract over ℝ | algebra of elementary symmetric functions; negations with witnesses |
| C39–C43, C61 | OSPA/OSPA2 and set-up | finite sums and the optimality contract of linear_sum_assignment; Hellinger ≤ 1 by the determinant inequality |
| C44–C48, C69–C72 | density based guidance | decision logic, list induction, permutation and translation invariance of sums, spectral theorem |
| C73–C83 | ELQR guidance with the inherited passes as parameters | table lemmas, induction over steps and rounds, rearrangement by a permutation as a simulation |
| C49, C84 | mixtures; Student's t as gamma mixture of normals | integrals of the gamma density, Fubini; finite mixtures of measures |
| C85 | GLMB `correct`, ranked assignment | costs are minus logarithms of weights; ranked assignment returns the cheapest (C10); no update is dropped |
| C86–C90 | particle filters as inner filter of the (joint) GLMB filter | instances of C50, C54, C57, C59, C85; negations with witnesses |
| C92 | the SMC variant of `JointGeneralizedLabeledMultiBernoulli` | C58 with `Valid` = the particle weights form a distribution |
| C93 | `predict` of the GLMB filter with `k_shortest` | weights from the path costs (`exp(-cost)` turns sums into products); subsets from C08; false for three or more requested sets (`C93_refuted`), proved below (`C93_predict_bayes_partial`) |
| C94 | one iteration of `gibbs` as a random map, product of uniform measures | C52 gives the law of one row; the update of one row is reversible; independence of the rows |
| C95 | all iterations, infinite product measure | C94, two iterations reach everything with positive probability (generalises C53), Doeblin contraction |
| C96 | as C95 | the chain killed at the assignment loses a fixed fraction every two iterations |
| C97 | the joint `correct` with real weights, infinite product of uniform random numbers | if `gibbs` returned all associations the weights are exact (as C57, with sums over all associations); C96 and a union bound over hypotheses and associations; the number of iterations tends to infinity with `req_upd`; C58 for reachable states |
| C98 | `C98_update_exact` over the model of `correct` (Model/Glmb), specification Spec/Assoc (`AllAssocs`, `assocMass`) | C85 gives the k heaviest associations with k within 1/2 of `R √p / Σ √p`; there are at most `(m+1)^n` associations, so for large R none can be left out |
| C99 | `C99_truncation_error`, specification Spec/Assoc (`SomeAssocs`, `leftOut`) | C85 plus: renormalising a part of mass A of a whole of mass F moves `1 - A/F` and loses `1 - A/F`; an exchange argument shows the k heaviest have the largest sum |
| C100 | `C100_ospa_triangle_partial`, `C100_total_refuted`, `C100_hellinger_refuted`, `C100_mahalanobis_refuted` over Model/Ospa | pad the sets with missing points to equal size; permutations of the slots compose, Minkowski's inequality; two paddings (missing points at distance 0 or c) for the two cases of the size of B. False for the returned sum with p = 2 and for the Hellinger and Mahalanobis methods (witnesses) |
| C101 | `C101_ospa2_triangle_partial`, `C101_total_refuted` over Model/Ospa | the time-averaged track distance satisfies the triangle inequality (times at which only B exists cost 2c), then as C100 |
| C102 | `C102_history` over Model/Phd `run` | induction over the calls with the alignment invariant of C27; each entry is the report of C33 on the mixture after that call |
| C103 | `C103_other_horizon`, `C103_refused` over Model/Elqr `initPlans` | shape analysis of the two row assignments (equal or one row): both can only succeed with the old horizon |
| C104 | `C104_latest_partial`, `C104_refuted` over Model/Phd `run` and Model/Plot `latest` | from C102: the last entry of the history is that of the last extraction; refuted: only the last time step is returned |
| C105 | `C105_plot_states`, `C105_succeeds` (exact condition), `C105_after_run` over Model/Plot `plotStates` | induction over the time steps with the two legend flags; run invariant: equally many states and covariances |
| C106 | `C106_plot_labels`, `C106_after_run` over Model/Plot `plotLabels` | the columns of a label by induction, unique labels, C24 for the histories |
| C107 | `C107_card_history_partial`, `C107_agrees_with_tracks`, `C107_refuted` over Model/Plot `plotGlmbCard` | counting the labels of a time step among all labels; refuted: default abscissae read a missing attribute |
| C108 | `C108_ospa_plot_partial`, `C108_after_ospa`, `C108_refuted` over Model/Plot `plotOspa` | symbolic execution on figures with arbitrary content; refuted: the options of the components are not used |
| C109 | `C109_card_history`, `C109_card_dist` over Model/Plot `plotCardHistory`, `plotCardDist` | case analysis, the values as maps of the history |
| C110 | `C110_animation_partial`, `C110_refuted` over Model/Plot `play` | induction over the frames; refuted: states of an earlier time step stay visible |
| C111 | `C111_measurements_partial`, `C111_always`, `C111_refuted` over Model/Plot `recordAll` | induction over the calls; refuted: the joint filter records in any case |
| C112 | `C112_ospa_monotone`, `C112_ospa2_monotone` over Model/Ospa `calculateOspa`, `calculateOspa2` | power-mean inequality (Jensen) on the optimal matching of the larger problem; induction over the time steps |
| C91 | `_init_filt_states` | induction over the components; negation with witness for STM |
| C113 | `C113_cphd_history` over Model/Cphd `run` | invariant (aligned mixture, distribution), induction over the calls, uses C65 |
| C114 | `C114_order_partial`, `C114_cphd_order_partial`, `C114_refuted`, `C114_cphd_refuted` over Model/Phd `run`, Model/Cphd `run` | simulation up to permutation; greedy merging, capping and the CPHD report are unique if weights are distinct; refuted: three births of equal weight merge differently; CPHD: covariance of the last measurement |
| C115 | `C115_track_life`, `C115_determined`, `C115_counts`, `C115_joint_track_life` over Model/Glmb `run`, Model/Jglmb `run`; Spec/Track | inductive predicate `Lives` for a single track, independent of the filter's functions; invariant of the table, induction over the calls; births with equally many weights, states, covariances and filters |
| C116 | `C116_distinct`, `C116_joint_distinct` over the same | invariant: label and association history are injective on the table, track lists are pairwise no permutation of each other |
| C117 | `C117_reported_tracks` over the same | each extracted history shows a track (`Shows`); C24's description of the report |
| C118 | `C118_joint_run_exact` over Model/Jglmb `run` and Model/Gibbs with draws from an infinite product measure | `IdealRun` is defined with `ExactPosterior` (C98), not with the sampler; union bound over the time steps of C98's complement, uniqueness of the sorted result |
| C119 | `C119_bound`, `C119_steady` over Model/Phd `run` | mass inequality for every operation; fixed point of the affine recursion |
| C120 | `C120_coordinates`, `C120_joint_coordinates`, `C120_always` over Model/Glmb `run`, Model/Jglmb `run`; Spec/Coord | naturality of every function of the model, errors included |
| C121 | `C121_coordinates`, `C121_cphd_coordinates`, `C121_always` over Model/Phd `run`, Model/Cphd `run` | naturality; weighted means commute with affine maps; the factor cancels in the normalisation |
| C122 | `C122_ospa_moved`, `C122_ospa2_moved`, `C122_ospa_unit`, `C122_ospa2_unit` over Model/Ospa | invariance of the core distances; scaling of the minimal matching cost |
| C123 | `C123_phd_components`, `C123_phd_memory`, `C123_cphd_components`, `C123_cphd_memory`, `C123_glmb_hypotheses`, `C123_glmb_memory`, `C123_joint_hypotheses`, `C123_joint_memory` over Model/Phd, Model/Cphd, Model/Glmb, Model/Jglmb `run` | length of every list of the model; shares of the requested numbers sum up to the request, rounding adds at most 1/2 per hypothesis |
| C124 | `C124_tracks`, `C124_table`, `C124_reported`, `C124_joint_tracks` over Model/Glmb, Model/Jglmb `run` | induction over the calls with distinct track indices; reports by C24 and C117 |
| C125 | `C125_joint_history_partial`, `C125_joint_reported_tracks_partial`, `C125_refuted` over Model/Jglmb `run` | as C24 and C117, if states are extracted only after `correct`; false between `predict` and `correct`, where `extract_states` misses the shift of the table by the births |
| C126 | `C126_decay`, `C126_forgotten`, `C126_silence` over Model/Phd `run` | geometric decay from the mass bound of C119; weights below the threshold are all pruned; an empty mixture is a fixed point of every call without births |
| C127 | `C127_intensity`, `C127_cphd_intensity`, `C127_cleanup_differs` over Model/Phd, Model/Cphd `run` | test functions: every output component is a function of mean and covariance times the old weight, so integrals of test functions are carried over; pruning and extraction do depend on the representation (shown) |
| C128 | `C128_murty_prefix`, `C128_k_shortest_prefix` over Model/Murty `murty`, Model/KShortest `kShortest` | both loops only append; the search does not look at the requested number except to stop (number of closed slots = number of answers) |
| C129 | `C129_order`, `C129_transpose`, `C129_units`, `C129_murty_costs`, `C129_murty_order` over Model/Assign `assignOpt`, Model/Murty `murty` | assignments of one matrix are carried to assignments of the other with the same size and cost; optimality (C01, C04) then fixes the result |
| C130 | `C130_measurement_order` over Model/Glmb `correct` | the k best associations are fixed up to ties (C85), their weights are the first k of the sorted list of all weights, and renumbering the measurements permutes the associations; labels depend only on the parent |
| C131 | `C131_excluded`, `C131_cheapest` over Model/KShortest `kShortestInf` | simulation: no arc of finite cost enters a vertex of infinite cost, so sweeps, predecessors, deviations and tables of the full graph are the images of those of the reduced graph; superfluous sweeps change nothing |
| C132 | `C132_possible` over Model/Glmb `predict` with costs in `WithTop K` | C131 (a path has only elements of finite cost) traced through births, survivals, cross product and clean-up |
| C133 | `C133_costs`, `C133_paths` (and `C133_ties`: with equal costs the index lists can differ) over Model/KShortest | the sorted cost vector is unique, so both searches run on the same graph; only the decoding differs |
| C134 | `C134_birth_order` over Model/Glmb, Spec/BirthOrder | simulation between the two runs: a bijection of the track tables kept through every call (Proofs/GlmbRename) |
| C135 | `C135_save_covs`, `C135_joint_save_covs`, `C135_never_fails` over Model/GlmbNoCov, Model/JglmbNoCov and Model/Glmb, Model/Jglmb, Spec/NoCov, Spec/JNoCov | simulation between the two filters, call by call |
| C136 | `C136_detection_odds_partial`, `C136_ruled_out_pruned_partial` over Model/Glmb; `C136_refuted_by_eps`, `C136_refuted_blind` | False of the code: `eps` is added to every component weight, and costs that are not positive are replaced by `eps`. Partial: the association with that track missed is one of the k best too, so the probability is at most the odds the code computes |
| C137 | `C137_states_per_time` over Model/CphdDebug (Model/Cphd with `_n_states_per_time`) | induction over calls; the loop counter is the number of states |
| C138 | `C138_cleanup_twice`, `C138_run`, `C138_joint_run` over Model/Glmb, Model/Jglmb | kept probabilities only grow; the sum is one |
| C139 | `C139_cleanup_twice_partial`, `C139_refuted` over Model/Phd | False with merging: a merged component may lie near another one (witness over ℚ). Proved for pruning and capping |
| C140 | `C140_units_partial`, `C140_refuted` over Model/Glmb | False: the constant eps added to each likelihood has no unit (run over ℚ). Proved: another unit is the same as eps divided by the factor, and nothing else |
| C141 | `C141_settles`, `C141_cphd_settles` over Model/Phd, Model/Cphd `run` | The number of components never grows; a round that keeps it only sorts the components by weight, and argmax (first maximum) then takes them in this order |
| C142 | `C142_fallback_partial`, `C142_filter_fallback_partial`, `C142_no_fallback`, `C142_filter_no_fallback`, `C142_refuted` over Model/Ospa `calculateOspa`, `calculateOspa2`, `filterOspa`, `glmbOspa` | Case distinction on the method. False for the Hellinger distance without covariances of the estimates: only those of the truth are checked, and the calls raise |
| C143 | `C143_phd`, `C143_cphd`, `C143_glmb`, `C143_glmb_two`, `C143_joint` over the `run`s of Model/Phd, Model/Cphd, Model/Glmb, Model/Jglmb | Simulation: induction over the calls with the relation 'same density/tracks/hypotheses/cardinality', one lemma per call |
| C144 | `PhdCrash.C144_predict`, `C144_correct_partial`, `C144_cleanup_partial`, `C144_history_partial`, `C144_any_history`, `C144_refuted_cleanup`, `C144_refuted_correct`, `CrashHonest.C144_no_hidden_fault` over Model/Crash (the methods of Model/Phd again, assignment by assignment, with an inner filter and a matrix inversion that may raise at every call) | Case analysis at every statement for one call; refinement to Model/Phd for calls that end normally; induction over the history. Refuted for `cleanup` (weights overwritten with -1 in place) and for the measurement table in `correct` |
| C145 | `GlmbCrash.C145_predict`, `C145_correct_partial`, `C145_extract_partial`, `C145_cleanup_partial`, `C145_agrees`, `C145_history`, `C145_refuted_correct`, `C145_refuted_extract`, `C145_refuted_cleanup`, `CrashHonest.C145_no_hidden_fault` over Model/GlmbCrash (the methods of Model/Glmb again, assignment by assignment, with an inner filter that may raise at every call) | Case analysis at every statement; refinement to Model/Glmb for calls that end normally; induction over the history with the invariant that the core of the state is that of a run of the remaining calls. Refuted: the measurement table in `correct`, the results in `extract_states`, the step counter in `cleanup` |
| C146 | `CphdCrash.C146_predict_partial`, `C146_correct_partial`, `C146_cleanup_partial`, `C146_history_partial`, `C146_any_history`, `C146_refuted_predict`, `C146_refuted_correct`, `CrashHonest.C146_no_hidden_fault` over Model/CphdCrash (the methods of Model/Cphd again, assignment by assignment, with an inner filter that may raise at every call) | Case analysis at every statement, lifting of the lemmas of C144; refinement to Model/Cphd for calls that end normally; induction over the history. Refuted: `predict` with an empty birth term, the measurement table in `correct`, the weights in `cleanup` |
| C147 | `JglmbCrash.C147_predict`, `C147_correct_partial`, `C147_cleanup_partial`, `C147_agrees`, `C147_history`, `C147_no_hidden_fault`, `C147_one_prediction`, `C147_stuck`, `C147_refuted` over Model/JglmbCrash (the methods of Model/Jglmb again, assignment by assignment, with an inner filter that may raise at every call) | As C145; the decoded track indices are always in range, so nothing raises after the first assignment but the measurement table; invariant: table length = old length + births × pending predictions. Refuted: after a failed correction and the next prediction every later correction raises |
| C148 | `C148_phd`, `C148_glmb`, `C148_joint` over `run` of Model/Phd, Model/Glmb, Model/Jglmb | the factor exp(-rate) is common to all hypotheses and normalisation removes it; everything else uses the product; induction over the calls |
| C149 | `C149_clutter_monotone`, `C149_detected_weight` over Model/Phd `correct` | explicit formula of the updated components, `q / (κ + D)` is decreasing in `κ` and `κ q / (κ + D)` increasing |
| C150 | `C150_last_values`, `C150_last_params`, `C150_nothing_yet`, `C150_recorded_params`, `C150_values`, `C150_values2`, `C150_is_filter_ospa` over `run` of Model/OspaSession (several filters, saved states, a store for the parameter dictionaries) | invariant: without restoring no two dictionaries are shared; induction over the history |
| C151 | `C151_restored_titles_partial`, `C151_shared`, `C151_refuted` over Model/OspaSession | false: line 1929 stores `_ospa_params` under the key `_ospa2_params`, so plotting OSPA(2) after restoring raises KeyError and the OSPA and OSPA(2) parameters of both filters become one dictionary; proved in general and for a concrete history; the OSPA part and all values are restored |
| C152 | `C152_used`, `C152_refines`, `C152_closed_gate`, `C152_wide_gate` for any filter (Model/GatedRun `run`), `C152_phd`, `C152_phd_correct`, `C152_phd_blind`, `C152_phd_wide`, `C152_cphd`, `C152_cphd_correct`, `C152_cphd_blind` for the two filters | refinement by induction over the calls; the wide gate needs the invariant of C27 for filters without components |
| C153 | `C153_ospa_local`, `C153_ospa2_local`, `C153_ospa_prefix`, `C153_ospa2_prefix` for the functions; `C153_phd_prefix_partial`, `C153_glmb_prefix_partial`, `C153_glmb2_prefix_partial` for the filters when the truth is listed without gaps; `C153_refuted`: with `None` before an object the evaluation of a beginning can raise IndexError | congruence of each step under equal slots, induction over the steps |
| C154 | `C154_more_iterations`, `C154_sorted`, `C154_shift` | the chain of fewer iterations is a prefix; scaled weights give the same histogram; induction over rows and iterations |
| C155 | `PhdHeap.C155_values_partial`, `PhdHeap.C155_caller`, `PhdHeap.C155_record`, `PhdHeap.C155_refuted` | every method is modelled again with an explicit heap (`Model/PhdHeap.lean`); simulation with the model of `Model/Crash.lean` under an ownership invariant, then induction over histories with arbitrary outside changes. Missing: arrays and lists that the filter hands out (`states`) are its own, so writing to them changes the filter (`C155_refuted`) |
| C156 | `GlmbHeap.C156_values_partial`, `GlmbHeap.C156_measurements`, `GlmbHeap.C156_separate`, `GlmbHeap.C156_unchanged`, `GlmbHeap.C156_refuted` | the filter with references to arrays (`Model/GlmbHeap.lean`); simulation with `Model/Glmb.lean` call by call, separation invariant between the arrays of the program (`Spec/GlmbHeap.lean`) and those of the filter, induction over programs. Missing: arrays that the filter hands out (`states`) are its own, so writing to them changes the filter (`C156_refuted`) |
| C157 | `JglmbHeap.C157_values_partial`, `JglmbHeap.C157_measurements`, `JglmbHeap.C157_separate`, `JglmbHeap.C157_unchanged`, `JglmbHeap.C157_missed`, `JglmbHeap.C157_refuted` | the joint filter with references to arrays (`Model/JglmbHeap.lean`), as C156; `deepcopy` of a track makes new arrays. Missing: arrays that the filter hands out (`C157_refuted`) |
| C158 | `CphdHeap.C158_values_partial`, `CphdHeap.C158_measurements`, `CphdHeap.C158_separate`, `CphdHeap.C158_unchanged`, `CphdHeap.C158_correct_arrays`, `CphdHeap.C158_shared`, `CphdHeap.C158_refuted` | the CPHD filter with references to arrays (`Model/CphdHeap.lean`), refinement onto `Model/Cphd.lean`; views of `cov_temp` are one reference. Missing: arrays that the filter hands out (`C158_refuted`: an array in `states` can be the filter's birth term) |
| C159 | `C159_more_clutter` over the model of `correct` (Model/Glmb), specification Spec/Detected (`probDetected`) | both updates are exact by C98 for large `req_upd`; the weight of an association with n detections is `a κ^-n` up to a common factor; comparison of two such distributions pair by pair (Chebyshev sum) |
| C160 | `C160_poisson` over Model/Cphd and Model/Phd | closed form of the `ups` sums (C64); for weights `W^n/n!` they are sums of partial exponential series; limit termwise; the symmetric functions add up to `∏(λ + ξ_z)` (Vieta). Only the correction: the prediction is not a thinning (C38) |
| C161 | `C161_glmb` over Model/Glmb `correct`, `C161_cphd` over Model/Cphd | C85 with no measurements: one child per hypothesis, weight `prob (1-pD)^n`; for the CPHD filter factor `(1-pS)^n` (the code's `prob_death`, C37); Chebyshev sum inequality of C159 |
| C162 | `C162_more_updates` over Model/Glmb `correct` | C85 for both values; rounding is monotone, so the lists for the larger value are not shorter; the optimality of C99 with the smaller lists as alternative |
| C163 | `C163_better_sensor` over Model/Glmb `correct` | C98 for both; the weight of an association with d detections is `(1-q)^n (q/(1-q)/κ)^d` times its likelihoods; Chebyshev sum inequality of C159 |
| C164 | `C164_cleanup_error`, `C164_joint` over Model/Glmb `cleanup` and Model/Jglmb | hypotheses split into kept, capped, pruned (C20, C21, weights pulled back through the normalisation); rescaling moves an event by at most the dropped mass, attained by the event of being dropped |
| C165 | `C165_forget`, `C165_limit` over Model/Glmb `run` | induction over the calls with the exact weights of C161 (`prob (1-q)^(k n)`, normalised); comparison of the exponents; powers of `1-q` tend to 0 |
| C166 | `C166_ospa_stable`, `C166_attained` over Model/Ospa | entries of the two cost matrices differ by at most `δ + ε` (triangle inequality of the core distance); Minkowski's inequality on the matching that is optimal for the other matrix |
| C167 | `C167_ospa2_stable` over Model/Ospa | the time averages of two tracks differ by at most `δ + ε` (the same times count); then as C166 on the matching of the tracks |
| C168 | `C168_forget`, `C168_limit`, `C168_reported` over Model/Cphd `run` | induction over the calls: an empty scan multiplies the cardinality distribution by `(1-pS)^n` and normalises, clean-ups leave it; comparison of exponents; a value above one half is the mode |
| C169 | `C169_robust`, `number_ratio` over Model/Glmb `correct` | C98 for both filters: products of factors over the same families of associations; each product and the normaliser change by at most rho^N; sums termwise |
| C170 | `C170_robust`, `C170_history` over Model/Phd `correct` | the exact result of C29 for both filters; x/(k+S) changes by at most the square of the factor of x/k and S/k, and S/(k+S) by at most the factor |
| C171 | `C171_cleanup_mass` over Model/Phd `cleanup` | prune splits the sum of weights; merged groups partition the components; the cap's factor restores the sum (also for max_gauss = 0, where the code removes nothing) |
| C172 | `C172_unexplained` over Model/Phd `correct`, `prune` | the exact result of C29: an unexplained measurement adds components with weight zero, which pruning removes |
| C173 | `C173_stable`, `C173_monotone` over Model/Murty `murty` | the characterisation of C04: among the first i+1 rows of the one answer all cost at most a bound, at most i assignments cost less than the i-th of the other; counting |
| C174 | `C174_triangle`, `C174_stable`, `C174_monotone` over Model/Bfm `bfm` | the characterisation of C06 as lightest walks; walks join; a walk has as many arcs in the other graph, and the returned path is simple (C07) |
| C175 | `C175_stable`, `C175_monotone` over Model/Assign `assignOpt` | the optimality of C01 for both matrices; the best assignment of the one is a candidate for the other |
| C176 | `C176_stable` over Model/Gibbs `iter` | geometric convergence to the target distribution (C95) for both matrices; weights of assignments and their sum change by at most exp(N delta) |

No property of the list was left out as inexpressible.

## 5. Findings

Properties that the code violates are refuted by a theorem with a concrete witness (`…_refuted`); the part
that holds is a `…_partial` theorem. The causes:

**Graphs.**
`k_shortest` (C08): graphs.py:148 joins a deviation with the wrong prefix (`sub_P[0:-2]`), so some subsets never appear; a hypothesis with
two births of probability below ½ cannot be proposed by GLMB.predict. Arcs of cost exactly 0 count as "no arc", so birth or
survival probability exactly ½ removes an object from the graph. Consequence for the filter (C93): with three or more requested sets
the predicted hypotheses are not the most probable ones; two births of probability 0.98 and three requested
sets keep the empty set and drop a single birth.
`a_star_search`: not shortest with the default cost, by at most a factor √2 (C10); the second result is a heuristic
value, not a cost (C11); the start cell is not checked and a negative index wraps (C09); duplicates in the
open list are exponential in the maze, so it gives up although there is a route (C68).
`gibbs`: numerically (not in exact arithmetic) the last bin may be missed by rounding.

**PHD/CPHD.** The gate passed to the constructor is overwritten (C35). Gating uses the transposed inverse factor
(C34). `max_gauss = 0` keeps everything (C32). Merging omits the spread of the means (C31 states what is kept).
CPHD.correct uses the death probability for the missed detection probability (C37, C64); CPHD.predict multiplies by `(i-j)!`
where it should divide, omits the largest survivor number and counts only the first Gaussian of each birth term
(C38); the covariances of the last measurement are used for all (C67); the recorded standard deviation
is that of the probabilities (C66); `prob_survive = 1` (the default) gives NaN (C36_default_nan); an empty mixture raises `IndexError`.
PHD/CPHD `save_filter_state` and `load_filter_state` always raise (C25_refuted_phd). A clean-up that raises while merging
leaves weights of -1, and a repeated correction records the scan twice (C144). In the CPHD filter a `predict` with a birth
term without components raises only after the mixture was predicted and extended, so repeating it adds the births twice, and
`correct` without components raises but records the scan (C146). In the joint GLMB filter a `correct` that raises, followed by the `predict` of the next
time step, leaves the lengths of `_track_tab` and `_old_track_tab` different for good: every later `correct` raises
(C147).

**GLMB.** Labels collide if two predict times round to the same value (C15). Weights and cardinality are not
renormalised after depletion, and the cardinality is stale after predict (C16, C19, C22, C23). Extraction drops
histories which share a measurement *index* at any time (C62). `extract_most_prob_states` only
sees one cardinality, mixes label sets and does not return for a threshold ≤ 0 (C63). Default
`prob_detection = 1` and `prob_survive = 1` lead to `log 0`. Shares rounded to 0 can drop all hypotheses. The
joint filter's hypotheses point into the old table after predict with births (C60).
So an extraction between `predict` and `correct` reports wrong tracks: one label twice, another object lost (C125). Saved states share objects with the filter
(C26) and some attributes are not saved (C25). `extract_states` before `cleanup` raises and loses the states reported so far;
a `cleanup` that raises still counts a time step (C145).

**Particle and Student's t variants.** A missed track's particles are not reweighted by `1 - p_D` (C87). The detection
probability is counted twice, in the particle weights and as mean (C88). The survival probability is taken at
the moved particles (C89). The joint variant ignores both functions and uses the constants `prob_survive` and
`prob_detection` (C90). The STM filters record the covariance of the filter object used last for all components of a new
track (C91).

**OSPA.** Total above `c` for `p ≥ 2` (C39). Objects not in the first slots are compared wrongly, so that a perfect
GLMB estimate can score `c` (C40, C41). OSPA(2) raises when both tracks start later (C42). The set-up raises on lists with
`None` holes (C43). The Mahalanobis option multiplies by the covariance instead of its inverse (C61).

**Guidance.** Documented factor 20, code 2 (C69). `y_ref ≤ 0` is accepted (C44). One waypoint gives covariance 0, on which
the cost always fails; waypoints with one coordinate raise (C70). Rows instead of columns of the eigenvector matrix
are used, also in the repository's test values (C72). `update_targets` extends the caller's list, empties the targets on failure
and does not return when given its own list (C45). `GaussianObject` ignores two documented keywords (C76). Warm
starts read a wrong attribute (C74) and a wrong table (C73); `states = x_starts` makes later rounds
start from moved states (C75). A horizon of 1 raises `IndexError`.

**Mixtures.** `sample` fails on intensities (weights not summing to one) (C84). A list-valued `dof` works only in `sample`.

## 6. Tests against wrong programs

`tools/mutate.py` applies one edit to the model in a scratch copy, rebuilds and records in `seeded/LOG.jsonl` which theorems
fail. Edits that survived led to tightened theorems (field `tightened`).
