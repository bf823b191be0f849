# property | status | theorems (space separated) | note
C01 | proved | Flory.C01_normalize | 
C02 | proved | Flory.C02_sort_reorders Flory.C02_sort_succeeds | 
C03 | proved | Flory.C03_sort_canonical Flory.C03_most_concentrated | 
C04 | proved | Flory.C04_clusters_conserve | For every labelling the clustering library may return.
C05 | proved | Flory.C05_clusters_inside | For every labelling the clustering library may return.
C06 | partial | Flory.C06_sorted_partial Flory.C06_not_sorted | The property is false: get_clusters does not sort (witness). Proved: single phases, and sorting after clustering.
C07 | proved | Flory.C07_shapes Flory.C07_again | 
C08 | proved | Flory.C08_info_kept Flory.C08_info_independent Flory.C08_single_phase_shared | get_clusters of fewer than two phases returns the object itself, so there is no copy in that case.
C09 | proved | Flory.C09_random_composition | Range and sum; the distribution is C79.
C10 | proved | Flory.C10_arguments_arrive Flory.C10_later_override Flory.C10_set_calls Flory.C10_constructor Flory.C10_constructor_single Flory.C10_compiled | For every object, dictionary, set_* call and constructor call.
C11 | proved | Flory.C11_block_expansion Flory.C11_block_errors | 
C12 | proved | Flory.C12_symmetric Flory.C12_content Flory.C12_independent_entries | 
C13 | partial | Flory.C13_random_chis_partial Flory.C13_histories_partial Flory.C13_integer_matrix_truncates | The property is false: after set_uniform_chis with an integer the draws are truncated (witness). Proved for every history: the draws are stored exactly, unless the last assigned matrix was an integer one, then rounded towards zero.
C14 | proved | Flory.C14_derivatives | 
C15 | proved | Flory.C15_compiled | 
C16 | proved | Flory.C16_incomp_coef | 
C17 | proved | Flory.C17_lumping | 
C18 | partial | Flory.C18_constructor_partial Flory.C18_constructor_raises Flory.C18_setter_raises | The property is false: the setter always raises AttributeError and so does the constructor for matrices that are not symmetric within tolerance. Proved: matrices symmetric within numpy's allclose tolerance.
C19 | proved | Flory.C19_entropy_jacobian | 
C20 | partial | Flory.C20_hessian_partial Flory.C20_hessian_iff Flory.C20_hessian_wrong | The property is false: ideal_gas.py:178 returns l/phi instead of 1/(l phi). Proved: exactly the rows with l^2 = 1 are right, hence unit sizes.
C21 | proved | Flory.C21_entropy_vanishing Flory.C21_zero_size Flory.C21_chemical_potentials | 
C22 | partial | Flory.C22_plain_ideal_gas Flory.C22_polydisperse_partial Flory.C22_polydisperse_is_ideal_gas_partial Flory.C22_empty_blocks Flory.C22_empty_block_wrong | Holds for plain gases and for polydisperse gases whose features all have at least one component. Missing: features with zero components, for which comp_to_feat always reads outside its array (C22_empty_blocks: exactly then).
C23 | proved | Flory.C23_one_component_per_feature | 
C24 | proved | Flory.C24_canonical_mean | 
C25 | proved | Flory.C25_prescribed_potentials | Runs without constraints.
C26 | proved | Flory.C26_incompressibility_canonical Flory.C26_incompressibility_grand Flory.C26_reported_incompressibility | 
C27 | proved | Flory.C27_local_forces | 
C28 | proved | Flory.C28_global_forces | 
C29 | proved | Flory.C29_residue_of_pass Flory.C29_residue_of_run | Per pass and for run().
C30 | proved | Flory.C30_masks | 
C31 | proved | Flory.C31_random_revival Flory.C31_random_revival_in_range | 
C32 | proved | Flory.C32_copy_revival_conserves Flory.C32_copy_revival_conserves_total Flory.C32_total_volume_needs_empty_dead | The docstring's stronger claim (total over all compartments) needs empty dead compartments; witness given.
C33 | proved | Flory.C33_copy_revival_outcomes Flory.C33_copy_revival_succeeds Flory.C33_copy_revival_default Flory.C33_copy_revival_all_dead | 
C34 | proved | Flory.C34_volume_conservation Flory.C34_passes_never_fail Flory.C34_run_never_fails Flory.C34_histories Flory.C34_project_instances | Volume conservation per pass; survival and absence of division by zero per pass, per run and in every history without rejected set_* calls (a rejected call leaves an instance of the wrong size, see C44). Entropies without empty features (see C22), constraints with at least one equation, positive max_steps and interval; the final copy revival additionally needs 2*kill_threshold*(num_part-1) < 1 (see C33).
C35 | partial | Flory.C35_volume_step_partial Flory.C35_hypothesis_reached Flory.C35_bound_exceeded | The documented bound is violated (witness: 4/3 of the bound). Proved: sharp bound 2(1-1/n) times Js_step_upper_bound when volumes average to one.
C36 | proved | Flory.C36_revivals_of_metastep Flory.C36_budget_of_run Flory.C36_budget_of_history Flory.C36_exhausted | Per call of the core routine, per run and for all histories, failing calls included; max_revive_per_compartment non-negative.
C37 | proved | Flory.C37_dead_stays_dead_pass Flory.C37_dead_stays_dead Flory.C37_dead_without_influence | 
C38 | partial | Flory.C38_field_error_partial Flory.C38_abs_missing | The property is false (the code takes the signed maximum; witness). Proved: what the reported number does bound.
C39 | proved | Flory.C39_chemical_balance Flory.C39_canonical Flory.C39_grand Flory.C39_converged | 
C40 | proved | Flory.C40_finder Flory.C40_physical Flory.C40_ensembles | 
C41 | proved | Flory.C41_step_accounting | 
C42 | partial | Flory.C42_mean_composition_partial Flory.C42_short_runs_partial Flory.C42_mean_composition_wrong Flory.C42_converged_wrong | The property is false: run() returns updated volumes with the fractions of the previous volumes (witness), and a run that converges with zero errors one pass after the death of a compartment may return a mean of 3/8 instead of 5/12 (witness). Proved: the deviation is bounded by 2 acceptance_Js max_abs_js_diff (1 + max_abs_incomp) if nothing died in the last two passes.
C43 | proved | Flory.C43_setup_kept Flory.C43_created Flory.C43_run_arguments | All histories of the modelled public methods, failing calls included.
C44 | partial | Flory.C44_rejected_set_breaks_finder Flory.C44_rejected_set_partial Flory.C44_interrupted | False: the new instance is stored before the check raises; proved that after a rejected set_interaction the finder can neither be reinitialized from fractions nor run, and that after a rejected set_constraints run raises too, or runs without any constraint. The partial theorem says that everything else is unchanged and that a later accepted call of the same kind repairs the finder.
C45 | partial | Flory.C45_constraints_dropped Flory.C45_all_enforced_partial Flory.C45_single Flory.C45_none | False when kwargs_individual is shorter than the list of constraints (zip drops the rest silently). Proved for individual arguments at least as long, or none.
C46 | partial | Flory.C46_owned_partial Flory.C46_shows Flory.C46_shared Flory.C46_grand_wrong | Proved for Flory-Huggins interactions, both ideal gases and canonical ensembles over all histories. False for block interactions, grand canonical ensembles and linear constraints, whose arrays are shared with the compiled instances (C46_shared); C46_grand_wrong shows a run returning different fractions.
C47 | proved | Flory.C47_component_relabelling Flory.C47_component_relabelling_grand Flory.C47_passes | 
C48 | proved | Flory.C48_compartment_relabelling | 
C49 | proved | Flory.C49_jacobian Flory.C49_conserved_jacobian Flory.C49_invalid_index | 
C50 | proved | Flory.C50_exchange Flory.C50_absent_solvent | The documented "always zero" fails (NaN) where component k is absent; the property is stated for positive compositions.
C51 | proved | Flory.C51_chemical_potentials Flory.C51_gibbs_duhem | 
C52 | proved | Flory.C52_conserved_hessian | 
C53 | proved | Flory.C53_is_stable | 
C54 | proved | Flory.C54_unstable_modes | 
C55 | partial | Flory.C55_stability_partial Flory.C55_stability_wrong Flory.C55_depends_on_unit | The property is false because of the Hessian of C20. Proved: unit sizes; unstable verdicts for sizes >= 1; stable verdicts for sizes <= 1.
C56 | proved | Flory.C56_zero_iff_balanced Flory.C56_quantitative Flory.C56_single_and_permutation | Default norm (order=None).
C57 | proved | Flory.C57_validation | 
C58 | proved | Flory.C58_free_energy_sizes Flory.C58_finder_sizes | Free energies and finders; objects that compile.
C59 | proved | Flory.C59_shortcut Flory.C59_returns Flory.C59_returns_constrained | For arbitrary scipy labels and argsort results satisfying their specifications.
C60 | proved | Flory.C60_extended_energy Flory.C60_incompressible | 
C61 | proved | Flory.C61_homogeneous_stationary | 
C62 | proved | Flory.C62_reinit_erases_history Flory.C62_pairs_of_histories | For runs with positive max_steps and interval (otherwise no iteration takes place and the old fractions are returned).
C63 | proved | Flory.C63_equilibrium_stationary Flory.C63_zero_errors_equilibrium | 
C64 | proved | Flory.C64_gradient Flory.C64_stationary_iff | 
C65 | proved | Flory.C65_documented_scheme | Ideal gas, trivial constraints, all compartments living (or no revival budget). The documentation uses the old field where the code uses the new one in the local energy; the theorem states the code's version in documented quantities.
C66 | proved | Flory.C66_no_false_phases Flory.C66_equilibrium_homogeneous Flory.C66_convex_iff Flory.C66_convex Flory.C66_convex_homogeneous | 
C67 | proved | Flory.C67_multipliers Flory.C67_stationary_iff | 
C68 | proved | Flory.C68_uniform_run Flory.C68_uniform_converges Flory.C68_single_compartment | Ideal gas in the canonical ensemble, constraints absent or fulfilled by the mean composition with zero multipliers. In particular a run from uniform fields does not find coexisting phases even if they exist.
C69 | proved | Flory.C69_workflow | Flory-Huggins interaction, ideal gas, canonical or grand canonical ensemble with positive entries, global constraints or none. Compiled code that raises is assumed not to change the parameters of constraints nor the arrays of NoConstraint (no method except initialize writes them).
C70 | proved | Flory.C70_sizes Flory.C70_poly_sizes Flory.C70_phi_means Flory.C70_scaled_activity Flory.C70_linear Flory.C70_linear_new Flory.C70_flory_huggins Flory.C70_constructors | Contents of arrays; which arrays are shared is C46. What set_random_chis stores is C13.
C71 | proved | Flory.C71_generator | Any instances and constraints.
C72 | proved | Flory.C72_gauge Flory.C72_pass | Exact arithmetic. Runs in which compartments die are excluded: there the sum of the volumes differs from their number and the volume step depends on the constant.
C73 | proved | Flory.C73_resume | max_steps a multiple of interval; the first run ends with all volumes above the threshold.
C74 | proved | Flory.C74_close_to_equilibrium | delta is not computed; exact arithmetic. That every component is present in some phase is read off the result.
C75 | proved | Flory.C75_phase_rule Flory.C75_binodal Flory.C75_lever_rule Flory.C75_phase_rule_runs Flory.C75_binodal_runs | delta is not computed; exact arithmetic. Equality of chemical potentials, not stability of the phases.
C76 | proved | Flory.C76_critical Flory.C76_phase_diagram Flory.C76_phases_optimal Flory.C76_homogeneous_optimal Flory.C76_no_separation_runs | delta is not computed; exact arithmetic. That an equilibrium is a stationary point of runs is C63; that runs reach it is not claimed.
C77 | proved | Flory.C77_ground_state Flory.C77_optimal_coexists Flory.C77_tangent_plane Flory.C77_not_always_best | Exact arithmetic. That an equilibrium is a stationary point of runs is C63; that runs reach the best one is not claimed.
C78 | proved | Flory.C78_random Flory.C78_omegas Flory.C78_phis Flory.C78_created Flory.C78_defaults Flory.C78_default_run | The generator is arbitrary; that numpy's normal(0, std) is std times a standard normal draw is part of the trusted base.
C79 | proved | Flory.C79_uniform | That numpy's draws are independent and beta distributed is an assumption of the theorem.
C80 | proved | Flory.C80_reservoir_stationary Flory.C80_zero_errors_reservoir Flory.C80_canonical_to_grand Flory.C80_grand_to_canonical | 
C81 | proved | Flory.C81_recovers Flory.C81_merges Flory.C81_count Flory.C81_binary_shortcut Flory.C81_equilibrium_found Flory.C81_hidden_phases | Any tie breaking of scipy is covered; merge heights of centroid linkage may decrease, and fcluster's cut uses the largest height below a node, as in scipy. C81_hidden_phases: phases in equilibrium that are closer than 0.01 are returned as one phase that does not have the least free energy.
C82 | proved | Flory.C82_default Flory.C82_negative_axes Flory.C82_axis Flory.C82_axis_blind Flory.C82_total Flory.C82_total_blind Flory.C82_rejects Flory.C82_compare Flory.C82_overlooked Flory.C82_absent | C82_overlooked and C82_absent are concrete phases out of balance for which the reported error is zero (negative orders; every order if a component is absent from a phase).
C83 | proved | Flory.C83_curvature Flory.C83_exchange Flory.C83_binary_converges Flory.C83_binary_leaves Flory.C83_binary_compiled Flory.C83_converges Flory.C83_leaves | For more than two features the theorems need a large enough additional_chis_shift; acceptance_omega has to be small (existence of a bound, not its value).
C84 | proved | Flory.C84_normalize Flory.C84_mean_fractions Flory.C84_clusters Flory.C84_clusters_conserve Flory.C84_random_composition Flory.C84_relative Flory.C84_normalize_not_idempotent Flory.C84_random_negative | Overflow and underflow are not modelled; the labels from scipy are an argument.
C85 | proved | Flory.C85_converged Flory.C85_run Flory.C85_exact Flory.C85_pass Flory.C85_fields Flory.C85_residues Flory.C85_local Flory.C85_volumes Flory.C85_blind | Signs of zero and underflow are not modelled in the example arithmetic; `C85_exact` ties the model to the exact one of the other claims.
C86 | proved | Flory.C86_mean Flory.C86_incomp Flory.C86_volumes Flory.C86_converged Flory.C86_returns Flory.C86_exact | The entropies enter through `FloatGas`, proved for both (`idealF_gas`, `polyF_gas`); `C86_exact` ties their float models to the exact ones. The mean is taken with the volumes used in the pass, not those updated at its end.
C87 | proved | Flory.C87_pass Flory.C87_converged Flory.C87_double Flory.C87_positive Flory.C87_entropies | The rounding-error counterpart of C39. The reported field error is a maximum without absolute values; the bound uses that the field errors of a compartment sum to the incompressibility term up to rounding. Constraints are left out.
C88 | proved | Flory.C88_exchange_balance Flory.C88_converged Flory.C88_prescribed Flory.C88_ions_differ | The witness of the last theorem starts with the multipliers of its fixed point.
C89 | proved | Flory.C89_fields Flory.C89_chis Flory.C89_revive | The laws of the draws are a hypothesis about numpy's generator.
C90 | proved | Flory.C90_split Flory.C90_ideal | Exact arithmetic.
C91 | proved | Flory.C91_converges Flory.C91_binary_stable Flory.C91_binary Flory.C91_phase_diagram | Exact arithmetic. The bound on the ratio of the acceptances is sufficient, not necessary.
C92 | proved | Flory.C92_selects Flory.C92_winner Flory.C92_coexistence | Exact arithmetic, no revivals left (b ≤ 0), equal volumes at the start up to a small error.
C93 | proved | Flory.C93_stationary_canonical Flory.C93_stationary_grand Flory.C93_zero_errors_canonical Flory.C93_zero_errors_grand Flory.C93_canonical_to_grand Flory.C93_grand_to_canonical | Real-number arithmetic; no dead compartments; the agreement of the ensembles concerns exact fixed points, not how well a run with a finite tolerance approximates them
C94 | proved | Flory.C94_found Flory.C94_repeated Flory.C94_both Flory.C94_count | Exact arithmetic. The phases have to fit into compartments of equal volume; C115 extends the result to all mixtures near such a mixture.
C95 | proved | Flory.C95_mixes Flory.C95_search Flory.C95_one | Exact arithmetic. The bounds on the Flory parameters and the acceptances are existential: they depend on sizes, shift, numbers, B and v but are not computed. max_abs_omega_diff is a signed maximum (C38), so the bound by reported errors needs max_abs_incomp, too.
C96 | proved | Flory.C96_pass Flory.C96_run Flory.C96_systems Flory.C96_search Flory.C96_free_energy | The tolerance is compared with quantities of different dimension, so the number of steps before convergence may depend on the unit; the statement is about as many steps.
C97 | proved | Flory.C97_order Flory.C97_mixed Flory.C97_separated Flory.C97_transition Flory.C97_divisions Flory.C97_coexist Flory.C97_separated_coexist Flory.C97_stable_iff Flory.C97_stable Flory.C97_search Flory.C97_count Flory.C97_chance Flory.C97_all_coexist Flory.C97_more_phases Flory.C97_reservoir Flory.C97_fraction Flory.C97_tests Flory.C97_verdict | Exact arithmetic; searches with careful settings as in C94. Two components are C75 and C76.
C98 | proved | Flory.C98_scan Flory.C98_objects Flory.C98_binary Flory.C98_calls Flory.C98_warm_start | scans and warm starts
C99 | proved | Flory.C99_merges Flory.C99_leaves Flory.C99_total Flory.C99_shift Flory.C99_equal_modes Flory.C99_equal_merges Flory.C99_equal_leaves Flory.C99_defaults Flory.C99_binary_merges Flory.C99_binary_leaves Flory.C99_binary_unstable | limit of the step size
C100 | proved | Flory.C100_damped Flory.C100_growing Flory.C100_unstable Flory.C100_unstable_compiled Flory.C100_stable Flory.C100_default_shift | Exact arithmetic, no constraints, local statement about compartments near the mean composition. The failing mixture has non-zero diagonal chis.
C101 | proved | Flory.C101_first_step Flory.C101_respected Flory.C101_coexisting Flory.C101_kept Flory.C101_symmetric Flory.C101_not_respected | Exact arithmetic, canonical ensemble.
C102 | proved | Flory.C102_metastep Flory.C102_documented_scheme Flory.C102_volumes Flory.C102_never_fails Flory.C102_no_steps Flory.C102_compartments Flory.C102_copy Flory.C102_copy_result Flory.C102_constraints Flory.C102_interaction_and_ensembles Flory.C102_entropies | Exact arithmetic. Trusted: the translator, which refuses constructs it does not know, and the shapes of the arguments.
C103 | proved | Flory.C103_run Flory.C103_random Flory.C103_omegas Flory.C103_phis Flory.C103_reset Flory.C103_record Flory.C103_returns Flory.C103_chemical_balance Flory.C103_homogeneous | Exact arithmetic. Trusted: the translator as in C102, and that log messages, progress bars and the clock have no other effect. What a finder holds after an exception is that of the hand-written model only.
C104 | proved | Flory.C104_xlogx Flory.C104_interaction Flory.C104_entropy Flory.C104_implementations Flory.C104_check Flory.C104_free_energy_density Flory.C104_jacobian Flory.C104_hessian Flory.C104_chemical_potentials Flory.C104_exchange_pressure Flory.C104_stability Flory.C104_equilibration_error Flory.C104_formula | Exact arithmetic with infinities and NaN. Trusted: the translator, which refuses constructs it does not know, and the meaning of the numpy functions in `Model/TranscriptArrays.lean`. equilibration_error for one composition or a list of them, as in the model.
C105 | proved | Flory.C105_convert_and_broadcast Flory.C105_make_square_blocks Flory.C105_flory_huggins Flory.C105_symmetric Flory.C105_flory_huggins_from Flory.C105_block Flory.C105_entropy Flory.C105_ensemble Flory.C105_from_chemical_potential Flory.C105_constraint Flory.C105_phases | Exact arithmetic; numbers of components and features are not negative, and chi of set_uniform_chis is a float. Trusted: the translator, which refuses constructs it does not know, and the meaning of the numpy functions in `Model/TranscriptObjects.lean`. Aliasing of arrays is not represented. make_square_blocks for one-dimensional block sizes.
C106 | proved | Flory.C106_phases Flory.C106_sort Flory.C106_get_clusters Flory.C106_get_clusters_few Flory.C106_conserves Flory.C106_random_composition Flory.C106_result_new Flory.C106_result | Exact arithmetic. Trusted: the translator, which refuses constructs it does not know, and the meaning of the numpy functions in `Model/TranscriptPhases.lean`. Division by a total volume of zero (nan in numpy) is not represented. scipy is assumed to return one label for each phase.
C107 | proved | Flory.C107_compiled Flory.C107_setters Flory.C107_resets Flory.C107_init Flory.C107_defaults Flory.C107_history Flory.C107_settings_kept | Exact arithmetic. Trusted: the translator, which refuses constructs it does not know, and the meaning of its primitives in `Model/FinderObject.lean`. The bodies of `_compiled_impl` are those of the model (C109 compares them). Messages of the logger are left out. An iterable of constraints is a list.
C108 | proved | Flory.C108_interaction Flory.C108_block Flory.C108_entropies Flory.C108_canonical Flory.C108_grandCanonical Flory.C108_targets Flory.C108_matrix Flory.C108_few Flory.C108_row | Trusted: numpy's rules for strides of copies with order K, of broadcasts and of elementwise results. What numba does with an array that is not as declared is not modelled.
C109 | proved | Flory.C109_objects Flory.C109_compiled Flory.C109_override Flory.C109_getters Flory.C109_flory_huggins Flory.C109_defaults Flory.C109_coefficient | Exact arithmetic. Trusted: the translator, which refuses constructs it does not know, and the meaning of its primitives in `Model/Compile.lean`. Numbers of components are assumed to fit into 32 bits. Matrices made by `set_uniform_chis` from a Python integer are not covered.
C110 | proved | Flory.C110_run Flory.C110_history Flory.C110_shortcut Flory.C110_returns Flory.C110_equilibrium | Exact arithmetic. Trusted: the translator, which refuses constructs it does not know, and the conversions in `Model/ShortcutObject.lean`. `scipy` is assumed to return one label per phase (`ScipyWorks`). The attributes after a `run` that raises are not compared.
C111 | proved | Flory.C111_workflow | Exact arithmetic. Trusted: the translators and the conversions in `Model/ShortcutObject.lean` and `Model/WorkflowObject.lean`. Constraints are global.
C112 | proved | Flory.C112_library_metastep Flory.C112_library_run Flory.C112_library_reinitialize Flory.C112_starts Flory.C112_simulation Flory.C112_returns Flory.C112_volumes Flory.C112_result Flory.C112_balance | Exact arithmetic. Only `evolve` of a constraint may raise, and methods depend on nothing but the data of the constraint and the arguments.
C113 | proved | Flory.C113_result Flory.C113_balance Flory.C113_flory_huggins | Exact arithmetic. `incomp_coef` returns a number (the base class also allows an array). Methods of the interaction return new arrays.
C114 | proved | Flory.C114_found Flory.C114_repeated Flory.C114_both Flory.C114_count | Exact arithmetic. Trusted: the translators and the conversions in `Model/ShortcutObject.lean`. The generator is passed as argument `rng`. The phases have to fit into compartments of equal volume (C115 covers all mixtures nearby).
C115 | proved | Flory.C115_found Flory.C115_repeated | Exact arithmetic. Trusted: the translators and the conversions in `Model/ShortcutObject.lean`. The generator is passed as argument `rng`. Volumes of the given phases are multiples of 1/M; those of the mixtures nearby need not be.
C116 | proved | Flory.C116_search Flory.C116_one | Exact arithmetic. Trusted: the translators and the conversions in `Model/ShortcutObject.lean`. The generator is passed as argument `rng`. The bounds on Flory parameters, acceptances and tolerance are existential.
C117 | proved | Flory.C117_scan Flory.C117_random Flory.C117_clusters | Exact arithmetic. Trusted: the translators and the conversions in `Model/ShortcutObject.lean`. One compartment for each phase, as many as independent compositions allow; for more compartments see C98_warm_start. The bounds on shift, acceptance, step and tolerance are existential. The random variant needs phases of equal volume at the first point, and its generator is passed as argument `rng`. For `get_clusters`, scipy is assumed to behave as documented (`ScipyDocumented`).
C118 | proved | Flory.C118_workflow | Exact arithmetic. Trusted: the translators and the conversions in `Model/ShortcutObject.lean`, `Model/WorkflowObject.lean` and `Model/PolyObject.lean`. Arrays are given in full shape. A feature without components is excluded (see C22), and so is a feature matrix that is not symmetric (see C18).
C119 | proved | Flory.C119_workflow | Exact arithmetic. Trusted: the translators and the conversions in `Model/ShortcutObject.lean`, `Model/WorkflowObject.lean` and `Model/ConsObject.lean`. The residue of global constraints refers to the volumes before the last step and is treated by C29.
C120 | proved | Flory.C120_workflow | Exact arithmetic. Trusted: the translators and the conversions in `Model/ShortcutObject.lean`, `Model/WorkflowObject.lean`, `Model/PolyObject.lean` and `Model/ConsObject.lean`. The residue of global constraints refers to the volumes before the last step and is treated by C29.
