{"id": "C01", "title": "normalize keeps the physics", "statement": "Phases.normalize() returns phases whose volumes sum to one, with every composition unchanged, all volume ratios unchanged and mean_fractions unchanged; normalizing twice is the same as once.", "quantifier": "every collection of phases whose total volume is non-zero, any number of phases and components", "why_tests_cant": "Holds for a continuum of volumes and for every number of phases; tests only sample one 2x3 case.", "anchors": ["flory/common/phases.py:Phases.normalize", "flory/common/phases.py:Phases.mean_fractions", "flory/common/phases.py:Phases.total_volume"]}
{"id": "C02", "title": "sort only reorders", "statement": "Phases.sort() returns exactly the same (volume, composition) pairs, each as often as before, so total_volume and mean_fractions do not change.", "quantifier": "every collection of phases, including ties and repeated phases", "why_tests_cant": "Pairing can break only on particular permutations and ties; the number of orders is unbounded.", "anchors": ["flory/common/phases.py:Phases.sort"]}
{"id": "C03", "title": "sort order is canonical", "statement": "After Phases.sort() the index of the most concentrated component is non-decreasing along the phases, ties broken by the second most concentrated and so on; sorting again changes nothing, and the resulting order of composition rankings does not depend on the order in which the phases were given.", "quantifier": "every collection of phases and every reordering of it", "why_tests_cant": "Order-independence quantifies over all permutations of arbitrarily many phases.", "anchors": ["flory/common/phases.py:Phases.sort"]}
{"id": "C04", "title": "clustering conserves matter", "statement": "Phases.get_clusters() conserves the total volume and the total amount of every component, hence mean_fractions, and never returns more phases than it was given; this holds whatever grouping the clustering library returns. If a group has zero total volume it raises ZeroDivisionError.", "quantifier": "every collection of phases, every grouping scipy may return", "why_tests_cant": "Depends on data-dependent groupings produced by an external hierarchical clustering; conservation must hold for each of them.", "anchors": ["flory/common/phases.py:Phases.get_clusters"]}
{"id": "C05", "title": "clustered compositions stay inside their group", "statement": "For phases with positive volumes every fraction of a clustered phase lies between the smallest and the largest value in its group, so positive fractions stay positive, and if all rows sum to within eps of one so do the clustered rows.", "quantifier": "every collection of phases with positive volumes, every grouping", "why_tests_cant": "Quantifies over all groupings and real-valued compositions.", "anchors": ["flory/common/phases.py:Phases.get_clusters"]}
{"id": "C06", "title": "clustered phases are returned sorted", "statement": "As documented, the result of Phases.get_clusters() is sorted according to the index of the most concentrated component.", "quantifier": "every collection of phases and grouping", "why_tests_cant": "A test with two phases is sorted by luck; the claim is about every grouping order.", "anchors": ["flory/common/phases.py:Phases.get_clusters"]}
{"id": "C07", "title": "Phases accepts exactly consistent shapes", "statement": "Creating Phases or PhasesResult raises ValueError unless volumes is one-dimensional, fractions is two-dimensional and both have the same first dimension; every object produced by normalize, sort or get_clusters satisfies this again.", "quantifier": "all array shapes of any rank", "why_tests_cant": "Shapes range over all ranks and sizes.", "anchors": ["flory/common/phases.py:Phases.__init__", "flory/common/phases.py:PhasesResult.__init__"]}
{"id": "C08", "title": "result metadata survives transformations", "statement": "normalize, sort and get_clusters of a PhasesResult carry the same info entries, and any sequence of these transformations keeps them; changing the info of a result that was copied does not change the original.", "quantifier": "every sequence of the transformations and every later update of the metadata", "why_tests_cant": "Quantifies over all operation sequences and aliasing patterns.", "anchors": ["flory/common/phases.py:PhasesResult._copy", "flory/common/phases.py:PhasesResult.info"]}
{"id": "C09", "title": "random compositions lie on the simplex", "statement": "get_uniform_random_composition(n) returns n fractions that are all between 0 and 1 and sum to exactly one; n = 0 raises.", "quantifier": "every n and every sequence of draws of the generator", "why_tests_cant": "Quantifies over all random draws and all n.", "anchors": ["flory/common/phases.py:get_uniform_random_composition"]}
{"id": "C10", "title": "redundant keyword arguments are ignored, known ones kept", "statement": "Keyword arguments given to a finder reach each compiled instance exactly if its compile method accepts them: every accepted and supplied argument arrives with its value, nothing else arrives, and in set_* calls the later dictionaries override the constructor's defaults without changing them.", "quantifier": "all keyword dictionaries and all accepted-parameter lists", "why_tests_cant": "Dictionary contents are unbounded.", "anchors": ["flory/common/utilities.py:filter_kwargs", "flory/mcmp/finder.py:CoexistingPhasesFinder.set_interaction", "flory/mcmp/finder.py:CoexistingPhasesFinder.set_constraints"]}
{"id": "C11", "title": "block expansion of the interaction matrix", "statement": "The component matrix of a block interaction has one row per component and its entry for components i and j is the feature matrix entry of their features; a non-square matrix or a wrong number of blocks raises ValueError.", "quantifier": "all feature matrices and all numbers of components per feature, including zero", "why_tests_cant": "Block layouts are unbounded.", "anchors": ["flory/common/utilities.py:make_square_blocks", "flory/interaction/flory_huggins_block.py:FloryHugginsBlockInteraction"]}
{"id": "C12", "title": "chi matrix is always symmetric and keeps the energy", "statement": "After any sequence of creating a Flory-Huggins interaction and assigning chis, uniform chis or random chis, the exposed chi matrix is symmetric; a symmetric input is stored unchanged, and symmetrizing never changes the energy density of any composition; vanishing_diagonal gives a zero diagonal.", "quantifier": "all input matrices, all operation histories, all compositions", "why_tests_cant": "Needs all matrices and all histories of setters.", "anchors": ["flory/interaction/flory_huggins.py:FloryHugginsInteractionBase.__init__", "flory/interaction/flory_huggins.py:FloryHugginsInteraction.chis", "flory/interaction/flory_huggins.py:FloryHugginsInteraction.set_uniform_chis", "flory/interaction/flory_huggins.py:FloryHugginsInteraction.set_random_chis"]}
{"id": "C13", "title": "random chis are the drawn values", "statement": "set_random_chis fills the off-diagonal entries with exactly the drawn normal numbers, whatever was done with the interaction before.", "quantifier": "every earlier history of the interaction object and every sequence of draws", "why_tests_cant": "The stored number type depends on the earlier history of calls.", "anchors": ["flory/interaction/flory_huggins.py:FloryHugginsInteraction.set_random_chis", "flory/interaction/flory_huggins.py:FloryHugginsInteraction.set_uniform_chis"]}
{"id": "C14", "title": "interaction Jacobian and Hessian are derivatives", "statement": "For the Flory-Huggins interaction the Jacobian is the gradient of the energy density and the Hessian is the derivative of the Jacobian, at every composition.", "quantifier": "all chi matrices, all compositions, any number of components", "why_tests_cant": "A derivative is a limit over a continuum of points.", "anchors": ["flory/interaction/flory_huggins.py:FloryHugginsInteractionBase._energy_impl", "flory/interaction/flory_huggins.py:FloryHugginsInteractionBase._jacobian_impl", "flory/interaction/flory_huggins.py:FloryHugginsInteractionBase._hessian_impl"]}
{"id": "C15", "title": "compiled interaction agrees with the analytic one", "statement": "In every compartment the potential used by the finder equals the Jacobian and the interaction volume derivative equals the energy density of the uncompiled interaction.", "quantifier": "all chi matrices, all fractions, any number of compartments", "why_tests_cant": "Two implementations must agree on all real inputs.", "anchors": ["flory/interaction/flory_huggins.py:FloryHugginsInteractionCompiled.potential", "flory/interaction/flory_huggins.py:FloryHugginsInteractionCompiled.volume_derivative"]}
{"id": "C16", "title": "incompressibility coefficient", "statement": "The incompressibility coefficient of a compiled Flory-Huggins interaction is at least additional_chis_shift times the squared number of features (so positive for a positive shift) and does not change when a constant is added to all chis.", "quantifier": "all chi matrices and shifts", "why_tests_cant": "Inequality over all real matrices.", "anchors": ["flory/interaction/flory_huggins.py:FloryHugginsInteraction._compiled_impl", "flory/interaction/flory_huggins.py:FloryHugginsInteractionCompiled.__init__"]}
{"id": "C17", "title": "degenerate components may be lumped", "statement": "For a block interaction the energy density of any component composition equals the feature-level energy of the lumped feature fractions, and the Jacobian of a component equals that of its feature.", "quantifier": "all block layouts, feature matrices and compositions", "why_tests_cant": "Unbounded layouts and real values.", "anchors": ["flory/interaction/flory_huggins_block.py:FloryHugginsBlockInteraction", "flory/interaction/flory_huggins.py:FloryHugginsInteractionBase._energy_impl"]}
{"id": "C18", "title": "block interaction symmetrizes any matrix", "statement": "Creating a block interaction from any feature matrix, or assigning chis_feat later, stores the symmetrized matrix and rebuilds the component matrix.", "quantifier": "all feature matrices (also non-symmetric) and all histories", "why_tests_cant": "Only some inputs and some call histories fail.", "anchors": ["flory/interaction/flory_huggins_block.py:FloryHugginsBlockInteraction.__init__", "flory/interaction/flory_huggins_block.py:FloryHugginsBlockInteraction.chis_feat"]}
{"id": "C19", "title": "entropy Jacobian is the gradient", "statement": "For ideal-gas entropies the Jacobian is the gradient of the entropic energy density at every composition with positive fractions, for any molecule sizes.", "quantifier": "all sizes, all positive compositions", "why_tests_cant": "A derivative is a limit over a continuum of points.", "anchors": ["flory/entropy/ideal_gas.py:IdealGasEntropyBase._energy_impl", "flory/entropy/ideal_gas.py:IdealGasEntropyBase._jacobian_impl"]}
{"id": "C20", "title": "entropy Hessian is the second derivative", "statement": "For ideal-gas entropies the Hessian is the derivative of the Jacobian at every composition with positive fractions, for any molecule sizes.", "quantifier": "all sizes, all positive compositions", "why_tests_cant": "A derivative is a limit over a continuum of points.", "anchors": ["flory/entropy/ideal_gas.py:IdealGasEntropyBase._hessian_impl"]}
{"id": "C21", "title": "vanishing fractions are handled", "statement": "For non-vanishing molecular sizes the energy density is finite and continuous also at compositions with vanishing fractions, and the product of fraction and Jacobian has its limit value zero. A size of zero, which is not rejected, makes the energy density infinite or NaN at every composition, and the product of fraction and Jacobian NaN. For positive sizes and symmetric chis, chemical_potentials is minus infinity exactly for the absent components and the finite analytic value for all present ones.", "quantifier": "all compositions with non-negative fractions, all sizes and chis", "why_tests_cant": "Boundary behaviour is a limit statement over all faces of the simplex.", "anchors": ["flory/entropy/ideal_gas.py:IdealGasEntropyBase._jacobian_fractions_impl", "flory/common/math.py:xlogx", "flory/free_energy/base.py:FreeEnergyBase._jacobian_fractions_impl", "flory/free_energy/base.py:FreeEnergyBase.chemical_potentials"]}
{"id": "C22", "title": "polydisperse bookkeeping", "statement": "For polydisperse ideal gases the Boltzmann factors and partition functions of component i are those of an ordinary ideal gas in the field of its feature, feature fractions are the sums over the components of the feature, and the total fraction in each compartment is preserved.", "quantifier": "all numbers of components per feature, sizes, fields and volumes", "why_tests_cant": "Index bookkeeping over unbounded layouts.", "anchors": ["flory/entropy/ideal_gas_polydispersed.py:IdealGasPolydispersedEntropyCompiled.partition", "flory/entropy/ideal_gas_polydispersed.py:IdealGasPolydispersedEntropyCompiled.comp_to_feat"]}
{"id": "C23", "title": "polydisperse with one component per feature is the plain ideal gas", "statement": "With one component per feature the polydisperse entropy computes the same fractions, partition functions, feature fractions and volume derivatives as the plain ideal gas.", "quantifier": "all sizes, fields and volumes, any number of components", "why_tests_cant": "Equality of two implementations on all inputs.", "anchors": ["flory/entropy/ideal_gas_polydispersed.py:IdealGasPolydispersedEntropyCompiled", "flory/entropy/ideal_gas.py:IdealGasEntropyCompiled"]}
{"id": "C24", "title": "canonical ensemble fixes the mean composition exactly", "statement": "In every iteration of a canonical run the volume-weighted mean of the new volume fractions over the living compartments equals phi_means exactly, for any fields and volumes.", "quantifier": "all fields, volumes, masks, phi_means", "why_tests_cant": "Equality for all real inputs.", "anchors": ["flory/ensemble/canonical.py:CanonicalEnsembleCompiled.normalize", "flory/entropy/ideal_gas.py:IdealGasEntropyCompiled.partition"]}
{"id": "C25", "title": "grand-canonical ensemble prescribes chemical potentials", "statement": "For the compositions returned by a run in the grand canonical ensemble created by from_chemical_potential, the exchange chemical potentials differ from those prescribed (plus the known constant (1+ln l)/l of each component) by no more than the reported errors.", "quantifier": "every run, every interaction, sizes and prescribed potentials", "why_tests_cant": "Ranges over all runs and real parameters.", "anchors": ["flory/ensemble/grandcanonical.py:GrandCanonicalEnsemble.from_chemical_potential", "flory/ensemble/grandcanonical.py:GrandCanonicalEnsembleCompiled.normalize", "flory/free_energy/base.py:FreeEnergyBase.exchange_chemical_potentials"]}
{"id": "C26", "title": "incompressibility is reported truthfully", "statement": "The incompressibility computed by both ensembles is the sum of the fractions minus one in living compartments and zero in dead ones; fractions of dead compartments are zero.", "quantifier": "all inputs of normalize", "why_tests_cant": "All real inputs.", "anchors": ["flory/ensemble/canonical.py:CanonicalEnsembleCompiled.normalize", "flory/ensemble/grandcanonical.py:GrandCanonicalEnsembleCompiled.normalize"]}
{"id": "C27", "title": "local constraint forces derive from its energy", "statement": "The potential and volume derivative of a local linear constraint are the partial derivatives of the documented constraint energy with respect to the feature fractions (per unit volume) and the compartment volume, in every living compartment; both vanish in dead ones.", "quantifier": "all coefficients, targets, multipliers, elasticities, fractions and volumes", "why_tests_cant": "Derivatives over a continuum.", "anchors": ["flory/constraint/linear_local.py:LinearLocalConstraintCompiled.prepare"]}
{"id": "C28", "title": "global constraint forces derive from its energy", "statement": "The potential and volume derivative of a global linear constraint are the partial derivatives of the documented constraint energy, in every living compartment; both vanish in dead ones.", "quantifier": "all coefficients, targets, multipliers, elasticities, fractions and volumes", "why_tests_cant": "Derivatives over a continuum.", "anchors": ["flory/constraint/linear_global.py:LinearGlobalConstraintCompiled.prepare"]}
{"id": "C29", "title": "reported constraint residue bounds the violation", "statement": "After run() the reported max_constraint_residue bounds the violation of every local constraint in every returned compartment, and the violation of every global constraint by the last iterate; it is zero exactly if all constraints hold.", "quantifier": "every run with any list of constraints", "why_tests_cant": "Ranges over all runs and constraint lists.", "anchors": ["flory/constraint/linear_local.py:LinearLocalConstraintCompiled.evolve", "flory/constraint/linear_global.py:LinearGlobalConstraintCompiled.evolve", "flory/mcmp/_finder_impl.py:multicomponent_self_consistent_metastep"]}
{"id": "C30", "title": "living compartments are those above the threshold", "statement": "The mask of a compartment is one if its volume is strictly larger than the threshold and zero otherwise, and the number of valid compartments is the number of ones.", "quantifier": "all volumes and thresholds", "why_tests_cant": "Boundary values.", "anchors": ["flory/mcmp/_finder_impl.py:count_valid_compartments", "flory/mcmp/_finder_impl.py:make_valid_compartment_masks"]}
{"id": "C31", "title": "random revival touches only dead compartments", "statement": "Random revival leaves living compartments untouched, gives every dead compartment volume one and fields inside the scaled range of the old fields of the same feature, leaves none dead if the threshold is below one, and returns the number of dead compartments.", "quantifier": "all volumes, fields, thresholds, scalers and draws", "why_tests_cant": "All random draws.", "anchors": ["flory/mcmp/_finder_impl.py:revive_compartments_by_random"]}
{"id": "C32", "title": "copy revival conserves volume and matter", "statement": "Copy revival keeps every composition of a living compartment, gives every dead compartment the composition of a compartment that was living, and conserves the total volume and amount of every component held by the living compartments; living volumes never grow, and all volumes end above the threshold.", "quantifier": "all volumes, compositions, thresholds >= 0 and draws for which it returns", "why_tests_cant": "All draws and sizes; a loop with data-dependent swaps.", "anchors": ["flory/mcmp/_finder_impl.py:revive_compartments_by_copy"]}
{"id": "C33", "title": "copy revival terminates and fails only when it must", "statement": "Copy revival always terminates after finitely many draws and never accesses its index list out of range; for threshold zero it succeeds whenever any compartment is living, and in general it raises only when no compartment with more than twice the threshold is left.", "quantifier": "all inputs and all draws", "why_tests_cant": "Termination for all random draws of an unbounded while loop.", "anchors": ["flory/mcmp/_finder_impl.py:revive_compartments_by_copy"]}
{"id": "C34", "title": "volume conservation and survival", "statement": "After every iteration the volumes of the compartments add up to the number of compartments alive in that iteration, so with kill_threshold < 1 at least one compartment is always alive, and no iteration of any run after any history of finder calls divides by zero.", "quantifier": "every history of finder calls, every run, every number of steps, every draw", "why_tests_cant": "Invariant over unbounded executions.", "anchors": ["flory/mcmp/_finder_impl.py:multicomponent_self_consistent_metastep", "flory/mcmp/finder.py:CoexistingPhasesFinder"]}
{"id": "C35", "title": "volume change per step is bounded", "statement": "As documented, in one iteration no compartment volume changes by more than Js_step_upper_bound.", "quantifier": "all states and iteration parameters", "why_tests_cant": "All real states.", "anchors": ["flory/mcmp/_finder_impl.py:multicomponent_self_consistent_metastep"]}
{"id": "C36", "title": "revive budget", "statement": "The number of revivals between two resets never exceeds max_revive_per_compartment times the number of compartments by as much as one full sweep: revive_count_left stays above minus the number of compartments in every history, and once exhausted no compartment is revived until a reset.", "quantifier": "every history of finder calls and all draws", "why_tests_cant": "Unbounded histories.", "anchors": ["flory/mcmp/_finder_impl.py:multicomponent_self_consistent_metastep", "flory/mcmp/finder.py:CoexistingPhasesFinder.reset_revive"]}
{"id": "C37", "title": "dead compartments stay inert", "statement": "Once the revive budget is exhausted a dead compartment stays dead in all later iterations, with zero volume, zero fractions and zero fields, and without influence on the others.", "quantifier": "every number of further iterations", "why_tests_cant": "Unbounded executions.", "anchors": ["flory/mcmp/_finder_impl.py:multicomponent_self_consistent_metastep"]}
{"id": "C38", "title": "reported field error is the maximal absolute error", "statement": "The reported max_abs_omega_diff is the largest absolute difference between the new and the old fields over all features and compartments.", "quantifier": "all states", "why_tests_cant": "All real states; wrong only for asymmetric errors.", "anchors": ["flory/mcmp/_finder_impl.py:multicomponent_self_consistent_metastep"]}
{"id": "C39", "title": "returned phases are in chemical balance up to the reported errors", "statement": "For every result of run() without local constraints, the chemical potentials of any component in any two returned compartments differ by at most N_S*max_abs_omega_diff + |incompressibility coefficient|*max_abs_incomp + 2*max_abs_js_diff, so a converged run yields phases with equal chemical potentials, and hence equal osmotic pressures (which are minus the chemical potentials of the solvent, C51), up to that multiple of the tolerance.", "quantifier": "every run (converged or not), any chis, sizes, ensemble, number of components and compartments", "why_tests_cant": "Soundness over all executions and real parameters.", "anchors": ["flory/mcmp/finder.py:CoexistingPhasesFinder.run", "flory/mcmp/_finder_impl.py:multicomponent_self_consistent_metastep", "flory/free_energy/base.py:FreeEnergyBase.chemical_potentials"]}
{"id": "C40", "title": "returned phases are physical", "statement": "Every result of run() has num_part compartments with volumes above the kill threshold, fractions that are positive for components with positive mean fraction or activity, and rows whose sums differ from one by at most the reported max_abs_incomp.", "quantifier": "every run after every history", "why_tests_cant": "All executions.", "anchors": ["flory/mcmp/finder.py:CoexistingPhasesFinder.run"]}
{"id": "C41", "title": "step accounting", "statement": "A run performs at most ceil(max_steps) iterations, checks convergence after at most interval iterations each time, stops at the first check that meets the tolerance, performs more than max_steps minus the number of checks iterations otherwise, and reports exactly the number of performed iterations.", "quantifier": "all max_steps > 0, intervals > 0", "why_tests_cant": "All integer/rational parameters.", "anchors": ["flory/mcmp/finder.py:CoexistingPhasesFinder.run"]}
{"id": "C42", "title": "canonical run returns the requested mean composition", "statement": "In a canonical run the mean fractions of the returned phases equal phi_means.", "quantifier": "every canonical run", "why_tests_cant": "All executions.", "anchors": ["flory/mcmp/finder.py:CoexistingPhasesFinder.run", "flory/ensemble/canonical.py:CanonicalEnsembleCompiled.normalize"]}
{"id": "C43", "title": "finder reuse keeps sizes and defaults", "statement": "Whatever sequence of set_*, reinitialize_*, reset and run calls is made, also if some of them raise, the numbers of components, features and compartments, the field shapes and the defaults (tolerance, steps, interval, keyword arguments) stay those of the construction; arguments of run only act on that run.", "quantifier": "every history of calls including failing ones", "why_tests_cant": "Unbounded histories with exceptions.", "anchors": ["flory/mcmp/finder.py:CoexistingPhasesFinder"]}
{"id": "C44", "title": "a rejected set_* call leaves the finder unchanged", "statement": "If set_interaction, set_entropy, set_ensemble or set_constraints raises because of incompatible sizes, the finder still works with its previous instances.", "quantifier": "every history containing a rejected call", "why_tests_cant": "Exception safety over histories.", "anchors": ["flory/mcmp/finder.py:CoexistingPhasesFinder.set_interaction", "flory/mcmp/finder.py:CoexistingPhasesFinder.check_instance"]}
{"id": "C45", "title": "all given constraints are enforced", "statement": "After set_constraints with a list of constraints every one of them is active in later runs, with the keyword arguments merged in the order defaults, call, individual.", "quantifier": "all lists of constraints and individual arguments", "why_tests_cant": "Unbounded lists.", "anchors": ["flory/mcmp/finder.py:CoexistingPhasesFinder.set_constraints"]}
{"id": "C46", "title": "finder owns its data", "statement": "Once created, a finder is not affected by later in-place changes of the arrays exposed by the interaction, entropy, ensemble and constraint objects it was created from.", "quantifier": "every history of in-place updates", "why_tests_cant": "Aliasing over all histories.", "anchors": ["flory/interaction/flory_huggins.py:FloryHugginsInteraction._compiled_impl", "flory/ensemble/grandcanonical.py:GrandCanonicalEnsemble._compiled_impl", "flory/constraint/linear_local.py:LinearLocalConstraint._compiled_impl", "flory/ensemble/canonical.py:CanonicalEnsemble._compiled_impl"]}
{"id": "C47", "title": "component relabelling", "statement": "Relabelling the components consistently in chis, sizes, mean fractions (or activities), constraints and fields relabels the fractions returned by every run without revival and changes neither volumes nor diagnostics.", "quantifier": "all permutations, all states, any number of iterations and runs without revival", "why_tests_cant": "All permutations of unboundedly many components.", "anchors": ["flory/mcmp/_finder_impl.py:multicomponent_self_consistent_metastep"]}
{"id": "C48", "title": "compartment relabelling", "statement": "Relabelling the compartments of the initial state relabels the phases returned by every run without revival in the same way and changes none of the diagnostics.", "quantifier": "all permutations, all states, any number of iterations and runs without revival", "why_tests_cant": "All permutations.", "anchors": ["flory/mcmp/_finder_impl.py:multicomponent_self_consistent_metastep"]}
{"id": "C49", "title": "free energy Jacobian", "statement": "FreeEnergyBase.jacobian is the gradient of free_energy_density, and with index given it is the derivative along exchanging each component against that one, with the entry of the dependent component removed.", "quantifier": "all positive compositions, chis, sizes and indices", "why_tests_cant": "Derivatives over a continuum.", "anchors": ["flory/free_energy/base.py:FreeEnergyBase.jacobian", "flory/free_energy/base.py:FreeEnergyBase.free_energy_density"]}
{"id": "C50", "title": "exchange chemical potentials", "statement": "exchange_chemical_potentials(phis, k) vanishes for component k, equals the difference of the chemical potentials to that of k, and without entry k it equals jacobian(phis, k).", "quantifier": "all positive compositions and indices", "why_tests_cant": "All real compositions.", "anchors": ["flory/free_energy/base.py:FreeEnergyBase.exchange_chemical_potentials", "flory/free_energy/base.py:FreeEnergyBase.chemical_potentials"]}
{"id": "C51", "title": "chemical potentials and pressure", "statement": "chemical_potentials are the derivatives of the extensive free energy V f(n/V) with respect to amounts; for compositions summing to one their fraction-weighted sum is the free energy density and pressure(phis,k) equals the fraction-weighted exchange chemical potentials minus the free energy density. Along any differentiable path of such compositions the fraction-weighted derivatives of the chemical potentials add to zero (Gibbs-Duhem).", "quantifier": "all positive compositions, indices, chis, sizes", "why_tests_cant": "All real compositions.", "anchors": ["flory/free_energy/base.py:FreeEnergyBase.chemical_potentials", "flory/free_energy/base.py:FreeEnergyBase.pressure"]}
{"id": "C52", "title": "conserved Hessian", "statement": "hessian(phis, k) is the derivative of jacobian(phis, k) along exchanging components against k (for the full Hessian supplied), is symmetric, and its quadratic form is the full quadratic form on composition changes that sum to zero.", "quantifier": "all Hessians, indices and directions", "why_tests_cant": "All directions.", "anchors": ["flory/free_energy/base.py:FreeEnergyBase.hessian"]}
{"id": "C53", "title": "stability verdict", "statement": "is_stable(phis) is true exactly if no composition change conserving volume lowers the quadratic form of the reported Hessian, and is_stable(phis, conserved=False) exactly if none at all does; the choice of the dependent component is irrelevant.", "quantifier": "all compositions and all directions", "why_tests_cant": "Quantifies over all directions in composition space.", "anchors": ["flory/free_energy/base.py:FreeEnergyBase.is_stable", "flory/free_energy/base.py:FreeEnergyBase.num_unstable_modes"]}
{"id": "C54", "title": "number of unstable modes is independent of the dependent component", "statement": "num_unstable_modes with volume conservation is the maximal dimension of a space of volume-conserving composition changes with negative quadratic form, hence independent of which component is eliminated.", "quantifier": "all compositions", "why_tests_cant": "Linear-algebraic invariant over all subspaces.", "anchors": ["flory/free_energy/base.py:FreeEnergyBase.num_unstable_modes"]}
{"id": "C55", "title": "stability of Flory-Huggins mixtures", "statement": "is_stable tells whether the Flory-Huggins free energy is locally convex along volume-conserving composition changes, for any molecule sizes.", "quantifier": "all compositions, chis and sizes", "why_tests_cant": "All real parameters.", "anchors": ["flory/free_energy/base.py:FreeEnergyBase.is_stable", "flory/entropy/ideal_gas.py:IdealGasEntropyBase._hessian_impl"]}
{"id": "C56", "title": "equilibration error", "statement": "equilibration_error is zero exactly if all phases have equal chemical potentials (for positive compositions), is zero for a single phase, and does not change if the phases are reordered (by all) or permuted accordingly (by phase).", "quantifier": "all collections of phases", "why_tests_cant": "All real compositions.", "anchors": ["flory/free_energy/base.py:FreeEnergyBase.equilibration_error"]}
{"id": "C57", "title": "volume fraction validation", "statement": "The free energy methods raise VolumeFractionError exactly if the component dimension is wrong or some fraction is negative; zero and values above one are accepted.", "quantifier": "all shapes and values", "why_tests_cant": "All inputs.", "anchors": ["flory/free_energy/base.py:FreeEnergyBase.check_volume_fractions"]}
{"id": "C58", "title": "incompatible sizes are rejected", "statement": "Creating a FreeEnergyBase from parts with different component numbers raises ComponentNumberError, and creating a finder from an entropy, interaction, ensemble and constraints raises ComponentNumberError or FeatureNumberError exactly if a size disagrees with the entropy.", "quantifier": "all combinations of sizes and constraint lists", "why_tests_cant": "Unbounded sizes and lists.", "anchors": ["flory/free_energy/base.py:FreeEnergyBase.__init__", "flory/mcmp/finder.py:CoexistingPhasesFinder.__init__", "flory/mcmp/finder.py:CoexistingPhasesFinder.check_instance"]}
{"id": "C59", "title": "one-call shortcut", "statement": "find_coexisting_phases returns phases with positive volumes summing to one, non-negative fractions with row sums within max_abs_incomp of one, rows sorted by the index of the most concentrated component, and the diagnostics of the run.", "quantifier": "all valid inputs, draws and groupings", "why_tests_cant": "End-to-end over all executions.", "anchors": ["flory/shortcut.py:find_coexisting_phases"]}
{"id": "C60", "title": "extended free energy is the Flory-Huggins free energy", "statement": "For any fields and positive volumes, the mean Flory-Huggins free energy of the self-consistent fractions equals the documented extended free energy (with incompressibility) up to a constant depending only on phi_means and sizes.", "quantifier": "all fields, volumes, phi_means, sizes, chis", "why_tests_cant": "All real inputs.", "anchors": ["docs/source/theory.rst", "flory/mcmp/_finder_impl.py:multicomponent_self_consistent_metastep"]}
{"id": "C61", "title": "homogeneous state is stationary", "statement": "If all compartments have volume one (the volumes of a new or reinitialized finder) and the fields of the homogeneous mixture at phi_means, an iteration reports zero errors and changes neither volumes nor fields.", "quantifier": "all chis, sizes, phi_means summing to one, any number of compartments", "why_tests_cant": "All real parameters.", "anchors": ["flory/mcmp/_finder_impl.py:multicomponent_self_consistent_metastep"]}
{"id": "C62", "title": "reinitialization erases history", "statement": "After reinitialize_from_omegas (or _from_phis, _random) the outcome of the next run depends only on the new fields, the current instances, the defaults and the generator, not on earlier runs.", "quantifier": "all pairs of histories", "why_tests_cant": "Two-run property over unbounded histories.", "anchors": ["flory/mcmp/finder.py:CoexistingPhasesFinder.reinitialize_from_omegas", "flory/mcmp/finder.py:CoexistingPhasesFinder.reinitialize_random"]}
{"id": "C63", "title": "equilibria are exactly the fixed points", "statement": "If the volumes and fields are those of coexisting phases (equal chemical potentials, incompressible, prescribed mean composition, constraints fulfilled), and each compartment is above the kill threshold, run returns exactly these phases with zero errors and stops at the first convergence check; conversely, a pass without dead compartments and constraints that reports zero errors has phases in equilibrium.", "quantifier": "all mixtures, phases in equilibrium, tolerances, step limits", "why_tests_cant": "Quantifies over all equilibria of all mixtures; floating point tests only see approximate fixed points.", "anchors": ["flory/mcmp/_finder_impl.py:multicomponent_self_consistent_metastep", "flory/mcmp/finder.py:CoexistingPhasesFinder.run"]}
{"id": "C64", "title": "reported errors are the gradient of the extended free energy", "statement": "In a pass without dead compartments and constraints, the directional derivative of the documented extended free energy at the fields, fractions, multipliers and relative volumes of the pass is the pairing of the direction with the field errors, incompressibilities and local energies computed in the pass; hence all reported errors vanish iff the point is stationary under sum J = 1.", "quantifier": "all symmetric chis, sizes, fields, volumes, all directions", "why_tests_cant": "Statement about derivatives of a functional in all directions at all states.", "anchors": ["flory/mcmp/_finder_impl.py:multicomponent_self_consistent_metastep", "docs/source/theory.rst"]}
{"id": "C65", "title": "one pass follows the documented scheme", "statement": "For an ideal gas without constraints and without dead compartments, the fractions of a pass are those of the documented self-consistency equations, the fields move by acceptance_omega (times a common factor in (0,1] which is one unless the volume bound is exceeded) towards the documented new field, and the volumes move by acceptance_Js times the documented energy difference.", "quantifier": "all mixtures, states, step sizes", "why_tests_cant": "Quantifies over all states and step sizes; agreement of two formulas on samples does not show equality.", "anchors": ["flory/mcmp/_finder_impl.py:multicomponent_self_consistent_metastep", "docs/source/theory.rst"]}
{"id": "C66", "title": "no false phases in miscible mixtures", "statement": "If the free energy is convex on incompressible compositions (a miscible mixture), phases in equilibrium are identical. If it is convex with a margin, the compositions of any two phases returned by run differ by at most an explicit multiple of the reported errors, in every ensemble and with global constraints. The free energy is convex exactly if (sum_i |v_i|/sqrt(l_i))^2 + sum_ij chi_ij v_i v_j >= 0 for all volume-preserving changes v of the composition.", "quantifier": "all miscible mixtures, initial fields, generators, numbers of steps", "why_tests_cant": "Needs convexity over all compositions and arbitrarily long runs.", "anchors": ["flory/mcmp/finder.py:CoexistingPhasesFinder.run", "flory/mcmp/_finder_impl.py:multicomponent_self_consistent_metastep"]}
{"id": "C67", "title": "constraint multipliers climb the constraint energy", "statement": "In every pass each Lagrange multiplier of a linear constraint changes by the step of the fields times the acceptance ratio times the derivative of the documented constraint energy with respect to this multiplier (per volume), multipliers of dead compartments are reset, and (nonzero step) the multipliers stop moving exactly when the constraints are fulfilled.", "quantifier": "all constraints, states, step sizes", "why_tests_cant": "Statement about a derivative and an equivalence for all states.", "anchors": ["flory/constraint/linear_local.py:LinearLocalConstraintCompiled.evolve", "flory/constraint/linear_global.py:LinearGlobalConstraintCompiled.evolve"]}
{"id": "C68", "title": "uniform fields never separate and relax geometrically", "statement": "If all compartments start with the same fields, a canonical run returns the mean composition in every compartment whatever the interactions; incompressibility, volume and constraint errors are zero, the distance of the fields to those of the homogeneous mixture shrinks by the factor 1 - acceptance_omega in each pass, and for 0 < acceptance_omega < 2 the run reports errors below any tolerance once it is given enough steps, a number that grows at most like the logarithm of the inverse tolerance. With one compartment every run given enough steps succeeds with the mean composition.", "quantifier": "all mixtures, uniform initial fields, step sizes, tolerances, numbers of steps", "why_tests_cant": "Convergence statement over arbitrarily long runs and all tolerances.", "anchors": ["flory/mcmp/finder.py:CoexistingPhasesFinder.run", "flory/mcmp/_finder_impl.py:multicomponent_self_consistent_metastep"]}
{"id": "C69", "title": "The whole workflow ends in phases whose imbalance is bounded by the reported diagnostics", "statement": "Make a finder from a Flory-Huggins interaction, an ideal gas entropy, a canonical or grand canonical ensemble with positive entries, and global linear constraints or none, with kill threshold t such that 2t(M-1) < 1. After any sequence of run, reinitialize and reset calls, raising or not, every run with positive steps and interval returns one phase per compartment with volume above t and positive fractions whose sum differs from one by at most max_abs_incomp. For any two of these phases the chemical potentials of each component, computed from the same chis and sizes, differ by at most B = C*max_abs_omega_diff + |coef|*max_abs_incomp + 2*max_abs_js_diff, where coef is the sum over all pairs of (chi - min chi + additional_chis_shift). FloryHuggins(C, chis, sizes).equilibration_error of the returned fractions is at most sqrt(P*C)*B, and the errors per phase and per component are at most sqrt(C)*B and sqrt(P)*B.", "quantifier": "all numbers of components and compartments, all symmetric chis, positive sizes, ensembles, global constraints, parameters, initial fields, random numbers and histories of calls", "why_tests_cant": "Tests check a few converged runs with fixed chis; they cannot show that the diagnostics bound the independent equilibration error for every system and every history.", "anchors": ["flory/mcmp/finder.py:CoexistingPhasesFinder", "flory/mcmp/_finder_impl.py:multicomponent_self_consistent_metastep", "flory/interaction/flory_huggins.py:FloryHugginsInteraction", "flory/free_energy/base.py:FreeEnergyBase.equilibration_error"]}
{"id": "C70", "title": "objects hold what was last accepted", "statement": "Assigning sizes, phi_means, scaled_activity, Cs, Ts or chis accepts exactly the arrays numpy can broadcast to the fixed shape of the object and raises ValueError otherwise. After any sequence of assignments, raising or not, the object, its energies and what it compiles to use the value of the last accepted assignment of each attribute (for chis its symmetric part), independently of the other attributes, exactly as an object newly created with these values; the numbers of components, features and constraints never change. FloryHuggins.from_uniform and from_random_normal give the stated matrix and sizes.", "quantifier": "all objects, all arrays of any rank and shape, all sequences of assignments", "why_tests_cant": "Tests assign a few well-shaped arrays; stale state after mixed sequences of accepted and rejected assignments is not covered by any finite set of sequences.", "anchors": ["flory/entropy/ideal_gas.py:IdealGasEntropy.sizes", "flory/ensemble/canonical.py:CanonicalEnsemble.phi_means", "flory/ensemble/grandcanonical.py:GrandCanonicalEnsemble.scaled_activity", "flory/constraint/linear_local.py:LinearLocalConstraint", "flory/constraint/linear_global.py:LinearGlobalConstraint", "flory/free_energy/flory_huggins.py:FloryHuggins"]}
{"id": "C71", "title": "Results without deaths do not depend on the random generator", "statement": "If a run returns, uses no revival and ends with all volumes above the kill threshold, then a finder with the same arrays and instances but any other random generator, generator state, max_revive_per_compartment, remaining budget and revive_scaler returns the same volumes, fractions and diagnostics (except revive_count_left) and ends with the same arrays.", "quantifier": "all finders with any instances and constraints, all generators, budgets, arguments of run", "why_tests_cant": "Tests use one or a few seeds; they cannot show that no draw influences any run without deaths.", "anchors": ["flory/mcmp/finder.py:CoexistingPhasesFinder.run", "flory/mcmp/_finder_impl.py:multicomponent_self_consistent_metastep", "flory/mcmp/_finder_impl.py:revive_compartments_by_random", "flory/mcmp/_finder_impl.py:revive_compartments_by_copy"]}
{"id": "C72", "title": "A constant added to the fields does not change the result", "statement": "In the canonical ensemble, for an entropy of ideal gas type, with volumes of average one, kill threshold in [0,1) and positive step bound: adding the same constant to all initial fields changes neither the volumes, fractions nor diagnostics of a run without deaths; the final fields differ by this constant. In a single pass without deaths even a different constant per feature changes neither fractions, volumes, multipliers, incompressibility nor volume error, and the sum of the shifts is kept. (With deaths the volume step depends on the constant.)", "quantifier": "all canonical finders, all constants, all arguments of run", "why_tests_cant": "Tests start from particular fields; invariance under all shifts for all systems is not covered.", "anchors": ["flory/mcmp/_finder_impl.py:multicomponent_self_consistent_metastep", "flory/ensemble/canonical.py:CanonicalEnsembleCompiled.normalize", "flory/entropy/ideal_gas.py:IdealGasEntropyCompiled.partition"]}
{"id": "C73", "title": "A run can be interrupted and resumed", "statement": "Let a run of n1 intervals of k steps return and end with all volumes above the kill threshold. If its errors are not all below the tolerance, running n2 further intervals on the same finder gives exactly what one run of n1+n2 intervals gives: the same phases, errors, arrays, multipliers, generator state and revive budget, or the same exception; the numbers of steps add up. If all errors are below the tolerance the long run returns the result of the short one.", "quantifier": "all finders with any instances and constraints, all generators, positive n1, n2, k, all tolerances", "why_tests_cant": "Tests run a few systems with fixed step counts; that no hidden state is lost between runs holds for all systems only by proof.", "anchors": ["flory/mcmp/finder.py:CoexistingPhasesFinder.run", "flory/mcmp/_finder_impl.py:multicomponent_self_consistent_metastep", "flory/mcmp/_finder_impl.py:revive_compartments_by_copy"]}
{"id": "C74", "title": "accurate runs return phases close to an exact equilibrium", "statement": "For every mixture, number of compartments, accuracy eps > 0 and eta > 0 there is a delta > 0 such that every run without local constraints whose reported errors are at most delta returns fractions within eps of compositions with exactly equal chemical potentials, provided each component has a fraction of at least eta in some returned phase.", "quantifier": "all runs, ensembles, global constraints, parameters, initial fields and random numbers", "why_tests_cant": "Limit statement uniform in all executions; small residuals alone do not show nearness to a solution.", "anchors": ["flory/mcmp/finder.py:CoexistingPhasesFinder.run", "flory/mcmp/_finder_impl.py:multicomponent_self_consistent_metastep"]}
{"id": "C75", "title": "binary mixtures: at most two phases, on a unique binodal, by the lever rule", "statement": "A binary mixture in equilibrium has at most two different phases; they do not depend on the mean composition, and their volumes obey the lever rule. For every eps > 0 there is a delta > 0 such that runs with reported errors of at most delta return at most two phases up to eps, and any two such runs of the same mixture that return phases at least eps apart agree on them up to eps.", "quantifier": "all symmetric chis, positive sizes, numbers of compartments, ensembles, mean compositions, seeds, initial fields", "why_tests_cant": "Uniqueness over all equilibria and agreement of all pairs of executions.", "anchors": ["flory/mcmp/finder.py:CoexistingPhasesFinder.run", "flory/free_energy/base.py:FreeEnergyBase.chemical_potentials", "docs/source/theory.rst"]}
{"id": "C76", "title": "binary mixtures: critical point, phase diagram and least free energy", "statement": "A binary mixture has two different phases in equilibrium iff chi01 - (chi00+chi11)/2 > (1/sqrt(l0)+1/sqrt(l1))^2/2. Above this value there are two compositions such that exactly the mean compositions strictly between them separate, into these two. Different phases in equilibrium have the least mean free energy of all ways to divide the mixture; the homogeneous mixture has it iff it does not separate. For every eps > 0 there is a delta > 0 such that at or below the critical value runs with reported errors of at most delta return equal compositions up to eps.", "quantifier": "all symmetric chis, positive sizes, mean compositions, numbers of compartments and phases, ensembles, seeds, initial fields", "why_tests_cant": "Existence and non-existence of equilibria over all compositions, global minimality over all partitions.", "anchors": ["flory/mcmp/finder.py:CoexistingPhasesFinder.run", "flory/free_energy/base.py:FreeEnergyBase.chemical_potentials", "flory/interaction/flory_huggins.py:FloryHugginsInteraction", "docs/source/theory.rst"]}
{"id": "C77", "title": "the state of least free energy is representable and is an equilibrium", "statement": "For every mean composition with all components present and every number M >= C of compartments (the default is 8 C) there is an equilibrium of M compartments of positive volumes, with at most C different phases, whose mean free energy is the least among all ways to divide the mixture into any number of phases. Conversely any best division into phases of positive volume is an equilibrium in which all phases contain all components, and an equilibrium is best iff no composition has a free energy below the plane of its chemical potentials. Zero reported errors do not imply that the phases are best.", "quantifier": "all symmetric chis, positive sizes, feature maps, mean compositions, numbers of components and compartments", "why_tests_cant": "Global minimality over all compositions and all numbers of phases; existence for all mixtures.", "anchors": ["flory/mcmp/finder.py:CoexistingPhasesFinder.__init__", "flory/mcmp/finder.py:CoexistingPhasesFinder.run", "flory/free_energy/base.py:FreeEnergyBase.chemical_potentials", "docs/source/theory.rst"]}
{"id": "C78", "title": "a finder starts from the documented state", "statement": "After construction and after reinitialize_random the field of feature r in compartment m is random_std times the standard normal draw number r*num_part+m, and the generator has made exactly num_feat*num_part draws; after reinitialize_from_omegas the fields are the array given, after reinitialize_from_phis they are chis @ phis. In all cases all volumes are one, the revive budget is max_revive_per_compartment*num_part, the same constraints are enforced with zero multipliers, and nothing else changes. Arrays of any other shape than (num_feat, num_part) and a negative random_std are rejected without any effect. A finder made without options has eight compartments per component, sixteen revivals per compartment, fields of standard deviation 5 and the documented acceptances and bounds; its run() without arguments makes passes in groups of 10^4, at most 10^6 altogether, and if it makes fewer then every residue it reports is below 10^-5.", "quantifier": "all finders in any reachable state, generators, arrays, instances and defaults", "why_tests_cant": "All states of a finder and all draws of the generator.", "anchors": ["flory/mcmp/finder.py:CoexistingPhasesFinder.__init__", "flory/mcmp/finder.py:CoexistingPhasesFinder.reinitialize_random", "flory/mcmp/finder.py:CoexistingPhasesFinder.reinitialize_from_omegas", "flory/mcmp/finder.py:CoexistingPhasesFinder.reinitialize_from_phis"]}
{"id": "C79", "title": "random compositions are uniformly distributed", "statement": "If the draws rng.beta(1, num_comps-d-1) are independent and beta distributed, get_uniform_random_composition is uniformly distributed on the simplex: the fractions of all components but the last have constant Lebesgue density where they are not negative and sum to at most one, zero density elsewhere, and all fractions sum to one.", "quantifier": "all numbers of components, generators, probability spaces and initial states of the generator", "why_tests_cant": "A continuous distribution in any number of dimensions cannot be sampled exhaustively.", "anchors": ["flory/common/phases.py:get_uniform_random_composition"]}
{"id": "C80", "title": "the two ensembles have the same equilibria", "statement": "Phases in equilibrium with a reservoir of given chemical potentials, in any volumes, are fixed points of the grand canonical ensemble: a run started from their fields returns exactly these phases in these volumes with zero errors at the first check, so potentials alone do not determine volumes. Conversely a pass that reports no errors is in equilibrium with the reservoir. Phases found exactly in the canonical ensemble are found exactly by the grand canonical one at their chemical potentials, and vice versa with their mean composition.", "quantifier": "all mixtures, sizes, potentials, volumes, numbers of compartments, step parameters and tolerances", "why_tests_cant": "Exact equilibria of floating-point runs do not exist, and the equivalence concerns every mixture and every set of potentials.", "anchors": ["flory/ensemble/grandcanonical.py:GrandCanonicalEnsemble.from_chemical_potential", "flory/ensemble/canonical.py:CanonicalEnsembleCompiled", "flory/mcmp/finder.py:CoexistingPhasesFinder.run"]}
{"id": "C81", "title": "Clustering of compartments and the phases the shortcut returns", "statement": "get_clusters, with the clusters that scipy's centroid linkage cut at `dist` produces, recovers the phases: compartments within eps of given compositions that lie further than dist + 2 eps apart (2 eps <= dist) are merged into exactly one phase for each composition that occurs, within eps of it and with the summed volume; compartments that pairwise lie within dist become one phase with the mean composition; and there are never more phases than groups if these are more than 4 eps apart. Consequently find_coexisting_phases, called for two components, returns one or two phases as soon as its reported errors are small enough (how small depends on interactions, sizes and shift only): one if there are no two different phases in equilibrium or if these are closer than 0.01, and if two are returned and the phases in equilibrium differ by more than 0.01, the two are these up to any prescribed accuracy. If the fields that are drawn first are those of phases in equilibrium, exactly these are returned, each once, with zero errors.", "quantifier": "for every number of compartments and components, all compositions and positive volumes, every order in which scipy merges equally close clusters, all chis, sizes, mean fractions, constraints without local ones, keyword arguments and random generators", "why_tests_cant": "Which clusters come out of centroid linkage depends on all pairwise distances and on ties, merge heights need not increase, and the claim for the shortcut combines every run, every starting field and a limit of vanishing errors.", "anchors": ["flory/common/phases.py:Phases.get_clusters", "flory/shortcut.py:find_coexisting_phases", "flory/mcmp/finder.py:CoexistingPhasesFinder.run"]}
{"id": "C82", "title": "equilibration error for every order and axis", "statement": "equilibration_error is defined for every `order` and `axis` that numpy.linalg.norm accepts for a two-dimensional array, and raises ValueError for all others; the axes -1 and -2 stand for 1 and 0. With positive compositions it is never negative. For the orders None, inf and p >= 0 along an axis, and None, inf, 1, 2, 'fro', 'nuc' over both axes, it vanishes exactly if the chemical potentials are in balance (per component, per phase, or in total). For -inf and negative orders it vanishes as soon as one deviation does (over both axes: one phase, one component, or a combination of components), and for -2 always unless there are more phases than components, so that these orders can report zero for phases out of balance. Orders along an axis are decreasing in p and bounded below by inf, the spectral error is at most the Frobenius error, which is at most the nuclear one, and twice the inf error per component bounds all differences of chemical potentials. A component that is absent from a phase (chemical potential -inf) counts as if its potential were zero there, so an imbalance can go unnoticed.", "quantifier": "for all numbers of phases and components, all chis, sizes and compositions, all real and named orders and all integer axes", "why_tests_cant": "Orders range over the reals and named norms, and vanishing of the singular-value orders depends on the whole matrix of deviations.", "anchors": ["flory/free_energy/base.py:FreeEnergyBase.equilibration_error"]}
{"id": "C83", "title": "stability of the mean composition decides whether compartments merge", "statement": "Consider canonical runs with Flory-Huggins interaction (symmetric chis), ideal or polydisperse entropy and no constraints that start with equal volumes and nearly equal fields. If the mean composition is stable (positive curvature of the free energy in every volume-conserving direction; for two features 1/d0 + 1/d1 + chi00 + chi11 - 2 chi01 > 0 with d the sums of size times fraction), then for every small enough acceptance_omega the run succeeds without revivals, its errors get below any tolerance with enough steps (a number that grows at most like the logarithm of the inverse tolerance), and the reported fractions approach the mean composition geometrically: the finder returns one phase. If the curvature is negative in some direction (and nowhere degenerate), then arbitrarily close to any equal fields there are fields from which the iteration leaves a fixed neighbourhood of the mean composition or kills a compartment, within a number of passes that does not depend on the rest of the state. For two features both hold for the shift chosen by the code with any positive additional_chis_shift; for more features they hold for all large enough shifts.", "quantifier": "for all numbers of compartments, components and features, all symmetric chis, sizes, mean compositions, random generators, acceptance_Js, step bounds, kill thresholds below 1/(2(M-1)), tolerances and starting fields close enough to each other", "why_tests_cant": "Convergence for all starting fields in a neighbourhood and all parameters below a bound is a statement about infinitely many infinite iterations; close to the spinodal the iteration gets arbitrarily slow.", "anchors": ["flory/mcmp/_finder_impl.py:multicomponent_self_consistent_metastep", "flory/mcmp/finder.py:CoexistingPhasesFinder.run"]}
{"id": "C84", "title": "phases and random compositions in floating-point arithmetic", "statement": "With every operation rounded (monotone rounding with relative error u, sums in any order, inner products with or without fused multiply-add; doubles with round-to-nearest-even are one case): normalize returns volumes that sum to one up to P+1 roundings (factors between (1-u)^(P+1) and its inverse), keeps zero volumes zero and the order of volumes; mean_fractions is right up to 2P+2 roundings; get_clusters raises exactly when exact arithmetic would, returns as many phases, and keeps the total volume up to P and the amount of each component up to 3P+2 roundings, with fractions that stay in their range up to 2P+2 roundings; get_uniform_random_composition returns fractions at most 1 whose sum is one up to 2n+1 roundings, all nonnegative except possibly the last. What exact arithmetic guarantees fails in doubles: normalized volumes need not sum to one and normalizing again can change them, and the last fraction of a random composition can be negative.", "quantifier": "for all roundings, orders of summation, numbers of phases and components, nonnegative volumes and fractions, labels, and all draws between 0 and 1", "why_tests_cant": "Rounding errors depend on every bit of the inputs and on the order of summation chosen by numpy and BLAS; tests use tolerances and see a few inputs on one machine.", "anchors": ["flory/common/phases.py:get_uniform_random_composition", "flory/common/phases.py:Phases.normalize", "flory/common/phases.py:Phases.mean_fractions", "flory/common/phases.py:Phases.get_clusters"]}
{"id": "C85", "title": "convergence is never reported with infinite or undefined fractions", "statement": "In floating-point arithmetic that keeps infinities and NaN in sums, differences and products and compares NaN as false (double precision does; nothing is assumed about rounding or overflow): if the finder reports convergence, then all fractions, the incompressibilities, the fields, the potentials of interaction and constraints and the volume errors of the last pass are finite, all residues of local constraints are below the tolerance, and all compartments in use have volumes above the kill threshold (none is NaN). If run returns with a reported incompressibility below any number, all returned fractions are finite. The reported field error and the residue of a constraint ignore NaN (with all fields NaN the field error is zero), but the other tests do not.", "quantifier": "for all arithmetics obeying these rules, numbers of components, features and compartments, interactions, entropies, both ensembles, constraints, generators, parameters with nonnegative kill threshold, tolerances and initial states", "why_tests_cant": "Where NaN or infinities first appear depends on the inputs and the platform; tests see only runs that stay finite, and the convergence test compares maxima that may silently ignore NaN.", "anchors": ["flory/mcmp/_finder_impl.py:multicomponent_self_consistent_metastep", "flory/mcmp/finder.py:CoexistingPhasesFinder.run", "flory/ensemble/canonical.py:CanonicalEnsembleCompiled.normalize", "flory/ensemble/grandcanonical.py:GrandCanonicalEnsembleCompiled.normalize", "flory/constraint/linear_local.py:LinearLocalConstraintCompiled.prepare", "flory/constraint/linear_global.py:LinearGlobalConstraintCompiled.prepare"]}
{"id": "C86", "title": "mean composition, incompressibility and mean volume hold in spite of rounding", "statement": "In arithmetic where every operation returns the rounded exact result with relative error u (sums added in any order, no overflow or underflow, nothing assumed about the accuracy of exp) a pass over M compartments with at least one volume above the nonnegative kill threshold raises no exception, and afterwards: with a canonical ensemble the volume-weighted mean of each fraction is the prescribed mean up to 2 M + 4 roundings; fractions are nonnegative and their sum in each used compartment differs from one by at most the reported incompressibility plus ((1+u)^C - 1) (1 + sum); the volumes of the N used compartments sum to N up to (1+u)^(M+4) - 1 times the sizes of the numbers involved. If convergence is reported, the used compartments are exactly those with volume above the threshold and the sums differ from one by at most the tolerance plus this rounding error.", "quantifier": "for all rounding functions with relative error below one, orders of summation, exponential functions with positive values, numbers of components, features and compartments, interactions, both entropies, both ensembles, constraints, generators, parameters and states", "why_tests_cant": "Tests compare single runs with loose tolerances; a bound on the accumulated rounding errors for all inputs and all orders of summation (BLAS, SIMD, pairwise) needs a proof.", "anchors": ["flory/mcmp/_finder_impl.py:multicomponent_self_consistent_metastep", "flory/ensemble/canonical.py:CanonicalEnsembleCompiled.normalize", "flory/ensemble/grandcanonical.py:GrandCanonicalEnsembleCompiled.normalize", "flory/entropy/ideal_gas.py:IdealGasEntropyCompiled.partition", "flory/entropy/ideal_gas_polydispersed.py:IdealGasPolydispersedEntropyCompiled.partition", "flory/mcmp/finder.py:CoexistingPhasesFinder.run"]}
{"id": "C87", "title": "chemical potentials of coexisting phases agree in spite of rounding", "statement": "In arithmetic where every operation returns the rounded exact result with relative error u (sums in any order, no overflow or underflow) and exp has relative error v, take a pass without constraints over compartments of Flory-Huggins components. The exact chemical potentials of a present component, computed from the stored fractions, then differ between two used compartments by at most S times the reported field error plus |incompressibility coefficient| times the reported incompressibility plus 2/(1-u) times the reported volume error, plus rounding errors: 2 (u/(1-u) + v/(1-v)) / size and 4 ((1+u)^N - 1) times the size of the numbers computed with, where N = 3k + 3S + C + 5 with k = 0 for the ideal entropy and k = C for the polydispersed one. If convergence is reported this holds between all compartments above the kill threshold with the tolerance in place of the reported errors; in double precision the constants are (S + |coef| + 3) tol + 2^-50 (1/size + N magnitude). Components with a positive prescribed mean are present in all used compartments.", "quantifier": "for all rounding functions with relative error below one, orders of summation, exponential functions with relative error below one, numbers of components, features and compartments, interaction matrices, positive sizes, both entropies, both ensembles, generators, parameters and states without constraints", "why_tests_cant": "Tests compare a few results with loose tolerances; whether the reported errors bound the imbalance of the stored fractions, and how much rounding can add for arbitrary chi, sizes and summation orders, is a statement about all inputs.", "anchors": ["flory/mcmp/_finder_impl.py:multicomponent_self_consistent_metastep", "flory/mcmp/finder.py:CoexistingPhasesFinder.run", "flory/interaction/flory_huggins.py:FloryHugginsInteractionCompiled.potential", "flory/interaction/flory_huggins.py:FloryHugginsInteractionCompiled.volume_derivative", "flory/entropy/ideal_gas.py:IdealGasEntropyCompiled.volume_derivative", "flory/entropy/ideal_gas_polydispersed.py:IdealGasPolydispersedEntropyCompiled.comp_to_feat"]}
{"id": "C88", "title": "with local constraints every exchange that respects them is balanced", "statement": "For every result of run() with any list of constraints, and for every exchange w (volumes of the components) that does not change the violation of the local constraints (sum_i w_i*(C_ai - T_a) = 0; for a charge constraint: every neutral combination), sum_i w_i*mu_i agrees between any two returned compartments up to sum|w_i|*(N_S*max_abs_omega_diff + |coefficient|*max_abs_incomp) + |sum w_i|*(2*max_abs_js_diff + sum of elastic constants*max_constraint_residue^2). In the grand canonical ensemble every exchange at fixed volume that keeps all constraints costs what the prescribed chemical potentials demand, up to the reported errors. Single chemical potentials need not agree: there is a converged run with all errors zero whose two neutral phases have cation potentials that differ by ln 3.", "quantifier": "every run, any interactions, sizes, features, ensemble, constraints of all kinds with any coefficients, targets, multipliers and elasticities, any exchange vector, any two compartments", "why_tests_cant": "The balance is a statement about all linear combinations respecting constraints in all runs; a test can only evaluate it for chosen mixtures, and comparing single chemical potentials (the obvious test) would fail for correct code.", "anchors": ["flory/constraint/linear_local.py:LinearLocalConstraintCompiled.prepare", "flory/constraint/linear_global.py:LinearGlobalConstraintCompiled.prepare", "flory/mcmp/_finder_impl.py:multicomponent_self_consistent_metastep", "flory/mcmp/finder.py:CoexistingPhasesFinder.run", "flory/ensemble/grandcanonical.py:GrandCanonicalEnsembleCompiled.normalize"]}
{"id": "C89", "title": "random fields and random interactions have the documented distributions", "statement": "If the draws of the generator are independent with the documented laws, then (1) after construction or reinitialize_random() the fields of all features in all compartments are independent normal variables with mean 0 and standard deviation random_std, and for random_std > 0 almost surely all fields are different, so no two compartments start equal; (2) from_random_normal and set_random_chis (on a matrix of floats) give a symmetric matrix whose entries above the diagonal, and on it unless it is to vanish, are independent normal variables with the requested mean and variance; (3) the new fields of all randomly revived compartments are independent and uniform on the range of the fields of each feature, scaled about its middle by revive_scaler, and the fields of living compartments do not change.", "quantifier": "every probability space and generator with such draws, any numbers of components, features and compartments, any standard deviation, any matrix, any pattern of dead compartments, any scale", "why_tests_cant": "A distribution and mutual independence are statements about infinitely many seeds; a finite sample can neither establish the law nor exclude that a draw is used twice for a rare pattern of dead compartments.", "anchors": ["flory/mcmp/finder.py:CoexistingPhasesFinder.reinitialize_random", "flory/interaction/flory_huggins.py:FloryHugginsInteraction.set_random_chis", "flory/interaction/flory_huggins.py:FloryHugginsInteraction.from_random_normal", "flory/mcmp/_finder_impl.py:revive_compartments_by_random"]}
{"id": "C90", "title": "Splitting a component into identical parts changes nothing but the split", "statement": "Let every component of a mixture with the polydispersed entropy be split into parts with the same size and the same feature, such that the mean volume fractions (canonical ensemble) or the scaled activities (grand canonical ensemble) of the parts of a component sum to that of the component. Started from the same fields, volumes, constraints and generator state, the run of the split mixture fails exactly if the run of the original one does. Otherwise both return the same volumes, errors, numbers of steps and final fields; the fraction of a component in every phase is the sum of the fractions of its parts; and the parts share every phase in proportion to their amounts. This includes runs in which compartments die, are revived and are copied. In particular, the polydispersed entropy with equal sizes within each feature returns the phases of the ideal gas entropy with one component per feature.", "quantifier": "all numbers of components, parts and features, sizes, amounts, interactions, constraints, parameters, initial states and generators", "why_tests_cant": "A test compares two runs for one mixture; the equality has to hold after any number of iterations, through any number of dead and revived compartments, and for any constraints.", "anchors": ["flory/entropy/ideal_gas_polydispersed.py:IdealGasPolydispersedEntropyCompiled.partition", "flory/entropy/ideal_gas_polydispersed.py:IdealGasPolydispersedEntropyCompiled.comp_to_feat", "flory/entropy/ideal_gas.py:IdealGasEntropyCompiled.partition", "flory/ensemble/canonical.py:CanonicalEnsembleCompiled.normalize", "flory/ensemble/grandcanonical.py:GrandCanonicalEnsembleCompiled.normalize", "flory/mcmp/finder.py:CoexistingPhasesFinder.run"]}
{"id": "C91", "title": "Coexisting stable phases attract the iteration", "statement": "Let the compartments of a canonical mixture coexist in equilibrium (equal chemical potentials and pressures, prescribed mean composition) with phases that are all stable, that is outside of the spinodal region. For every ratio of acceptance_Js to acceptance_omega below four times the smallest product of a compartment volume and a molecular size, every large enough shift of the interaction and every small enough acceptance_omega, each run without constraints that starts near this state succeeds without revivals, reports errors below any tolerance when given enough steps (the same number for all nearby states; it grows at most like the logarithm of the inverse tolerance), and returns the compositions of the phases with an error that decays geometrically in the number of steps and is at most a constant times the tolerance, and nearby volumes. When the phases are linearly independent the volumes converge, too. In a binary mixture coexisting phases are always stable when two of them differ, so that above the critical point every mean composition between the two phases has a separated state that attracts the iteration.", "quantifier": "all numbers of components, features and compartments, symmetric interactions, sizes, coexisting stable phases, and initial states near them", "why_tests_cant": "A test runs one mixture from one initial state for finitely many steps. That separated phases are stable fixed points of the coupled update of fields and volumes is a statement about all nearby states and arbitrarily long runs.", "anchors": ["flory/mcmp/finder.py:CoexistingPhasesFinder.run", "flory/mcmp/finder.py:CoexistingPhasesFinder.__init__", "flory/entropy/ideal_gas.py:IdealGasEntropyCompiled.partition", "flory/ensemble/canonical.py:CanonicalEnsembleCompiled.normalize", "flory/interaction/flory_huggins.py:FloryHugginsInteractionCompiled.potential"]}
{"id": "C92", "title": "A reservoir selects the phases of least grand potential", "statement": "Let the phases of a mixture be stable and let each of them balance the chemical potentials of the reservoir up to one constant, which is its grand potential per volume. Then for every large enough shift of the interaction and every small enough acceptance_omega, each grand canonical run without constraints and without revivals that starts near these phases, one per compartment with nearly equal volumes, succeeds and reports errors below any small tolerance when given enough steps, a number that grows at most like the logarithm of the inverse tolerance. Every returned compartment has the composition of a phase of least grand potential, up to an error that decays geometrically in the number of steps; the phases of least grand potential stay in their compartments, all other compartments die out and are refilled, and the returned volumes add up to the number of phases of least grand potential. In particular a single phase of least grand potential is returned in every compartment, and stable phases that coexist are all kept.", "quantifier": "all numbers of components, features and compartments, symmetric interactions, sizes, reservoirs, stable phases that balance the reservoir, and initial states near them", "why_tests_cant": "A test runs one reservoir from one initial state. That metastable phases lose against the phases of least grand potential, never the other way round, is a statement about all mixtures, all nearby initial states and arbitrarily long runs, and involves the deaths of compartments in the middle of the run.", "anchors": ["flory/mcmp/finder.py:CoexistingPhasesFinder.run", "flory/mcmp/_finder_impl.py:multicomponent_self_consistent_metastep", "flory/entropy/ideal_gas.py:IdealGasEntropyCompiled.partition", "flory/ensemble/grandcanonical.py:GrandCanonicalEnsembleCompiled.normalize", "flory/interaction/flory_huggins.py:FloryHugginsInteractionCompiled.potential"]}
{"id": "C93", "title": "Equilibria under linear constraints are the fixed points, and both ensembles give the same phases", "statement": "Take any compartments that are incompressible, satisfy the given linear constraints (local ones in every compartment, global ones in the mean) and in which the chemical potential of every component, corrected by the forces of the constraints (multiplier times coefficient minus target), is the same everywhere. A run started from their volumes, fields and multipliers returns exactly these phases with zero errors and zero constraint residue, at the first check, in the canonical ensemble (at their mean composition) and in the grand canonical one (when the corrected potentials are those of the reservoir up to a common constant). Conversely, a pass without dead compartments that reports zero errors and zero residue has phases, fields and multipliers of this kind. Therefore, if constraints on the mean determine the composition, the ensembles agree exactly: coexisting phases of the canonical ensemble are, with suitable multipliers, returned by the grand canonical ensemble under these constraints for any chemical potentials of the reservoir; and phases that the grand canonical ensemble finds without error under these constraints have the targeted mean composition and are returned by the canonical ensemble.", "quantifier": "All numbers of components, features and compartments, interaction matrices, sizes, volumes, any list of local and global linear constraints with any coefficients, targets, elasticities, acceptance ratios and multipliers, any chemical potentials of the reservoir, run settings and states.", "why_tests_cant": "tests/test_consistency.py compares the two ensembles for one ternary mixture at a relative tolerance of 1e-3, and test_constraints checks residues of single runs; whether the volume-derivative and potential terms of the constraints are exactly consistent with each other for all mixtures and multipliers cannot be sampled.", "anchors": ["flory/constraint/linear_local.py:LinearLocalConstraintCompiled.prepare", "flory/constraint/linear_global.py:LinearGlobalConstraintCompiled.prepare", "flory/constraint/linear_global.py:LinearGlobalConstraintCompiled.evolve", "flory/mcmp/_finder_impl.py:multicomponent_self_consistent_metastep", "flory/ensemble/grandcanonical.py:GrandCanonicalEnsembleCompiled.normalize", "flory/ensemble/canonical.py:CanonicalEnsembleCompiled.normalize", "flory/mcmp/finder.py:CoexistingPhasesFinder.run"]}
{"id": "C94", "title": "A search finds stable coexisting phases with positive probability, and its outcome depends on chance", "statement": "Let phases in equilibrium, one per compartment and with equal compartment volumes, be stable and further than 0.01 apart (or equal), with the given mean composition. For every large enough additional_chis_shift, every ratio of acceptance_Js to acceptance_omega below four times the smallest size and every small enough acceptance_omega, find_coexisting_phases returns exactly these phases (each once, compositions and volumes right up to any prescribed accuracy, all reported errors below the tolerance) with a probability bounded below by a positive number that does not depend on the random generator, as soon as max_steps is large enough. The number of returned phases is then the number of different ones. If in addition the mean composition itself is stable (metastable region between binodal and spinodal), the same call also returns a single phase of mean composition with positive probability: the outcome depends on the draw. Repeated independent searches all miss the phases with a probability that decreases at least exponentially with their number, and almost surely one of them finds the phases.", "quantifier": "All numbers of components and compartments, symmetric interactions, sizes, stable coexisting phases, accuracies up to 1/200, standard deviations of the initial fields, kill thresholds, tolerances, revive settings, and all probability spaces on which the draws are independent standard normal variables.", "why_tests_cant": "A test sees a few seeds and cannot show that a probability is positive, nor that both outcomes occur for the same settings.", "anchors": ["flory/shortcut.py:find_coexisting_phases", "flory/mcmp/finder.py:CoexistingPhasesFinder.reinitialize_random", "flory/mcmp/finder.py:CoexistingPhasesFinder.run", "flory/mcmp/_finder_impl.py:multicomponent_self_consistent_metastep", "flory/common/phases.py:Phases.get_clusters"]}
{"id": "C95", "title": "Weakly interacting mixtures mix from any initial fields", "statement": "Fix sizes, a range of positive shifts, a bound B on the initial fields and a bound v > 0 on volume changes. If the Flory parameters are small enough, acceptance_omega is small enough and acceptance_Js is small enough compared to it, then every canonical run without constraints that starts with equal volumes and any fields of magnitude at most B succeeds without revivals and returns the mean composition in every compartment: the error decays geometrically with the number of steps and is at most a constant times the sum of the reported max_abs_omega_diff and max_abs_incomp, all reported errors fall below any tolerance after a number of steps that depends on the tolerance only and grows at most like the logarithm of its inverse, and no volume changes by more than v. Consequently find_coexisting_phases, whose initial fields are random, returns one phase with the mean composition with a probability as near to 1 as wanted.", "quantifier": "All numbers of components, features and compartments, sizes, mean compositions, initial fields within any bound, kill thresholds below 1/2, step bounds, revive settings, crash behaviours, and all probability spaces on which the draws are independent standard normal variables.", "why_tests_cant": "A test starts from a few fields with fixed Flory parameters. It cannot exclude that some other start, far from equilibrium, is trapped in a cycle or in a separated state, nor bound the probability that this happens.", "anchors": ["flory/mcmp/_finder_impl.py:multicomponent_self_consistent_metastep", "flory/mcmp/finder.py:CoexistingPhasesFinder.run", "flory/mcmp/finder.py:CoexistingPhasesFinder.reinitialize_random", "flory/shortcut.py:find_coexisting_phases", "flory/interaction/flory_huggins.py:FloryHugginsInteractionCompiled.potential"]}
{"id": "C96", "title": "The unit of molecular size is arbitrary", "statement": "Sizes are numbers of some unit of volume, and all energies of the project are energies per unit of volume. For every k > 0, dividing the sizes by k and multiplying the interactions, their shift, the initial fields (random_std), the elasticities and acceptance ratios of constraints by k and dividing acceptance_Js by k describes the same system: every pass of the iteration produces the same fractions, volumes, masks, dead and revived compartments, residues and random numbers, and fields and energies multiplied by k, or raises the same exception; a run that returns phases returns the same phases in the other unit after as many passes, and so does find_coexisting_phases with any linear constraints. The free energy density, its Jacobian, the chemical potentials, exchange chemical potentials and the pressure are multiplied by k for every array of compositions, also where they are infinite. (is_stable is not independent of the unit, see C55.)", "quantifier": "all k > 0, all interactions, sizes, mean fractions or activities, linear constraints, generators, states and parameters; all arrays of compositions", "why_tests_cant": "A test compares two units for one mixture and one seed; that no step of the iteration mixes quantities of different dimension is a statement about every state, including those with dead compartments and constraints.", "anchors": ["flory/mcmp/_finder_impl.py:multicomponent_self_consistent_metastep", "flory/mcmp/_finder_impl.py:revive_compartments_by_random", "flory/mcmp/finder.py:CoexistingPhasesFinder.run", "flory/shortcut.py:find_coexisting_phases", "flory/entropy/ideal_gas.py:IdealGasEntropyCompiled.partition", "flory/entropy/ideal_gas_polydispersed.py:IdealGasPolydispersedEntropyCompiled.partition", "flory/constraint/linear_local.py:LinearLocalConstraintCompiled.prepare", "flory/constraint/linear_global.py:LinearGlobalConstraintCompiled.prepare", "flory/free_energy/base.py:FreeEnergyBase.chemical_potentials", "flory/free_energy/base.py:FreeEnergyBase.pressure"]}
{"id": "C97", "title": "Symmetric mixtures: transition, phases of least free energy, and more phases than components", "statement": "Take C >= 3 components of equal size l with the same Flory parameter chi between all unlike components (the mixtures of tests/test_shortcut.py), in equal amounts. Below l*chi = 2(C-1)ln(C-1)/(C-2) the mixed state is the only composition of least free energy. Above, exactly the C phases enriched in one component by the unique order parameter s >= (C-2)/(C-1) with ln((1+(C-1)s)/(1-s)) = l*chi*s have the least free energy; a division of the mixture into phases is best exactly if it consists of these, each with the same share of the volume. At the transition both are best, and the C+1 phases coexist. All these phases are stable from the transition on, the mixed state up to l*chi = C. find_coexisting_phases returns the C phases with positive probability from the transition on, also the mixed state with positive probability below l*chi = C, and C+1 phases out of C components with positive probability at the transition. A reservoir with equal chemical potentials selects the mixed state below and the enriched phases above the transition. The reference exp(-l*chi) of the test suite is within the demanded tolerance of the exact phases, with room for the errors of the search, and is_stable accepts the phases for sizes >= 1.", "quantifier": "all numbers of components C >= 3, sizes, Flory parameters, numbers of compartments in which each phase fills equally many, compositions and divisions compared with, probability spaces and generators; the reference for all C <= 5 and l*chi >= 8", "why_tests_cant": "The tests compare 18 mixtures with an approximation; that no other composition is better, where the transition lies and that the number of phases may exceed the number of components are statements about a continuum of mixtures and compositions.", "anchors": ["flory/shortcut.py:find_coexisting_phases", "flory/mcmp/finder.py:CoexistingPhasesFinder.run", "flory/free_energy/base.py:FreeEnergyBase.free_energy_density", "flory/free_energy/base.py:FreeEnergyBase.is_stable", "flory/interaction/flory_huggins.py:FloryHugginsInteractionBase._energy_impl", "flory/ensemble/grandcanonical.py:GrandCanonicalEnsemble.from_chemical_potential"]}
{"id": "C98", "title": "Scans follow coexisting phases", "statement": "A scan changes interaction and mean composition step by step with set_interaction and set_ensemble and calls run after each change, as the examples for phase diagrams do; the setters keep fields and volumes, so each run starts where the one before ended. Let the phases at the points of a compact range of parameters coexist, be stable and linearly independent, depend continuously on the parameters and occupy one compartment each. If the shift of the interaction is large, acceptance_omega is small and acceptance_Js is at most a fixed multiple of it then there are a step h, a tolerance and a constant B such that every scan of any length that moves by at most h between two runs and starts near the phases of its first point succeeds: every run ends without revivals, with errors below its tolerance, and returns compositions and volumes of the phases at its point up to B times the tolerance, within the same number of steps for all runs, which grows at most like the logarithm of the inverse tolerance. In binary mixtures the continuity of the phases is automatic. With several compartments per phase the same holds for a single change: nearby coexisting phases exist after every small change of interaction and mean composition, and a run that starts in the old phases converges geometrically to the new ones.", "quantifier": "all numbers of components, features and compartments, sizes, compact families of stable coexisting phases, scans of any length, and small changes of the parameters", "why_tests_cant": "A test runs one scan with finitely many points and sees that it did not lose a phase. That no scan with small steps ever does, with an error that does not accumulate over arbitrarily many points, is a statement about all scans and all states they can pass through.", "anchors": ["flory/mcmp/finder.py:CoexistingPhasesFinder.set_interaction", "flory/mcmp/finder.py:CoexistingPhasesFinder.set_ensemble", "flory/mcmp/finder.py:CoexistingPhasesFinder.run", "flory/interaction/flory_huggins.py:FloryHugginsInteraction._compiled_impl", "flory/ensemble/canonical.py:CanonicalEnsemble._compiled_impl"]}
{"id": "C99", "title": "acceptance_omega has a sharp upper limit set by sizes, shift and number of features", "statement": "In a canonical run without constraints, small differences between the fields of two compartments near the mean composition relax in modes; mode mu is multiplied by 1 - acceptance_omega*mu in every pass. For acceptance_omega <= 1, if the modulus of this factor is below one for all modes then every run that starts with equal volumes and nearly equal fields succeeds and converges geometrically to the mean composition; if it is above one for one mode then, arbitrarily near to equal fields, there are fields from which the compartments do not stay near the mean composition, even if the homogeneous mixture is thermodynamically stable. The limit is explicit: differences grow if acceptance_omega times the sum of the rates exceeds twice the number of features, so for every acceptance_omega there is a shift of the interaction above which they grow; for two features with symmetric interactions merging and growth are separated by polynomial inequalities in acceptance_omega, the sum and the product of the two rates, and growth is certain for every acceptance_omega inside the spinodal; for equal interactions the limit is acceptance_omega * S * (chi + shift) * mean molecule size = 2. With the default acceptance_omega 0.002 and additional_chis_shift 1 and equal interactions this means: the number of features times the mean molecule size must stay below 1000.", "quantifier": "all numbers of components, features and compartments, sizes, interactions, shifts, mean compositions, acceptances, and initial fields", "why_tests_cant": "The test suite uses a handful of components of sizes one to two, for which the default step is far below the limit. Where the limit lies, that every start near the homogeneous state converges below it and that no mixture above it is safe are statements about all settings and about runs of unbounded length.", "anchors": ["flory/mcmp/_finder_impl.py:multicomponent_self_consistent_metastep", "flory/mcmp/finder.py:CoexistingPhasesFinder.__init__", "flory/interaction/flory_huggins.py:FloryHugginsInteraction._compiled_impl", "flory/interaction/flory_huggins.py:FloryHugginsInteractionCompiled.incomp_coef"]}
{"id": "C100", "title": "whether some acceptance_omega reaches the mixed state is decided by the mixture and the shift, and the default shift can fail", "statement": "Small differences between compartments near the mean composition relax with complex rates (C99). If all rates have positive real part, then for all small enough acceptance_omega every canonical run without constraints that starts with equal volumes and nearly equal fields converges geometrically to the mean composition; if one rate has negative real part, then for every acceptance_omega there are fields arbitrarily near to equal ones from which the compartments do not stay near the mean composition. For any number of features: if the free energy decreases in one volume-conserving direction and increases in all directions conjugate to it (the mixture has crossed its spinodal), then a rate is negative for every shift with a positive coefficient of incompressibility, in particular for the shift of the code with any positive additional_chis_shift. If the curvature of the free energy is at least alpha times the one of the ideal mixture in all volume-conserving directions, then all rates have positive real part as soon as 4*alpha*S times the coefficient exceeds the unevenness of the features, sum_r d_r (1/d_r + sum_s chi_rs - c)^2 for any c, with d the sums of size times fraction. Stability alone does not suffice: there is a stable mixture of three components of size 200 which, with the default additional_chis_shift of 1, is left for every acceptance_omega, while its compartments merge for all small acceptance_omega with 50.", "quantifier": "all numbers of components, features and compartments, sizes, symmetric interactions, shifts, mean compositions, acceptances, step bounds, kill thresholds below 1/(2(M-1)), and initial fields", "why_tests_cant": "That no acceptance_omega works is a statement about a continuum of settings and about runs of unbounded length; a test that does not converge only says that its settings were unlucky. The failing mixture has a component in traces of 1e-5, which random tests do not draw.", "anchors": ["flory/mcmp/_finder_impl.py:multicomponent_self_consistent_metastep", "flory/mcmp/finder.py:CoexistingPhasesFinder.__init__", "flory/interaction/flory_huggins.py:FloryHugginsInteraction._compiled_impl", "flory/interaction/flory_huggins.py:FloryHugginsInteractionCompiled.incomp_coef"]}
{"id": "C101", "title": "which volume fractions reinitialize_from_phis respects", "statement": "After reinitialize_from_phis(p) a run of one step distributes the mean composition over the compartments in proportion to the Boltzmann factors exp(-l_i sum_s chi_is p_s). The positive fractions phi that were given are returned by this step exactly if their mean over the compartments is the prescribed one and ln(phi_i)/l_i + sum_j chi_ij phi_j is the same in all compartments, for every component. Hence phases that coexist in equal volumes are respected exactly if they have the same pressure; then, without constraints, runs of any length return exactly these phases with zero errors at the first check. Phases that differ only by permutations of components which leave sizes and interactions unchanged have the same pressure. In general coexisting phases do not: there is a binary mixture of molecules of different sizes whose phases coexist in equal volumes and are changed already by the first step.", "quantifier": "all numbers of components, features and compartments, sizes, interactions, mean compositions, positive fractions, tolerances, intervals, generators and parameters for which volumes cannot die within one step", "why_tests_cant": "The condition is an equivalence over all compositions, and exactly coexisting phases of asymmetric mixtures are not available as floating-point numbers.", "anchors": ["flory/mcmp/finder.py:CoexistingPhasesFinder.reinitialize_from_phis", "flory/mcmp/finder.py:CoexistingPhasesFinder.run", "flory/mcmp/_finder_impl.py:multicomponent_self_consistent_metastep"]}
{"id": "C102", "title": "the compiled code, transcribed by program, computes what the theorems are about", "statement": "Let the compiled functions and methods be translated statement by statement from the Python text by a program. For all arguments the translated multicomponent_self_consistent_metastep returns the same diagnostics and leaves the same fields, volumes, fractions, constraints and generator as repeated single passes of the iteration, or raises the same exception; the same holds for the compiled interaction, entropies, ensembles and constraints with their constructors and for counting, masking and reviving compartments, at random or by copying. Hence for the translated text: one step performs one step of the documented scheme; whenever the loop returns, the volumes add up to a number of compartments (that of the living ones if the last step is reported safe) and some volume is at least one; with a threshold in [0,1), non-empty constraints and something alive or revivable, a call for at least one step never fails; a call for no step raises UnboundLocalError; copying, whose inner loop is while True, always ends, and with a non-negative threshold it raises ValueError or leaves every compartment alive with a column of a compartment that was alive, and preserves every weighted total over the living compartments.", "quantifier": "all interaction, entropy, ensemble and constraint objects, parameters, arrays, generators and numbers of steps", "why_tests_cant": "Agreement of two programs for all inputs, including the exceptions they raise, cannot be sampled; and without it theorems could be about a program that was misread.", "anchors": ["flory/mcmp/_finder_impl.py:multicomponent_self_consistent_metastep", "flory/mcmp/_finder_impl.py:revive_compartments_by_random", "flory/mcmp/_finder_impl.py:revive_compartments_by_copy", "flory/mcmp/_finder_impl.py:count_valid_compartments", "flory/mcmp/_finder_impl.py:make_valid_compartment_masks", "flory/constraint/linear_local.py:LinearLocalConstraintCompiled.prepare", "flory/constraint/linear_global.py:LinearGlobalConstraintCompiled.prepare", "flory/entropy/ideal_gas_polydispersed.py:IdealGasPolydispersedEntropyCompiled.partition", "flory/ensemble/canonical.py:CanonicalEnsembleCompiled.normalize"]}
{"id": "C103", "title": "the finder's run and reinitialize methods, transcribed by program, do what the theorems are about", "statement": "Let run, check_field, reset_revive, reinitialize_constraint, reinitialize_random, reinitialize_from_omegas and reinitialize_from_phis of CoexistingPhasesFinder be translated statement by statement from the Python text by a program (log messages, progress bars and the clock left out), calling the translated compiled code and objects. For every finder whose instances fit and all arguments the translated methods raise the exception that the methods of the model raise, or return the same phases and leave the same attributes, generator and diagnostics, so that the next call starts from the same finder again. Hence for the translated text: under the conditions of C34 run returns and stores diagnostics of between one and ceil(max_steps) steps; without local constraints the chemical potentials of a component in two returned compartments differ by at most S*max_abs_omega_diff + |incomp_coef|*max_abs_incomp + 2*max_abs_Js_diff with the stored errors, in either ensemble; reinitialize_from_omegas with the fields of the homogeneous mixture followed by run returns the homogeneous mixture with zero errors.", "quantifier": "all finders whose instances fit, all arguments of the methods and all states of the generator; all mixtures for the consequences", "why_tests_cant": "Agreement of two programs for all inputs, including exceptions and what they leave behind, cannot be sampled; the consequences hold for every result of run.", "anchors": ["flory/mcmp/finder.py:CoexistingPhasesFinder.run", "flory/mcmp/finder.py:CoexistingPhasesFinder.check_field", "flory/mcmp/finder.py:CoexistingPhasesFinder.reset_revive", "flory/mcmp/finder.py:CoexistingPhasesFinder.reinitialize_constraint", "flory/mcmp/finder.py:CoexistingPhasesFinder.reinitialize_random", "flory/mcmp/finder.py:CoexistingPhasesFinder.reinitialize_from_omegas", "flory/mcmp/finder.py:CoexistingPhasesFinder.reinitialize_from_phis"]}
{"id": "C104", "title": "the array code of the free energies, transcribed by program, computes what the theorems are about", "statement": "Let xlogx, the four numeric implementations of FloryHugginsInteractionBase, IdealGasEntropyBase and FreeEnergyBase, and the methods check_volume_fractions, free_energy_density, jacobian, hessian, chemical_potentials, exchange_chemical_potentials, pressure, num_unstable_modes, is_stable and equilibration_error of FreeEnergyBase be translated from the Python text by a program, with numpy's rules for infinities and NaN, for negative and invalid indices, and for broadcasting the leading axes. For every free energy made of an interaction and an entropy, every array of any shape and every index, each translated method returns the same array, with the same leading axes, or raises the same exception as the method of the model that the other properties speak about. Hence for the translated text: each row that chemical_potentials returns for a Flory-Huggins free energy holds negative infinity for absent components and the chemical potential of the theory for all others.", "quantifier": "all numbers of components, interactions, entropies, arrays of any shape (one composition, lists of compositions, more axes), indices, norm orders and axes", "why_tests_cant": "Agreement of two programs for arrays of every shape and every real entry, including which exception is raised, cannot be sampled.", "anchors": ["flory/common/math.py:xlogx", "flory/interaction/flory_huggins.py:FloryHugginsInteractionBase._energy_impl", "flory/interaction/flory_huggins.py:FloryHugginsInteractionBase._jacobian_impl", "flory/interaction/flory_huggins.py:FloryHugginsInteractionBase._hessian_impl", "flory/entropy/ideal_gas.py:IdealGasEntropyBase._energy_impl", "flory/entropy/ideal_gas.py:IdealGasEntropyBase._jacobian_impl", "flory/entropy/ideal_gas.py:IdealGasEntropyBase._hessian_impl", "flory/entropy/ideal_gas.py:IdealGasEntropyBase._jacobian_fractions_impl", "flory/free_energy/base.py:FreeEnergyBase._jacobian_fractions_impl", "flory/free_energy/base.py:FreeEnergyBase.check_volume_fractions", "flory/free_energy/base.py:FreeEnergyBase.jacobian", "flory/free_energy/base.py:FreeEnergyBase.hessian", "flory/free_energy/base.py:FreeEnergyBase.chemical_potentials", "flory/free_energy/base.py:FreeEnergyBase.pressure", "flory/free_energy/base.py:FreeEnergyBase.num_unstable_modes", "flory/free_energy/base.py:FreeEnergyBase.equilibration_error"]}
{"id": "C105", "title": "the constructors and setters, transcribed by program, make the objects the theorems are about", "statement": "Let the constructors of FloryHugginsInteraction, FloryHugginsBlockInteraction, IdealGasEntropy, IdealGasPolydispersedEntropy, CanonicalEnsemble, GrandCanonicalEnsemble, LinearLocalConstraint, LinearGlobalConstraint and Phases with the constructors of their base classes, the setters chis, chis_feat, sizes, phi_means, scaled_activity, Cs and Ts, the methods set_uniform_chis, set_random_chis, from_uniform, from_random_normal and from_chemical_potential, and the functions convert_and_broadcast and make_square_blocks be translated from the Python text by a program, with arrays of any shape and with AttributeError for attributes read before they are assigned. For all arguments each translated piece raises the same exception as the model, or makes an object whose numbers, array shapes and array entries are those of the model's object; setters keep this relation. Hence for the translated text: after the constructor and any sequence of chis, set_uniform_chis and set_random_chis the interaction matrix has one row and column for each component and is symmetric; from_chemical_potential makes the activity size * exp(size * mu) of each component.", "quantifier": "all numbers of components and features, arrays of any shape and content, optional arguments given or not, sequences of modifications, generators that return as many numbers as asked for", "why_tests_cant": "Agreement of two programs for arrays of every shape and entry and after every sequence of modifications, including which exception is raised, cannot be sampled.", "anchors": ["flory/common/utilities.py:convert_and_broadcast", "flory/common/utilities.py:make_square_blocks", "flory/interaction/flory_huggins.py:FloryHugginsInteractionBase.__init__", "flory/interaction/flory_huggins.py:FloryHugginsInteraction.chis", "flory/interaction/flory_huggins.py:FloryHugginsInteraction.set_uniform_chis", "flory/interaction/flory_huggins.py:FloryHugginsInteraction.set_random_chis", "flory/interaction/flory_huggins.py:FloryHugginsInteraction.from_random_normal", "flory/interaction/flory_huggins_block.py:FloryHugginsBlockInteraction.__init__", "flory/interaction/flory_huggins_block.py:FloryHugginsBlockInteraction.chis_feat", "flory/entropy/ideal_gas.py:IdealGasEntropyBase.__init__", "flory/entropy/ideal_gas_polydispersed.py:IdealGasPolydispersedEntropy.__init__", "flory/ensemble/canonical.py:CanonicalEnsemble.__init__", "flory/ensemble/canonical.py:CanonicalEnsemble.phi_means", "flory/ensemble/grandcanonical.py:GrandCanonicalEnsemble.from_chemical_potential", "flory/constraint/linear_local.py:LinearLocalConstraint.__init__", "flory/constraint/linear_global.py:LinearGlobalConstraint.__init__", "flory/common/phases.py:Phases.__init__"]}
{"id": "C106", "title": "the code of Phases and PhasesResult, transcribed by program, agrees with the model", "statement": "Let get_uniform_random_composition and the properties and methods of Phases and PhasesResult (num_phases, num_components, total_volume, mean_fractions, normalize, sort, get_clusters, _copy, from_phases, info and the constructor of PhasesResult) be translated from the Python text by a program, with np.argsort, the random generator and the three functions of scipy as parameters. For all volumes and fractions of consistent shape: the properties are those of the model; normalize and mean_fractions agree with the model when the total volume is not zero; sort and get_clusters raise the same exception as the model or return phases with the same shapes and entries, where the labels are what fcluster returns for the linkage, with method centroid, of the pairwise distances, with criterion distance; with fewer than two phases get_clusters returns its argument and calls nothing of scipy. The methods of PhasesResult return a result whose dictionary has the content the model gives. Hence for the translated text: whatever get_clusters returns has the same total volume and the same amount of every component as before.", "quantifier": "all numbers of phases and components, volumes, fractions, results of argsort, labels, generators, contents of np.empty and dictionaries", "why_tests_cant": "Agreement of two programs for all arrays, all groupings and all orders that argsort may return for ties cannot be sampled.", "anchors": ["flory/common/phases.py:get_uniform_random_composition", "flory/common/phases.py:Phases.total_volume", "flory/common/phases.py:Phases.mean_fractions", "flory/common/phases.py:Phases.normalize", "flory/common/phases.py:Phases.sort", "flory/common/phases.py:Phases.get_clusters", "flory/common/phases.py:PhasesResult.__init__", "flory/common/phases.py:PhasesResult.from_phases", "flory/common/phases.py:PhasesResult._copy"]}
{"id": "C107", "title": "constructor and changing methods of the finder, transcribed by program, agree with the model", "statement": "Let filter_kwargs, compiled of the four base classes, and __init__, check_instance, check_field, reset_revive, the reinitialize_* and the set_* methods of CoexistingPhasesFinder be translated from the Python text by a program into actions on a record of attributes, each of which may be unassigned; reading an unassigned attribute raises AttributeError and what was changed before an exception stays. Then: the translated compiled gives the compiled object or the exception of the model; on an object without attributes the translated constructor raises the exception of the model's constructor or assigns every attribute the value of the model, with the given generator and seed attribute 0 or a new generator seeded by the clock; on an object that agrees with a finder of the model every changing method leaves an object that agrees with the finder the model's method leaves and raises the same exception or none; so does every sequence of such calls, whether they raise or not; the defaults in the text are those of the model. Hence for the translated text: after the constructor and any changing calls the sizes, the settings and the keyword arguments for instances are those of the constructor.", "quantifier": "all numbers of compartments, components and features, objects that can or cannot be compiled, keyword arguments, constraints given alone, in a list or not at all, individual keyword arguments, arrays of any shape, generators, clocks and finite sequences of calls", "why_tests_cant": "Agreement of two programs for all objects, arguments and sequences of calls, including the state left behind by exceptions, cannot be sampled.", "anchors": ["flory/common/utilities.py:filter_kwargs", "flory/interaction/base.py:InteractionBase.compiled", "flory/entropy/base.py:EntropyBase.compiled", "flory/ensemble/base.py:EnsembleBase.compiled", "flory/constraint/base.py:ConstraintBase.compiled", "flory/mcmp/finder.py:CoexistingPhasesFinder.__init__", "flory/mcmp/finder.py:CoexistingPhasesFinder.check_instance", "flory/mcmp/finder.py:CoexistingPhasesFinder.set_interaction", "flory/mcmp/finder.py:CoexistingPhasesFinder.set_entropy", "flory/mcmp/finder.py:CoexistingPhasesFinder.set_ensemble", "flory/mcmp/finder.py:CoexistingPhasesFinder.set_constraints", "flory/mcmp/finder.py:CoexistingPhasesFinder.reset_revive", "flory/mcmp/finder.py:CoexistingPhasesFinder.reinitialize_constraint", "flory/mcmp/finder.py:CoexistingPhasesFinder.reinitialize_random", "flory/mcmp/finder.py:CoexistingPhasesFinder.reinitialize_from_omegas", "flory/mcmp/finder.py:CoexistingPhasesFinder.reinitialize_from_phis"]}
{"id": "C108", "title": "data types and memory layout of the arrays handed to compiled classes", "statement": "The fields of the compiled classes are declared with a data type, a number of axes and C order. Describe an array by shape, strides and data type and follow it through constructors, setters and _compiled_impl. Then: the interaction matrix of FloryHugginsInteraction is handed over as declared after any sequence of calls of constructor, setters, set_uniform_chis and set_random_chis; that of the block interaction is always in C order and as declared unless given in single precision; molecule sizes, numbers of components per feature and targets of constraints always are as declared; mean fractions are as declared exactly if given in double precision and, for more than one component, with one number per component; activities exactly if given in double precision; the matrix of a linear constraint with at least two rows and two columns is as declared exactly if the steps in memory between rows are not smaller than those between columns, so not if it is transposed; any other matrix given to the constructor is; a single row assigned to a constraint with at least two rows and two features never is.", "quantifier": "all shapes, strides (also zero and negative) and data types of the arguments, numbers of components, features and rows, and sequences of calls", "why_tests_cant": "The layout depends on the strides of the argument, which tests leave at the default; the failing cases need transposed or broadcast arguments or integers.", "anchors": ["flory/interaction/flory_huggins.py:FloryHugginsInteraction._compiled_impl", "flory/interaction/flory_huggins.py:FloryHugginsInteraction.set_uniform_chis", "flory/interaction/flory_huggins_block.py:FloryHugginsBlockInteraction._compiled_impl", "flory/entropy/ideal_gas.py:IdealGasEntropy._compiled_impl", "flory/entropy/ideal_gas_polydispersed.py:IdealGasPolydispersedEntropy._compiled_impl", "flory/ensemble/canonical.py:CanonicalEnsemble.phi_means", "flory/ensemble/canonical.py:CanonicalEnsemble._compiled_impl", "flory/ensemble/grandcanonical.py:GrandCanonicalEnsemble._compiled_impl", "flory/constraint/linear_local.py:LinearLocalConstraint.Cs", "flory/constraint/linear_local.py:LinearLocalConstraint._compiled_impl", "flory/constraint/linear_global.py:LinearGlobalConstraint._compiled_impl"]}
{"id": "C109", "title": "compilation, properties and FloryHuggins, transcribed by program, agree with the model", "statement": "Let the constructors of the compiled classes, the methods _compiled_impl with the names and defaults of their parameters, the properties that are read, and FreeEnergyBase and FloryHuggins be translated from the Python text by a program. Then every translated object accepts the keyword arguments of the object of the model and compiles to an instance with the same numbers, shapes and entries or raises the same exception; properties return what the model stores; the constructors of FloryHuggins, assignments to chis and sizes and the compilation of its parts agree with the model. Hence, for the translated text alone: for every FloryHuggins object with at least one component that constructors and successful assignments can give, reading chis and compiling the interaction never raise, the compiled matrix is the one that is read, and the coefficient of incompressibility is the sum over all entries of their distance to the smallest entry, plus the shift (1 by default) times the squared number of components; so it is at least the latter.", "quantifier": "all numbers of components, features and constraints, arrays of any shape, keyword arguments, shifts, generators and finite sequences of assignments", "why_tests_cant": "Agreement of two programs for all objects and arguments, and a bound on a coefficient for all matrices, cannot be sampled.", "anchors": ["flory/interaction/flory_huggins.py:FloryHugginsInteractionCompiled.__init__", "flory/interaction/flory_huggins.py:FloryHugginsInteractionBase._compiled_impl", "flory/interaction/flory_huggins.py:FloryHugginsInteraction._compiled_impl", "flory/interaction/flory_huggins.py:FloryHugginsInteraction.independent_entries", "flory/interaction/flory_huggins_block.py:FloryHugginsBlockInteraction._compiled_impl", "flory/interaction/flory_huggins_block.py:FloryHugginsBlockInteraction.chis_feat", "flory/entropy/ideal_gas.py:IdealGasEntropyCompiled.__init__", "flory/entropy/ideal_gas.py:IdealGasEntropy._compiled_impl", "flory/entropy/ideal_gas_polydispersed.py:IdealGasPolydispersedEntropy._compiled_impl", "flory/ensemble/canonical.py:CanonicalEnsemble._compiled_impl", "flory/ensemble/grandcanonical.py:GrandCanonicalEnsemble._compiled_impl", "flory/constraint/no.py:NoConstraint._compiled_impl", "flory/constraint/linear_local.py:LinearLocalConstraint._compiled_impl", "flory/constraint/linear_local.py:LinearLocalConstraintCompiled.__init__", "flory/constraint/linear_global.py:LinearGlobalConstraint._compiled_impl", "flory/constraint/linear_global.py:LinearGlobalConstraintCompiled.__init__", "flory/free_energy/base.py:FreeEnergyBase.__init__", "flory/free_energy/base.py:FreeEnergyBase.interaction_compiled", "flory/free_energy/base.py:FreeEnergyBase.entropy_compiled", "flory/free_energy/flory_huggins.py:FloryHuggins.__init__", "flory/free_energy/flory_huggins.py:FloryHuggins.from_uniform", "flory/free_energy/flory_huggins.py:FloryHuggins.from_random_normal", "flory/free_energy/flory_huggins.py:FloryHuggins.chis", "flory/free_energy/flory_huggins.py:FloryHuggins.sizes"]}
{"id": "C110", "title": "find_coexisting_phases, transcribed by program, agrees with the model and returns valid phases", "statement": "Let find_coexisting_phases be translated from the Python text by a program, calling the translations of the constructors, of compilation, of the finder's constructor and run, and of the methods of Phases. Then for all arguments it raises the exception that the function of the model raises or returns the same phases with the same entries of info. Any sequence of method calls on a finder, run included, leaves the attributes of the model and gives the same results and exceptions, as long as every run returns. Hence, for the translated text alone: with parameters of the finder in their natural range the function returns at least one and at most as many phases as there are compartments; all volumes are positive and add up to one; the fractions of each phase add up to one within the entry max_abs_incomp of info and are not negative when the mean fractions are not; the phases are sorted by their most concentrated component. And if the fields drawn at the beginning are those of coexisting phases which differ by more than 0.01, exactly these phases are returned, each once, with the volume of their compartments and vanishing errors.", "quantifier": "all numbers of components and compartments, arrays of any shape, constraints, parameters of the finder, generators, argsorts and clusterings that do what scipy documents, and finite sequences of method calls", "why_tests_cant": "Agreement of two programs for all arguments and histories, and properties of the returned phases for all mixtures and random draws, cannot be sampled.", "anchors": ["flory/shortcut.py:find_coexisting_phases", "flory/mcmp/finder.py:CoexistingPhasesFinder.__init__", "flory/mcmp/finder.py:CoexistingPhasesFinder.run", "flory/mcmp/finder.py:CoexistingPhasesFinder.diagnostics", "flory/common/phases.py:Phases.get_clusters", "flory/common/phases.py:Phases.sort", "flory/common/phases.py:PhasesResult.from_phases", "flory/interaction/flory_huggins.py:FloryHugginsInteraction.__init__", "flory/entropy/ideal_gas.py:IdealGasEntropy.__init__", "flory/ensemble/canonical.py:CanonicalEnsemble.__init__"]}
{"id": "C111", "title": "the whole workflow, for the transcribed text alone", "statement": "Let all code be the one translated from the Python text by programs. Make a FloryHuggins object by any of its constructors and any successful assignments, with positive sizes; a canonical or grand canonical ensemble with positive entries; a list of global linear constraints, none of them empty, or None; and a finder from them, with parameters in their natural range. The constructor of the finder returns. After any sequence of calls of run (with positive steps and interval) and of the methods that reset or reinitialize, run returns one phase per compartment: volumes exceed the kill threshold, fractions are positive and add up to one within the reported incompressibility. chemical_potentials of the FloryHuggins object, called with the returned fractions, returns finite numbers, which for any component differ between any two phases by at most N_C max_abs_omega_diff + |coefficient of the compiled interaction| max_abs_incomp + 2 max_abs_js_diff; and equilibration_error returns at most sqrt(phases times components) times that bound.", "quantifier": "all numbers of components and compartments, matrices, sizes, ensembles, lists of global constraints, parameters of the finder, random generators and finite sequences of calls", "why_tests_cant": "The bound relates the result of one part of the program to that of another for all mixtures, histories and random numbers.", "anchors": ["flory/free_energy/flory_huggins.py:FloryHuggins.__init__", "flory/free_energy/base.py:FreeEnergyBase.chemical_potentials", "flory/free_energy/base.py:FreeEnergyBase.equilibration_error", "flory/ensemble/canonical.py:CanonicalEnsemble.__init__", "flory/ensemble/grandcanonical.py:GrandCanonicalEnsemble.__init__", "flory/constraint/linear_global.py:LinearGlobalConstraint.__init__", "flory/mcmp/finder.py:CoexistingPhasesFinder.__init__", "flory/mcmp/finder.py:CoexistingPhasesFinder.run", "flory/mcmp/finder.py:CoexistingPhasesFinder.reinitialize_random", "flory/mcmp/finder.py:CoexistingPhasesFinder.reinitialize_from_omegas", "flory/mcmp/finder.py:CoexistingPhasesFinder.reinitialize_from_phis"]}
{"id": "C112", "title": "constraints of any class: run as translated from the text for them", "statement": "Let the core loop, run and the reinitialize methods be translated by a program for a list of constraints of any class, known only by the methods of ConstraintBaseCompiled. For the constraints of the library this is the translation used in the other properties. Only what the methods do matters: two classes related by a translation of their data give the same phases, fields, diagnostics and exceptions. If evolve never raises on a constraint that comes from the given ones by calls of prepare and evolve, run returns under the same conditions as without constraints. The reinitialize methods initialize every constraint, set all volumes to one and the number of revivals to its maximum, change nothing else but the fields and refuse fields of another shape. When the core loop returns, volumes add up to a whole number of compartments, to that of the living ones if the step is reported safe. When run returns, the stored constraints come from the given ones by prepare with the stored fractions and one evolve with the step of the fields scaled by a factor in (0, 1]; max_constraint_residue is the largest residue returned by evolve, or zero; every phase is one of the computed compartments, has a volume above the threshold, positive fractions and a sum of fractions within max_abs_incomp of one; and chemical potential + potential of the constraints + their volume derivative - sum of potentials times fractions differs between any two phases by at most N_S max_abs_omega_diff + |coefficient| max_abs_incomp + 2 max_abs_js_diff. Constraints without potential and volume derivative thus do not disturb the balance of the chemical potentials.", "quantifier": "all classes of constraints with data of any type, lists of such constraints, Flory-Huggins interactions, entropies of the library, both ensembles, numbers of components, features and compartments, random generators and parameters", "why_tests_cant": "The classes that users write are not known to the authors; the statement is about all of them.", "anchors": ["flory/constraint/base.py:ConstraintBaseCompiled.initialize", "flory/constraint/base.py:ConstraintBaseCompiled.prepare", "flory/constraint/base.py:ConstraintBaseCompiled.potential", "flory/constraint/base.py:ConstraintBaseCompiled.volume_derivative", "flory/constraint/base.py:ConstraintBaseCompiled.evolve", "flory/mcmp/_finder_impl.py:multicomponent_self_consistent_metastep", "flory/mcmp/finder.py:CoexistingPhasesFinder.run", "flory/mcmp/finder.py:CoexistingPhasesFinder.reinitialize_constraint", "flory/mcmp/finder.py:CoexistingPhasesFinder.reinitialize_random", "flory/mcmp/finder.py:CoexistingPhasesFinder.reinitialize_from_omegas", "flory/mcmp/finder.py:CoexistingPhasesFinder.reinitialize_from_phis"]}
{"id": "C113", "title": "interactions of any class: run balances the chemical potentials of their free energy", "statement": "Take an interaction of any class whose potential is the gradient and whose volume_derivative is the value of a differentiable energy density f of the feature fractions, an entropy that acts as an ideal gas with sizes l and features, an ensemble that multiplies the Boltzmann factors by positive numbers, and constraints of any class. When run, as translated by a program, returns, every phase has a volume above the kill threshold, positive fractions, and a sum of fractions within max_abs_incomp of one. Let g = sum phi_i ln(phi_i)/l_i + f(features) and mu_i = g + d_i g - sum_j phi_j d_j g, with the derivative in the sense of calculus. Then mu_i, plus potential and volume derivative of the prepared constraints minus the sum of their potentials times fractions, differs between any two phases by at most N_S max_abs_omega_diff + |incomp_coef| max_abs_incomp + 2 max_abs_js_diff. Constraints without potential and volume derivative drop out. The compiled Flory-Huggins interaction with a symmetric matrix is the case f = 1/2 sum chi phi phi.", "quantifier": "all energy densities and interactions that belong to them, entropies that act as ideal gases, ensembles that scale, lists of constraints of any class, numbers of components, features and compartments, random generators and parameters", "why_tests_cant": "The interactions that users write are not known to the authors, and the statement is about derivatives of arbitrary energy densities.", "anchors": ["flory/interaction/base.py:InteractionBaseCompiled.potential", "flory/interaction/base.py:InteractionBaseCompiled.volume_derivative", "flory/interaction/base.py:InteractionBaseCompiled.incomp_coef", "flory/mcmp/_finder_impl.py:multicomponent_self_consistent_metastep", "flory/mcmp/finder.py:CoexistingPhasesFinder.run"]}
{"id": "C114", "title": "searches with the transcribed text find stable coexisting phases with positive probability", "statement": "Let find_coexisting_phases and all it calls be translated from the Python text by programs, and let scipy cluster as documented. Let phases in equilibrium, one per compartment and with equal compartment volumes, be stable and further than 0.01 apart (or equal), with the given mean composition. For every large enough additional_chis_shift, every ratio of acceptance_Js to acceptance_omega below four times the smallest size, every small enough acceptance_omega and every large enough max_steps, the call returns exactly these phases (each once, compositions and volumes right up to any prescribed accuracy, the entries max_abs_incomp, max_abs_omega_diff and max_abs_js_diff of info below the tolerance) with a probability bounded below by a positive number that does not depend on the generator. Then it returns as many phases as there are different ones. Independent searches all miss the phases with a probability that decreases at least exponentially with their number, and almost surely one of them finds the phases. If the mean composition is stable, too, the same call returns the single phase of mean composition with positive probability as well.", "quantifier": "all numbers of components and compartments, symmetric interactions, sizes, stable coexisting phases, accuracies up to 1/200, parameters of the finder in the given ranges, generators, and probability spaces on which the draws are independent standard normal variables", "why_tests_cant": "A statement about the probability that a search succeeds, for all mixtures; tests draw a few samples from a few mixtures.", "anchors": ["flory/shortcut.py:find_coexisting_phases", "flory/mcmp/finder.py:CoexistingPhasesFinder.run", "flory/mcmp/finder.py:CoexistingPhasesFinder.reinitialize_random", "flory/mcmp/_finder_impl.py:multicomponent_self_consistent_metastep", "flory/common/phases.py:Phases.get_clusters"]}
{"id": "C115", "title": "searches find the phases of all mixtures near a given one, with the accuracy of the tolerance", "statement": "Let find_coexisting_phases and all it calls be translated from the Python text by programs, and let scipy cluster as documented. Let stable phases coexist in a mixture, further than 0.01 apart, with linearly independent compositions and with volumes that are multiples of 1/M for the number M of compartments. Let additional_chis_shift be large enough, acceptance_omega small enough and acceptance_Js in a ratio to it below four times the smallest size. Then there are a distance r > 0, a probability p > 0 and a factor B such that the following holds for every tolerance and for every mixture whose interaction parameters and mean composition differ by at most r from the given ones: stable phases, as many as before and close to those before, coexist in the changed mixture, and the call with enough steps returns exactly these phases with probability at least p. Compositions and volumes are right up to B times the tolerance (and up to any prescribed accuracy up to 1/200), and the entries max_abs_incomp, max_abs_omega_diff and max_abs_js_diff of info are below the tolerance. The number of steps does not depend on the mixture and grows at most like the logarithm of the inverse tolerance. Independent searches all miss the phases with a probability of at most (1-p)^n, and almost surely one of them finds the phases.", "quantifier": "all numbers of components and compartments, symmetric interactions, sizes, stable independent phases with volumes that are multiples of 1/M, all mixtures within the distance r, tolerances, accuracies, parameters of the finder in the given ranges, generators, and probability spaces on which the draws are independent standard normal variables", "why_tests_cant": "A lower bound on a probability that is uniform over an open set of mixtures and over all tolerances; tests draw a few samples from a few mixtures.", "anchors": ["flory/shortcut.py:find_coexisting_phases", "flory/mcmp/finder.py:CoexistingPhasesFinder.run", "flory/mcmp/finder.py:CoexistingPhasesFinder.reinitialize_random", "flory/mcmp/_finder_impl.py:multicomponent_self_consistent_metastep", "flory/common/phases.py:Phases.get_clusters", "flory/interaction/flory_huggins.py:FloryHugginsInteraction._compiled_impl"]}
{"id": "C116", "title": "searches with the transcribed text return one phase when the interaction is weak", "statement": "Let find_coexisting_phases and all it calls be translated from the Python text by programs, and let scipy cluster as documented. Fix the sizes, a positive additional_chis_shift, the number of compartments, a bound on random_std, an accuracy up to 1/200 and a probability below 1. If acceptance_omega is small enough, and then the Flory parameters, the ratio of acceptance_Js to acceptance_omega and the tolerance are small enough, the call with enough steps returns, with at least this probability, a single phase: arrays of shapes (1,) and (1, C) with a volume of 1 and the mean composition up to the accuracy, and with max_abs_incomp, max_abs_omega_diff and max_abs_js_diff of info below the tolerance. The bounds do not depend on the mean composition or the generator.", "quantifier": "all numbers of components and compartments, sizes, weak symmetric interactions, mean compositions, parameters of the finder in the given ranges, generators, and probability spaces on which the draws are independent standard normal variables", "why_tests_cant": "A statement about the probability over all random fields and about all weak interactions and all mean compositions.", "anchors": ["flory/shortcut.py:find_coexisting_phases", "flory/mcmp/finder.py:CoexistingPhasesFinder.run", "flory/mcmp/finder.py:CoexistingPhasesFinder.reinitialize_random", "flory/mcmp/_finder_impl.py:multicomponent_self_consistent_metastep", "flory/common/phases.py:Phases.get_clusters", "flory/interaction/flory_huggins.py:FloryHugginsInteraction._compiled_impl"]}
{"id": "C117", "title": "phase diagrams: scans with the transcribed text follow coexisting phases", "statement": "Let the finder, the interaction, the ensemble and all they call be translated from the Python text by programs. Along a compact family of interactions and mean compositions let M stable phases with independent compositions coexist. A script makes a finder with M compartments and then, point by point, calls set_interaction, set_ensemble and run, as examples/binary_phase_diagram.py does. If additional_chis_shift is large enough, acceptance_omega small enough, the steps along the family small enough, the tolerance small enough and max_steps at least a constant times the logarithm of the inverse tolerance, no call raises and every run, in scans of any length, returns arrays of shapes (M,) and (M, C) with the volumes and compositions of the phases at its point up to a constant times the tolerance; the errors in diagnostics are below the tolerance and no compartment was revived. This holds after reinitialize_from_omegas with fields near those of the first point (known up to an offset per component), and, if the phases of the first point have equal volumes, with a probability of at least p > 0 from the random fields of the constructor, where p depends neither on the tolerance nor on the later points. If the compositions of the phases differ by more than 0.01, by a margin of the order of the tolerance, then get_clusters on each result does not raise either and returns these M phases, in any order.", "quantifier": "all compact families of coexisting phases, sizes, parameters of the finder in the given ranges, scans of any length with small steps, ways to make the interaction and ensemble objects (constructor and setters), initial interactions and ensembles, generators, and probability spaces on which the draws are independent standard normal variables", "why_tests_cant": "Tests run a few points of one phase diagram; the claim covers scans of any length through any compact family and gives one error bound, one step size and one number of steps for all of them.", "anchors": ["flory/mcmp/finder.py:CoexistingPhasesFinder.run", "flory/mcmp/finder.py:CoexistingPhasesFinder.set_interaction", "flory/mcmp/finder.py:CoexistingPhasesFinder.set_ensemble", "flory/mcmp/finder.py:CoexistingPhasesFinder.reinitialize_from_omegas", "flory/mcmp/finder.py:CoexistingPhasesFinder.__init__", "flory/mcmp/_finder_impl.py:multicomponent_self_consistent_metastep", "flory/interaction/flory_huggins.py:FloryHugginsInteraction._compiled_impl", "flory/ensemble/canonical.py:CanonicalEnsemble._compiled_impl", "flory/common/phases.py:Phases.get_clusters"]}
{"id": "C118", "title": "polydisperse mixtures: the whole workflow of the transcribed text", "statement": "Let the classes be translated from the Python text by programs. Several components may share a feature: chis_feat is a symmetric matrix for the features, every feature has at least one component, and the sizes are positive. FloryHugginsBlockInteraction and IdealGasPolydispersedEntropy accept these arrays, the attribute chis of the interaction holds for each pair of components the entry of their features, and CoexistingPhasesFinder with these objects, an ensemble with positive entries and global constraints on features or none is made without error. After any calls that reinitialize or run, run returns arrays of shapes (M,) and (M, C), with volumes above the kill threshold and positive fractions that add up to 1 within the reported incompressibility. chemical_potentials of the free energy with the interactions and sizes of the single components returns finite numbers for the fractions, and for each component they differ between two phases by at most S times the reported error of the fields, plus the incompressibility coefficient times the reported incompressibility, plus twice the reported error of the volumes, where S is the number of features.", "quantifier": "all numbers of features and of components per feature (at least one), symmetric feature matrices, positive sizes, canonical and grand-canonical ensembles with positive entries, global constraints, parameters of the finder in their natural ranges, histories of calls, generators, and arguments of run", "why_tests_cant": "A test solves one polydisperse mixture with one seed; the claim holds for every mixture, every history of calls and every random stream, and it compares the finder on features with the free energy of the single components.", "anchors": ["flory/interaction/flory_huggins_block.py:FloryHugginsBlockInteraction.__init__", "flory/interaction/flory_huggins_block.py:FloryHugginsBlockInteraction._compiled_impl", "flory/entropy/ideal_gas_polydispersed.py:IdealGasPolydispersedEntropy.__init__", "flory/entropy/ideal_gas_polydispersed.py:IdealGasPolydispersedEntropy._compiled_impl", "flory/mcmp/finder.py:CoexistingPhasesFinder.__init__", "flory/mcmp/finder.py:CoexistingPhasesFinder.run", "flory/free_energy/base.py:FreeEnergyBase.chemical_potentials"]}
{"id": "C119", "title": "local constraints: the whole workflow of the transcribed text", "statement": "Let the classes be translated from the Python text by programs. A script makes a FloryHuggins object with positive sizes in any way, an ensemble with positive entries, any list of LinearLocalConstraint and LinearGlobalConstraint objects and a CoexistingPhasesFinder, as examples/coexisting_with_constraints.py does. The finder is made without error. After any calls that reinitialize or run, run returns arrays of shapes (M,) and (M, C), with volumes above the kill threshold and positive fractions that add up to 1 within the reported incompressibility. In each returned phase every equation of every local constraint holds up to the reported residue. chemical_potentials of the free energy returns finite numbers for the fractions, and for each exchange w of volume between components that adds up to zero and keeps the local constraints, the potentials weighted by w differ between two phases by at most the sum of |w| times (C times the reported error of the fields plus the incompressibility coefficient times the reported incompressibility).", "quantifier": "all numbers of components, interactions and sizes made by any constructor and setters, canonical and grand-canonical ensembles with positive entries, lists of local and global constraints with at least one equation each, parameters of the finder in their natural ranges, histories of calls, generators, arguments of run, pairs of phases and exchanges", "why_tests_cant": "A test solves one charged mixture with one seed and cannot tell which combinations of chemical potentials must agree; the claim covers all exchanges that respect the constraints, for all mixtures, constraints and histories.", "anchors": ["flory/constraint/linear_local.py:LinearLocalConstraint.__init__", "flory/constraint/linear_local.py:LinearLocalConstraint._compiled_impl", "flory/constraint/linear_global.py:LinearGlobalConstraint._compiled_impl", "flory/mcmp/finder.py:CoexistingPhasesFinder.__init__", "flory/mcmp/finder.py:CoexistingPhasesFinder.run", "flory/mcmp/_finder_impl.py:multicomponent_self_consistent_metastep", "flory/free_energy/base.py:FreeEnergyBase.chemical_potentials"]}
{"id": "C120", "title": "polydisperse mixtures with local constraints: the whole workflow of the transcribed text", "statement": "Let the classes be translated from the Python text by programs. A script makes a FloryHugginsBlockInteraction from a symmetric matrix of the features, an IdealGasPolydispersedEntropy with positive sizes and at least one component per feature, an ensemble with positive entries, any list of LinearLocalConstraint and LinearGlobalConstraint objects on the features and a CoexistingPhasesFinder. All are made without error. After any calls that reinitialize or run, run returns arrays of shapes (M,) and (M, number of components), with volumes above the kill threshold and positive fractions that add up to 1 within the reported incompressibility. In each returned phase every equation of every local constraint, with the coefficient of its feature for each component, holds up to the reported residue. For each exchange w of volume between components that adds up to zero and keeps the local constraints, the chemical potentials of the free energy with the interactions of the components, weighted by w, differ between two phases by at most the sum of |w| times (number of features times the reported error of the fields plus the incompressibility coefficient times the reported incompressibility).", "quantifier": "all numbers of features, numbers of components per feature, symmetric matrices, sizes, canonical and grand-canonical ensembles with positive entries, lists of local and global constraints with at least one equation each, parameters of the finder in their natural ranges, histories of calls, generators, arguments of run, pairs of phases and exchanges", "why_tests_cant": "No test or example of the repository combines shared features with constraints; a mistake in the map from features to components would show only for such mixtures, and a run with one seed cannot tell which combinations of chemical potentials must agree.", "anchors": ["flory/interaction/flory_huggins_block.py:FloryHugginsBlockInteraction.__init__", "flory/entropy/ideal_gas_polydispersed.py:IdealGasPolydispersedEntropy._compiled_impl", "flory/constraint/linear_local.py:LinearLocalConstraint._compiled_impl", "flory/constraint/linear_global.py:LinearGlobalConstraint._compiled_impl", "flory/mcmp/finder.py:CoexistingPhasesFinder.__init__", "flory/mcmp/finder.py:CoexistingPhasesFinder.run", "flory/mcmp/_finder_impl.py:multicomponent_self_consistent_metastep", "flory/free_energy/base.py:FreeEnergyBase.chemical_potentials"]}
