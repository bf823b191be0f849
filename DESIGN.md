# Formal model of `flory` in Lean 4 — design

## Approach

`/repo/flory` is about 3000 lines of numerical Python.  Its logic is a small core
(self-consistent iteration, killing/reviving of compartments, convergence loop, clustering
and sorting of the result) plus analytic formulae (free energies, Jacobians, Hessians,
constraint forces).  Both are modelled as total Lean functions that mirror the Python
branch by branch, and each property of `properties.jsonl` becomes a theorem about them.

* Numbers.  Everything that needs only field operations and comparisons is generic over a
  linearly ordered field `K`; everything with `exp`/`log` is over `ℝ`.  Floating point is
  not modelled (no rounding, overflow, NaN), with four exceptions: rounding in `phases.py`
  (`Model/Rounded.lean`, C84), the iteration with arbitrary arithmetic (`Model/Floats.lean`, `Model/FloatParts.lean`, C85 to C87), infinities and NaN of the free-energy API (`log 0 = -inf`, `inf - inf = nan`, `nan_to_num`) have an explicit type,
  and scalar division by zero in compiled code is an exception (`ZeroDivisionError`, the
  default `error_model` of numba), never Lean's `x / 0 = 0`.
* Exceptions are values: `Py α = Except PyErr α`.  Index errors that numba would not detect
  (undefined behaviour) are the exception value `outOfBounds`.
* Loops.  `for i in range(n)` is `forRange n`, a left fold that threads the loop state;
  vectorised numpy expressions are pointwise lambdas; `while True` is recursion on the
  decreasing counter; `break` is an early return of the recursive loop function.
* Random numbers.  A generator is an arbitrary state type `G` with arbitrary transition
  functions (`Rng G K`); theorems quantify over all of them, assuming only that `uniform(-1,1)`
  is in `[-1,1]` and `integers(0,n)` is below `n` (`Rng.Ok`).
* External libraries.  `scipy` clustering is an arbitrary labelling, except in C81, where it is any result
  of centroid linkage cut at the distance (every way of breaking ties); `np.argsort` is an arbitrary
  function returning a sorting permutation; `eigvalsh` is the spectrum of a symmetric matrix
  (Mathlib).
* Finder objects are records; a history is a list of calls, each of which returns a new
  record and a result or exception, so exception safety can be stated.

Files: `Verif/Model/*` (model, every definition cites file and lines), `Verif/Spec/*`
(small independent specifications), `Verif/Gen/*` (written by `tools/transcribe.py`, `tools/transcribe_arrays.py`, `tools/transcribe_objects.py`, `tools/transcribe_phases.py`, `tools/transcribe_finder.py`, `tools/transcribe_compile.py` and `tools/transcribe_shortcut.py`), `Verif/Lemmas/*` (helper lemmas), `Verif/Props/*`
(the property theorems with non-vacuity examples).

## Plan per property

| id | model | proof |
|----|-------|-------|
| C01 | `Phases.normalize`, `mean_fractions` | algebra over finite sums |
| C02 C03 | `Phases.sort` via arbitrary argsort + stable lexsort | permutation, sortedness of merge sort |
| C04 C05 C06 | `get_clusters` for an arbitrary labelling | fibrewise sums, convex combinations; C06 expected false: counterexample |
| C07 | shape check on array shapes of any rank | case analysis |
| C08 | `info` dictionaries as references into a heap | invariant over operation lists |
| C09 | loop with arbitrary draws in [0,1] | loop invariant |
| C10 | `filter_kwargs`, dict merge | list lemmas |
| C11 | `make_square_blocks` through `np.repeat` | index map of repeat |
| C12 C13 | interaction object with dtype, setters, histories | invariant over histories; C13 expected false after integer `set_uniform_chis` |
| C14 C15 C16 | energy, Jacobian, Hessian, compiled interaction | `HasDerivAt`, finite sums |
| C17 C18 | block interaction | sums over blocks; C18 expected false (missing attribute) |
| C19 C20 C21 | ideal-gas energy, Jacobian, Hessian | `HasDerivAt` of `x log x`; C20 expected false for sizes ≠ 1 |
| C22 C23 | compiled polydisperse entropy with running index | loop invariant; zero-sized feature expected to fail |
| C24 C25 C26 | `normalize` of both ensembles | algebra |
| C27 C28 C29 | constraints `prepare`/`evolve` | derivatives of the documented energy, maxima |
| C30–C33 | compartments functions | loop invariants, termination by counter |
| C34–C38 | one iteration, any number of iterations | invariants; C35, C38 expected false as documented, bounded versions |
| C39 C40 C42 | `run` | exact identity for the chemical potential in terms of the reported errors |
| C41 | `run` loop | integer arithmetic |
| C43–C46 C62 | finder histories; heap of arrays for C46 | invariants; C44, C45, C46 expected false in part |
| C47 C48 | one iteration | permutation of sums |
| C49–C57 | free-energy API | derivatives, spectral theorem; C55 expected false for sizes ≠ 1 |
| C58 | constructors | case analysis |
| C59 | `find_coexisting_phases` | composition of C01–C05, C40 |
| C60 C61 | extended free energy, stationary state | algebra with `exp`/`log` |
| C63 C64 C67 | coexistence conditions as a separate specification; extended free energy | zero errors ⇔ equilibrium; `HasDerivAt` in every variable |
| C65 | the documented scheme as a separate specification | one pass of the code is one step of the scheme |
| C66 | convexity of the free energy on incompressible compositions | monotone gradients, sharp bound of the logarithmic mean |
| C68 | passes from uniform fields | closed form of n passes, induction |
| C69 | constructor, history, run, independent free-energy API | composition of C34, C39, C40, C43, C56 |
| C70 | objects with property setters; numpy broadcasting | invariant over assignment histories |
| C71 C72 | two runs related by a simulation that survives as long as nothing dies | simulation through all loops |
| C73 | run loop split in two | append lemma of the loop |
| C74 | run errors bound the imbalance (C39, C40) | compactness: limits of nearly balanced phases are balanced |
| C75 | binary free energy on the segment | at most two spinodal points (Rolle), common tangents are unique; C74 for runs |
| C76 | binary free energy on the segment | minima of the energy minus a linear function give a common tangent; least entropic curvature; C75 |
| C77 | free energy on the simplex, partitions into any number of phases | convex hull of the graph is compact (Caratheodory), supporting plane (Hahn-Banach), first-order conditions at touching points |
| C78 | constructor and the three reinitialization methods | loop invariant of the draws, row by row |
| C79 | stick breaking as a function of the draws; Mathlib's beta distribution | induction over components, Fubini and scaling of Lebesgue measure |
| C80 | fixed points for an arbitrary scaling of Boltzmann factors | chemical potentials of a pass without errors, both directions |
| C81 | Relational model of pdist, centroid linkage and distance cut (any tie breaking): clusters recover groups of compositions; number and composition of the phases that the shortcut returns for binary mixtures; recovery of drawn equilibria | groups separated, groups merged, phases in equilibrium that are hidden by the cut-off |
| C82 | Model of numpy's vector and matrix norms (singular values as roots of eigenvalues of the Gram matrix); characterise zero errors for every order and axis; compare orders; find the orders and absent components for which zero does not mean balance | balanced and unbalanced pairs; overlooked imbalance; phase without a component |
| C83 | Linearise a pass around equal compartments; find a quadratic form that every pass decreases (Lyapunov function; indefinite if unstable), by compactness; bound the nonlinear remainder; follow the form through metasteps and runs | stable and unstable binary mixture with the code's shift; a stable run; three components on both sides of the spinodal |
| C84 | Multiplicative error bounds (`UpTo`), induction over the way a sum was added up; loop invariant for the random composition; exact evaluation of roundings for the witnesses | volumes 1, 4, 1 in doubles: normalized sum 1-2^-53, not idempotent; seven components with last fraction -2^-52; clusters with two labels |
| C85 | The iteration with arbitrary operations on numbers (`Model/Floats.lean`, equal to the exact model for exact operations); finiteness traced backwards from the reported maxima | doubles with infinities and NaN: they obey the rules, a pass and a run that converge, a pass with NaN fields and reported field error zero |
| C86 | The iteration and the entropies with rounded operations (`Model/Floats.lean`, `Model/FloatParts.lean`); multiplicative error bounds for the means, absolute ones for sums with cancellation | doubles: a pass over two compartments with different fields and a converged step |
| C87 | A calculus of rounding errors relative to the size of the terms (`Lemmas/ErrCalc.lean`) through the whole pass, then the identity for the chemical potentials of C39 | doubles: a converged step with two compartments with different fields |
| C88 | Weighted sum of the identity for chemical potentials of C39: a local constraint shifts the potentials by `κ·viol² − (C−T)·force`, which drops out of exchanges that keep the constraint | a salt solution with charge neutrality in both ensembles; a fixed point with different potentials of the ions |
| C89 | Which draw ends up in which array element (loop invariants; distinct elements use distinct draws), then transport of laws and independence along injections and affine maps; independent variables without atoms almost surely differ | a generator reading a product measure, demo finder with six fields, three compartments of which one is dead, three components |
| C90 | Relation between the states of the two runs (equal fields, volumes, constraints and generator; fractions related by sums and shares) preserved by every step of the loop, revival and copying | demo mixture with one component split 1 : 2; four parts of three components |
| C91 | Reduction of a pass to a map of the deviations of fields and volumes, a quadratic form that its linearisation decreases, perturbation to the full map, geometric decay along the run; for binary mixtures Rolle's theorem on the common tangent | `Props/Separated.lean` |
| C92 | Each compartment converges on its own, since a reservoir does not couple the compositions; the volumes of phases of larger grand potential then fall by a fixed amount per pass until they die, which the additive renormalisation of the volumes passes on to the survivors; a potential function of the number of survivors along the run | `Props/Selection.lean` |
| C93 | A prepared constraint that holds adds minus its force to the chemical potential, so all errors vanish and the multipliers stay; conversely zero errors give balance, fields and constraints; constraints that determine the composition absorb any chemical potentials of the reservoir | Donnan equilibrium of ions and a solvent with two different electric potentials; binary coexistence against an arbitrary reservoir; a pass under a constraint with multiplier one |
| C94 | The fields that lead to the phases (C91) contain a box around the equilibrium fields, with a number of steps uniform over the box; independent normal draws hit the box with the product of positive Gaussian measures; clustering, sorting and normalizing keep the phases (C81) | Eight compartments of a symmetric binary mixture with metastable mean composition (5/16, 11/16): both outcomes; infinitely many independent searches meet both almost surely |
| C95 | Two distances, the spread of the mean fields over the compartments and the deviation of the field differences between features from those of the mixture, are combined into a function that every pass decreases by a factor below 1, arbitrarily far from equilibrium; the volumes change by a geometric series; the same estimates bound the distance by the reported errors; Gaussian fields stay bounded with a probability near 1 | Three components of sizes 1, 2, 30 with weak repulsion in eight compartments, noise of strength 5, default shift: one phase with probability at least 99 % |
| C96 | Every part of a pass commutes with the change of unit (loops are homomorphisms); a run that stopped early is the run of as many steps with tolerance 0 | ternary mixture with a local and a global constraint, unit a hundred times larger |
| C97 | Compositions of least free energy have at most one enriched component (C77 and a second-order argument), then convexity in the order parameter; searches by C94, reservoirs by C92 | three components with chi = 4 ln 2 and phases (2/3, 1/6, 1/6); five components of size 1.2 with chi = 8; metastable mixture with chi = 2.9 |
| C98 | the contraction of C91 is made uniform on compact families (coercivity and decrease of the quadratic form on T × sphere, constants of local convergence that hold in a neighbourhood of the phases, finite subcover); between runs uniform continuity moves the state by little; persistence of phases by the inverse function theorem | scan of the symmetric binary mixture through `scanFinder`, four compartments with two phases |
| C99 | a pass applies `1 - acceptance_omega * R(d)` to the difference of fields, with loads `d` between those of the two compartments; damped modes give a contracting form (powers tend to zero by Gelfand's formula), an amplified mode gives a growing form (Stein equation with a factor that avoids the finite spectrum); both persist for nearby loads; explicit limits from trace, determinant and Jury conditions | default settings with inert molecules of size 400 and 600; a stable mixture with `acceptance_omega` 0.002 and 1; an unstable one; the total of the rates |
| C100 | the determinant of the response is that of a symmetric matrix times the product of the loads; one negative direction makes it negative (rank-one update to a positive definite matrix), so that the intermediate value theorem gives a negative rate; work of a change against the response, by completing the square, is positive for large coefficients, which makes the real parts of all rates positive; finitely many rates give the bound on the step | three components of which two repel each other; the stable mixture with traces of the third component, for every `acceptance_omega` |
| C101 | the fields are those of the phases without their pressure; one pass computes the normalised Boltzmann factors of these fields, and taking logarithms gives the equivalence; with equal pressures the state is the fixed point of C63 | the symmetric mixture with compositions 1/4 and 3/4 stays; a mixture with sizes 1 and about 1/3 and compositions 1/4 and 1/2 is changed |
| C102 | `tools/transcribe.py` writes `Verif/Gen` from the syntax tree; most methods agree with the model by unfolding; loops over tuples of variables are mapped to loops over records (homomorphisms of loops), integer counters to natural numbers; the body of the main loop is the model's pass, and induction over the steps follows the variables that are unbound before the first step; `while True` is the least fixed point (a loop that does not end would be an error) and is shown to end by induction on the number of living compartments in the list | demo mixture with all kinds of constraints, seven steps; one step compared with the documented scheme |
| C103 | `tools/transcribe.py` writes `Verif/Gen/Finder.lean`; the body of the outer loop with its `break` is matched with one turn of the model's loop, variables that are unbound before the first turn with the optional diagnostics; induction over the turns, then the copies by C102; the record of attributes after a method is that of the model's finder after it; consequences from C34, C39, C41 and C61 | new finder with two constraints run by both; demo mixture with a global constraint; homogeneous fields for a mixture that separates |
| C104 | `tools/transcribe_arrays.py` writes `Verif/Gen/FreeEnergy.lean`: implementations per composition, public methods on arrays with leading axes; operations on two arrays of the same leading shape are operations on their items; the extra axis of `np.atleast_1d` and the mean over phases by the rules of broadcasting; counting by a sum of indicators; formula from C21 | one composition with an absent component, index counted from the end, invalid index; shapes with several axes |
| C105 | `tools/transcribe_objects.py` writes `Verif/Gen/Objects.lean`; an object is the record of its attributes, base-class constructors and setters are written out in place; relations say that numbers, shapes and entries agree, each operation preserves them; the axis loop of `make_square_blocks` by induction; index assignment by induction over the list of places; symmetry by induction over the modifications | scalar for two components; matrix of constraints with three axes raises; generator with the right number of values; a related pair and a reached object |
| C106 | `tools/transcribe_phases.py` writes `Verif/Gen/Phases.lean`; sums over a boolean mask are sums over all phases with a condition; the loop over the clusters by induction over the labels; comparison of lists of indices as natural numbers and as bounded indices; inherited methods by the class of `_copy` | two phases with mean composition 5/8; the two phases as one cluster; a random composition of three components |
| C107 | `tools/transcribe_finder.py` writes `Verif/Gen/FinderObject.lean`; actions as functions of the state that keep it when they raise; attributes with `Option`; the constructor in four parts; loops over constraints by induction; sequences of calls by induction | a finder with two constraints and three compartments; then an interaction with a wrong number of features and fields of a wrong shape |
| C108 | strides of copies, views and elementwise results written down from numpy's rules; the entry with given indices lies where C order puts it, for all indices, in terms of strides; cases by number of axes | integer, transposed, repeated and single precision arguments that do and do not arrive as declared |
| C109 | `tools/transcribe_compile.py` writes `Verif/Gen/Compile.lean`; relations between records of attributes and instances of the model; the smallest entry by its two characteristic properties; sequences of assignments by induction | two components with an unsymmetric matrix; no components; a shift given by keyword and not given |
| C110 | `tools/transcribe_shortcut.py` writes `Verif/Gen/Shortcut.lean`; the translated object is converted to the record of the translated `run` and back, and the relations of C102, C106, C107 and C109 are composed; what is said about the text alone follows from C59 and C81 | defaults with sixteen compartments; phases (1/4, 3/4) and (3/4, 1/4) whose fields are drawn |
| C111 | composition of C104, C105, C107, C109 and C110 with C69 along a history; the coefficient by the characteristic properties of the smallest entry | two components of sizes 1 and 2, canonical with a global constraint, run twice; grand canonical with three compartments |
| C112 | `tools/transcribe.py` writes the loop and the finder a second time for abstract constraints; both are instances of one program over the operations on constraints, which commutes with translations of data; a pass for abstract constraints is a pass of the model with constraints that only report the potentials, so that C34, C39 and C40 apply; induction over the turns keeps that constraints come from the given ones | nonlinear constraint on the product of two fractions with multipliers, also in another representation; constraints of the library; constraint that only counts |
| C113 | a pass for any interaction: logarithm of the fractions, field error and local energy add up to the gradient terms of the density (as in C39, without the Flory-Huggins form); the derivative of the free energy density by the chain rule; the source of a run by C112 | three-body interaction `3 φ₀² φ₁`; Flory-Huggins |
| C114 | C94 for the model, and C110: labels that scipy gives make the event of the model part of the event of the text | binary mixture with metastable mean composition and eight compartments; repeated searches |
| C115 | warm starts (C98) from the fields of the given phases: draws near these fields end in the phases of each nearby mixture; clusters (C81) of what the run returns; C110 for the text | binary mixtures near the one with one eighth of composition (3/4, 1/4) and eight compartments |
| C116 | the search of the model (C95) and the agreement of the text with the model (C110) | three components of sizes 1, 2 and 30, eight compartments, one phase with a probability of at least 99 % |
| C117 | the scans of the model (C98), the agreement of setters, constructor and `run` of the text with the model (C107, C110), and the probability that normal draws fall into intervals | the loop of `examples/binary_phase_diagram.py` for a symmetric binary mixture with two compartments, from random and from given fields |
| C118 | the balance of chemical potentials for shared features (C39), histories of the finder (C34), and the agreement of constructors, compilation and finder of the text with the model (C105, C107, C110) | the objects of `examples/polydispersed.py`: four components, two features; the same mixture at given activities with a global constraint on features |
| C119 | residues and exchanges of the model (C29, C88), histories of the finder (C34), and the agreement of constructors, compilation and finder of the text with the model (C105, C107, C110) | the objects of `examples/coexisting_with_constraints.py`: two polymers, two ions and a solvent with neutral phases; a mixture at given activities with a global constraint |
| C120 | residues and exchanges for shared features (C29, C88), histories of the finder (C34), and the agreement of constructors, compilation and finder of the text with the model (C105, C107, C110) | the mixture of `examples/polydispersed.py` with equal amounts of both features in each phase |

Where the code violates the property, the negation is proved with a concrete witness and the
part that does hold is proved as `…_partial`.

## Outcome per property

The full statements are in `properties.jsonl`.  The table is generated by `tools/design.py` from
`tools/claims.txt`, from which `tools/manifest.py` also generates `MANIFEST.json`.

<!-- outcomes -->
| id | property | outcome | theorems | what is missing, restricted or false |
|---|---|---|---|---|
| C01 | normalize keeps the physics | proved | `C01_normalize` |  |
| C02 | sort only reorders | proved | `C02_sort_reorders`, `C02_sort_succeeds` |  |
| C03 | sort order is canonical | proved | `C03_sort_canonical`, `C03_most_concentrated` |  |
| C04 | clustering conserves matter | proved | `C04_clusters_conserve` | For every labelling the clustering library may return. |
| C05 | clustered compositions stay inside their group | proved | `C05_clusters_inside` | For every labelling the clustering library may return. |
| C06 | clustered phases are returned sorted | partial | `C06_sorted_partial`, `C06_not_sorted` | The property is false: get_clusters does not sort (witness). Proved: single phases, and sorting after clustering. |
| C07 | Phases accepts exactly consistent shapes | proved | `C07_shapes`, `C07_again` |  |
| C08 | result metadata survives transformations | proved | `C08_info_kept`, `C08_info_independent`, `C08_single_phase_shared` | get_clusters of fewer than two phases returns the object itself, so there is no copy in that case. |
| C09 | random compositions lie on the simplex | proved | `C09_random_composition` | Range and sum; the distribution is C79. |
| C10 | redundant keyword arguments are ignored, known ones kept | proved | `C10_arguments_arrive`, `C10_later_override`, `C10_set_calls`, `C10_constructor`, `C10_constructor_single`, `C10_compiled` | For every object, dictionary, set_* call and constructor call. |
| C11 | block expansion of the interaction matrix | proved | `C11_block_expansion`, `C11_block_errors` |  |
| C12 | chi matrix is always symmetric and keeps the energy | proved | `C12_symmetric`, `C12_content`, `C12_independent_entries` |  |
| C13 | random chis are the drawn values | partial | `C13_random_chis_partial`, `C13_histories_partial`, `C13_integer_matrix_truncates` | The property is false: after set_uniform_chis with an integer the draws are truncated (witness). Proved for every history: the draws are stored exactly, unless the last assigned matrix was an integer one, then rounded towards zero. |
| C14 | interaction Jacobian and Hessian are derivatives | proved | `C14_derivatives` |  |
| C15 | compiled interaction agrees with the analytic one | proved | `C15_compiled` |  |
| C16 | incompressibility coefficient | proved | `C16_incomp_coef` |  |
| C17 | degenerate components may be lumped | proved | `C17_lumping` |  |
| C18 | block interaction symmetrizes any matrix | partial | `C18_constructor_partial`, `C18_constructor_raises`, `C18_setter_raises` | The property is false: the setter always raises AttributeError and so does the constructor for matrices that are not symmetric within tolerance. Proved: matrices symmetric within numpy's allclose tolerance. |
| C19 | entropy Jacobian is the gradient | proved | `C19_entropy_jacobian` |  |
| C20 | entropy Hessian is the second derivative | partial | `C20_hessian_partial`, `C20_hessian_iff`, `C20_hessian_wrong` | The property is false: ideal_gas.py:178 returns l/phi instead of 1/(l phi). Proved: exactly the rows with l^2 = 1 are right, hence unit sizes. |
| C21 | vanishing fractions are handled | proved | `C21_entropy_vanishing`, `C21_zero_size`, `C21_chemical_potentials` |  |
| C22 | polydisperse bookkeeping | partial | `C22_plain_ideal_gas`, `C22_polydisperse_partial`, `C22_polydisperse_is_ideal_gas_partial`, `C22_empty_blocks`, `C22_empty_block_wrong` | Holds for plain gases and for polydisperse gases whose features all have at least one component. Missing: features with zero components, for which comp_to_feat always reads outside its array (C22_empty_blocks: exactly then). |
| C23 | polydisperse with one component per feature is the plain ideal gas | proved | `C23_one_component_per_feature` |  |
| C24 | canonical ensemble fixes the mean composition exactly | proved | `C24_canonical_mean` |  |
| C25 | grand-canonical ensemble prescribes chemical potentials | proved | `C25_prescribed_potentials` | Runs without constraints. |
| C26 | incompressibility is reported truthfully | proved | `C26_incompressibility_canonical`, `C26_incompressibility_grand`, `C26_reported_incompressibility` |  |
| C27 | local constraint forces derive from its energy | proved | `C27_local_forces` |  |
| C28 | global constraint forces derive from its energy | proved | `C28_global_forces` |  |
| C29 | reported constraint residue bounds the violation | proved | `C29_residue_of_pass`, `C29_residue_of_run` | Per pass and for run(). |
| C30 | living compartments are those above the threshold | proved | `C30_masks` |  |
| C31 | random revival touches only dead compartments | proved | `C31_random_revival`, `C31_random_revival_in_range` |  |
| C32 | copy revival conserves volume and matter | proved | `C32_copy_revival_conserves`, `C32_copy_revival_conserves_total`, `C32_total_volume_needs_empty_dead` | The docstring's stronger claim (total over all compartments) needs empty dead compartments; witness given. |
| C33 | copy revival terminates and fails only when it must | proved | `C33_copy_revival_outcomes`, `C33_copy_revival_succeeds`, `C33_copy_revival_default`, `C33_copy_revival_all_dead` |  |
| C34 | volume conservation and survival | proved | `C34_volume_conservation`, `C34_passes_never_fail`, `C34_run_never_fails`, `C34_histories`, `C34_project_instances` | Volume conservation per pass; survival and absence of division by zero per pass, per run and in every history without rejected set_* calls (a rejected call leaves an instance of the wrong size, see C44). Entropies without empty features (see C22), constraints with at least one equation, positive max_steps and interval; the final copy revival additionally needs 2*kill_threshold*(num_part-1) < 1 (see C33). |
| C35 | volume change per step is bounded | partial | `C35_volume_step_partial`, `C35_hypothesis_reached`, `C35_bound_exceeded` | The documented bound is violated (witness: 4/3 of the bound). Proved: sharp bound 2(1-1/n) times Js_step_upper_bound when volumes average to one. |
| C36 | revive budget | proved | `C36_revivals_of_metastep`, `C36_budget_of_run`, `C36_budget_of_history`, `C36_exhausted` | Per call of the core routine, per run and for all histories, failing calls included; max_revive_per_compartment non-negative. |
| C37 | dead compartments stay inert | proved | `C37_dead_stays_dead_pass`, `C37_dead_stays_dead`, `C37_dead_without_influence` |  |
| C38 | reported field error is the maximal absolute error | partial | `C38_field_error_partial`, `C38_abs_missing` | The property is false (the code takes the signed maximum; witness). Proved: what the reported number does bound. |
| C39 | returned phases are in chemical balance up to the reported errors | proved | `C39_chemical_balance`, `C39_canonical`, `C39_grand`, `C39_converged` |  |
| C40 | returned phases are physical | proved | `C40_finder`, `C40_physical`, `C40_ensembles` |  |
| C41 | step accounting | proved | `C41_step_accounting` |  |
| C42 | canonical run returns the requested mean composition | partial | `C42_mean_composition_partial`, `C42_short_runs_partial`, `C42_mean_composition_wrong`, `C42_converged_wrong` | The property is false: run() returns updated volumes with the fractions of the previous volumes (witness), and a run that converges with zero errors one pass after the death of a compartment may return a mean of 3/8 instead of 5/12 (witness). Proved: the deviation is bounded by 2 acceptance_Js max_abs_js_diff (1 + max_abs_incomp) if nothing died in the last two passes. |
| C43 | finder reuse keeps sizes and defaults | proved | `C43_setup_kept`, `C43_created`, `C43_run_arguments` | All histories of the modelled public methods, failing calls included. |
| C44 | a rejected set_* call leaves the finder unchanged | partial | `C44_rejected_set_breaks_finder`, `C44_rejected_set_partial`, `C44_interrupted` | False: the new instance is stored before the check raises; proved that after a rejected set_interaction the finder can neither be reinitialized from fractions nor run, and that after a rejected set_constraints run raises too, or runs without any constraint. The partial theorem says that everything else is unchanged and that a later accepted call of the same kind repairs the finder. |
| C45 | all given constraints are enforced | partial | `C45_constraints_dropped`, `C45_all_enforced_partial`, `C45_single`, `C45_none` | False when kwargs_individual is shorter than the list of constraints (zip drops the rest silently). Proved for individual arguments at least as long, or none. |
| C46 | finder owns its data | partial | `C46_owned_partial`, `C46_shows`, `C46_shared`, `C46_grand_wrong` | Proved for Flory-Huggins interactions, both ideal gases and canonical ensembles over all histories. False for block interactions, grand canonical ensembles and linear constraints, whose arrays are shared with the compiled instances (C46_shared); C46_grand_wrong shows a run returning different fractions. |
| C47 | component relabelling | proved | `C47_component_relabelling`, `C47_component_relabelling_grand`, `C47_passes` |  |
| C48 | compartment relabelling | proved | `C48_compartment_relabelling` |  |
| C49 | free energy Jacobian | proved | `C49_jacobian`, `C49_conserved_jacobian`, `C49_invalid_index` |  |
| C50 | exchange chemical potentials | proved | `C50_exchange`, `C50_absent_solvent` | The documented "always zero" fails (NaN) where component k is absent; the property is stated for positive compositions. |
| C51 | chemical potentials and pressure | proved | `C51_chemical_potentials`, `C51_gibbs_duhem` |  |
| C52 | conserved Hessian | proved | `C52_conserved_hessian` |  |
| C53 | stability verdict | proved | `C53_is_stable` |  |
| C54 | number of unstable modes is independent of the dependent component | proved | `C54_unstable_modes` |  |
| C55 | stability of Flory-Huggins mixtures | partial | `C55_stability_partial`, `C55_stability_wrong`, `C55_depends_on_unit` | The property is false because of the Hessian of C20. Proved: unit sizes; unstable verdicts for sizes >= 1; stable verdicts for sizes <= 1. |
| C56 | equilibration error | proved | `C56_zero_iff_balanced`, `C56_quantitative`, `C56_single_and_permutation` | Default norm (order=None). |
| C57 | volume fraction validation | proved | `C57_validation` |  |
| C58 | incompatible sizes are rejected | proved | `C58_free_energy_sizes`, `C58_finder_sizes` | Free energies and finders; objects that compile. |
| C59 | one-call shortcut | proved | `C59_shortcut`, `C59_returns`, `C59_returns_constrained` | For arbitrary scipy labels and argsort results satisfying their specifications. |
| C60 | extended free energy is the Flory-Huggins free energy | proved | `C60_extended_energy`, `C60_incompressible` |  |
| C61 | homogeneous state is stationary | proved | `C61_homogeneous_stationary` |  |
| C62 | reinitialization erases history | proved | `C62_reinit_erases_history`, `C62_pairs_of_histories` | For runs with positive max_steps and interval (otherwise no iteration takes place and the old fractions are returned). |
| C63 | equilibria are exactly the fixed points | proved | `C63_equilibrium_stationary`, `C63_zero_errors_equilibrium` |  |
| C64 | reported errors are the gradient of the extended free energy | proved | `C64_gradient`, `C64_stationary_iff` |  |
| C65 | one pass follows the documented scheme | proved | `C65_documented_scheme` | Ideal gas, trivial constraints, all compartments living (or no revival budget). The documentation uses the old field where the code uses the new one in the local energy; the theorem states the code's version in documented quantities. |
| C66 | no false phases in miscible mixtures | proved | `C66_no_false_phases`, `C66_equilibrium_homogeneous`, `C66_convex_iff`, `C66_convex`, `C66_convex_homogeneous` |  |
| C67 | constraint multipliers climb the constraint energy | proved | `C67_multipliers`, `C67_stationary_iff` |  |
| C68 | uniform fields never separate and relax geometrically | proved | `C68_uniform_run`, `C68_uniform_converges`, `C68_single_compartment` | Ideal gas in the canonical ensemble, constraints absent or fulfilled by the mean composition with zero multipliers. In particular a run from uniform fields does not find coexisting phases even if they exist. |
| C69 | The whole workflow ends in phases whose imbalance is bounded by the reported diagnostics | proved | `C69_workflow` | Flory-Huggins interaction, ideal gas, canonical or grand canonical ensemble with positive entries, global constraints or none. Compiled code that raises is assumed not to change the parameters of constraints nor the arrays of NoConstraint (no method except initialize writes them). |
| C70 | objects hold what was last accepted | proved | `C70_sizes`, `C70_poly_sizes`, `C70_phi_means`, `C70_scaled_activity`, `C70_linear`, `C70_linear_new`, `C70_flory_huggins`, `C70_constructors` | Contents of arrays; which arrays are shared is C46. What set_random_chis stores is C13. |
| C71 | Results without deaths do not depend on the random generator | proved | `C71_generator` | Any instances and constraints. |
| C72 | A constant added to the fields does not change the result | proved | `C72_gauge`, `C72_pass` | Exact arithmetic. Runs in which compartments die are excluded: there the sum of the volumes differs from their number and the volume step depends on the constant. |
| C73 | A run can be interrupted and resumed | proved | `C73_resume` | max_steps a multiple of interval; the first run ends with all volumes above the threshold. |
| C74 | accurate runs return phases close to an exact equilibrium | proved | `C74_close_to_equilibrium` | delta is not computed; exact arithmetic. That every component is present in some phase is read off the result. |
| C75 | binary mixtures: at most two phases, on a unique binodal, by the lever rule | proved | `C75_phase_rule`, `C75_binodal`, `C75_lever_rule`, `C75_phase_rule_runs`, `C75_binodal_runs` | delta is not computed; exact arithmetic. Equality of chemical potentials, not stability of the phases. |
| C76 | binary mixtures: critical point, phase diagram and least free energy | proved | `C76_critical`, `C76_phase_diagram`, `C76_phases_optimal`, `C76_homogeneous_optimal`, `C76_no_separation_runs` | delta is not computed; exact arithmetic. That an equilibrium is a stationary point of runs is C63; that runs reach it is not claimed. |
| C77 | the state of least free energy is representable and is an equilibrium | proved | `C77_ground_state`, `C77_optimal_coexists`, `C77_tangent_plane`, `C77_not_always_best` | Exact arithmetic. That an equilibrium is a stationary point of runs is C63; that runs reach the best one is not claimed. |
| C78 | a finder starts from the documented state | proved | `C78_random`, `C78_omegas`, `C78_phis`, `C78_created`, `C78_defaults`, `C78_default_run` | The generator is arbitrary; that numpy's normal(0, std) is std times a standard normal draw is part of the trusted base. |
| C79 | random compositions are uniformly distributed | proved | `C79_uniform` | That numpy's draws are independent and beta distributed is an assumption of the theorem. |
| C80 | the two ensembles have the same equilibria | proved | `C80_reservoir_stationary`, `C80_zero_errors_reservoir`, `C80_canonical_to_grand`, `C80_grand_to_canonical` |  |
| C81 | Clustering of compartments and the phases the shortcut returns | proved | `C81_recovers`, `C81_merges`, `C81_count`, `C81_binary_shortcut`, `C81_equilibrium_found`, `C81_hidden_phases` | Any tie breaking of scipy is covered; merge heights of centroid linkage may decrease, and fcluster's cut uses the largest height below a node, as in scipy. C81_hidden_phases: phases in equilibrium that are closer than 0.01 are returned as one phase that does not have the least free energy. |
| C82 | equilibration error for every order and axis | proved | `C82_default`, `C82_negative_axes`, `C82_axis`, `C82_axis_blind`, `C82_total`, `C82_total_blind`, `C82_rejects`, `C82_compare`, `C82_overlooked`, `C82_absent` | C82_overlooked and C82_absent are concrete phases out of balance for which the reported error is zero (negative orders; every order if a component is absent from a phase). |
| C83 | stability of the mean composition decides whether compartments merge | proved | `C83_curvature`, `C83_exchange`, `C83_binary_converges`, `C83_binary_leaves`, `C83_binary_compiled`, `C83_converges`, `C83_leaves` | For more than two features the theorems need a large enough additional_chis_shift; acceptance_omega has to be small (existence of a bound, not its value). |
| C84 | phases and random compositions in floating-point arithmetic | proved | `C84_normalize`, `C84_mean_fractions`, `C84_clusters`, `C84_clusters_conserve`, `C84_random_composition`, `C84_relative`, `C84_normalize_not_idempotent`, `C84_random_negative` | Overflow and underflow are not modelled; the labels from scipy are an argument. |
| C85 | convergence is never reported with infinite or undefined fractions | proved | `C85_converged`, `C85_run`, `C85_exact`, `C85_pass`, `C85_fields`, `C85_residues`, `C85_local`, `C85_volumes`, `C85_blind` | Signs of zero and underflow are not modelled in the example arithmetic; `C85_exact` ties the model to the exact one of the other claims. |
| C86 | mean composition, incompressibility and mean volume hold in spite of rounding | proved | `C86_mean`, `C86_incomp`, `C86_volumes`, `C86_converged`, `C86_returns`, `C86_exact` | The entropies enter through `FloatGas`, proved for both (`idealF_gas`, `polyF_gas`); `C86_exact` ties their float models to the exact ones. The mean is taken with the volumes used in the pass, not those updated at its end. |
| C87 | chemical potentials of coexisting phases agree in spite of rounding | proved | `C87_pass`, `C87_converged`, `C87_double`, `C87_positive`, `C87_entropies` | The rounding-error counterpart of C39. The reported field error is a maximum without absolute values; the bound uses that the field errors of a compartment sum to the incompressibility term up to rounding. Constraints are left out. |
| C88 | with local constraints every exchange that respects them is balanced | proved | `C88_exchange_balance`, `C88_converged`, `C88_prescribed`, `C88_ions_differ` | The witness of the last theorem starts with the multipliers of its fixed point. |
| C89 | random fields and random interactions have the documented distributions | proved | `C89_fields`, `C89_chis`, `C89_revive` | The laws of the draws are a hypothesis about numpy's generator. |
| C90 | Splitting a component into identical parts changes nothing but the split | proved | `C90_split`, `C90_ideal` | Exact arithmetic. |
| C91 | Coexisting stable phases attract the iteration | proved | `C91_converges`, `C91_binary_stable`, `C91_binary`, `C91_phase_diagram` | Exact arithmetic. The bound on the ratio of the acceptances is sufficient, not necessary. |
| C92 | A reservoir selects the phases of least grand potential | proved | `C92_selects`, `C92_winner`, `C92_coexistence` | Exact arithmetic, no revivals left (b ≤ 0), equal volumes at the start up to a small error. |
| C93 | Equilibria under linear constraints are the fixed points, and both ensembles give the same phases | proved | `C93_stationary_canonical`, `C93_stationary_grand`, `C93_zero_errors_canonical`, `C93_zero_errors_grand`, `C93_canonical_to_grand`, `C93_grand_to_canonical` | Real-number arithmetic; no dead compartments; the agreement of the ensembles concerns exact fixed points, not how well a run with a finite tolerance approximates them |
| C94 | A search finds stable coexisting phases with positive probability, and its outcome depends on chance | proved | `C94_found`, `C94_repeated`, `C94_both`, `C94_count` | Exact arithmetic. The phases have to fit into compartments of equal volume; C115 extends the result to all mixtures near such a mixture. |
| C95 | Weakly interacting mixtures mix from any initial fields | proved | `C95_mixes`, `C95_search`, `C95_one` | Exact arithmetic. The bounds on the Flory parameters and the acceptances are existential: they depend on sizes, shift, numbers, B and v but are not computed. max_abs_omega_diff is a signed maximum (C38), so the bound by reported errors needs max_abs_incomp, too. |
| C96 | The unit of molecular size is arbitrary | proved | `C96_pass`, `C96_run`, `C96_systems`, `C96_search`, `C96_free_energy` | The tolerance is compared with quantities of different dimension, so the number of steps before convergence may depend on the unit; the statement is about as many steps. |
| C97 | Symmetric mixtures: transition, phases of least free energy, and more phases than components | proved | `C97_order`, `C97_mixed`, `C97_separated`, `C97_transition`, `C97_divisions`, `C97_coexist`, `C97_separated_coexist`, `C97_stable_iff`, `C97_stable`, `C97_search`, `C97_count`, `C97_chance`, `C97_all_coexist`, `C97_more_phases`, `C97_reservoir`, `C97_fraction`, `C97_tests`, `C97_verdict` | Exact arithmetic; searches with careful settings as in C94. Two components are C75 and C76. |
| C98 | Scans follow coexisting phases | proved | `C98_scan`, `C98_objects`, `C98_binary`, `C98_calls`, `C98_warm_start` | scans and warm starts |
| C99 | acceptance_omega has a sharp upper limit set by sizes, shift and number of features | proved | `C99_merges`, `C99_leaves`, `C99_total`, `C99_shift`, `C99_equal_modes`, `C99_equal_merges`, `C99_equal_leaves`, `C99_defaults`, `C99_binary_merges`, `C99_binary_leaves`, `C99_binary_unstable` | limit of the step size |
| C100 | whether some acceptance_omega reaches the mixed state is decided by the mixture and the shift, and the default shift can fail | proved | `C100_damped`, `C100_growing`, `C100_unstable`, `C100_unstable_compiled`, `C100_stable`, `C100_default_shift` | Exact arithmetic, no constraints, local statement about compartments near the mean composition. The failing mixture has non-zero diagonal chis. |
| C101 | which volume fractions reinitialize_from_phis respects | proved | `C101_first_step`, `C101_respected`, `C101_coexisting`, `C101_kept`, `C101_symmetric`, `C101_not_respected` | Exact arithmetic, canonical ensemble. |
| C102 | the compiled code, transcribed by program, computes what the theorems are about | proved | `C102_metastep`, `C102_documented_scheme`, `C102_volumes`, `C102_never_fails`, `C102_no_steps`, `C102_compartments`, `C102_copy`, `C102_copy_result`, `C102_constraints`, `C102_interaction_and_ensembles`, `C102_entropies` | Exact arithmetic. Trusted: the translator, which refuses constructs it does not know, and the shapes of the arguments. |
| C103 | the finder's run and reinitialize methods, transcribed by program, do what the theorems are about | proved | `C103_run`, `C103_random`, `C103_omegas`, `C103_phis`, `C103_reset`, `C103_record`, `C103_returns`, `C103_chemical_balance`, `C103_homogeneous` | Exact arithmetic. Trusted: the translator as in C102, and that log messages, progress bars and the clock have no other effect. What a finder holds after an exception is that of the hand-written model only. |
| C104 | the array code of the free energies, transcribed by program, computes what the theorems are about | proved | `C104_xlogx`, `C104_interaction`, `C104_entropy`, `C104_implementations`, `C104_check`, `C104_free_energy_density`, `C104_jacobian`, `C104_hessian`, `C104_chemical_potentials`, `C104_exchange_pressure`, `C104_stability`, `C104_equilibration_error`, `C104_formula` | Exact arithmetic with infinities and NaN. Trusted: the translator, which refuses constructs it does not know, and the meaning of the numpy functions in `Model/TranscriptArrays.lean`. equilibration_error for one composition or a list of them, as in the model. |
| C105 | the constructors and setters, transcribed by program, make the objects the theorems are about | proved | `C105_convert_and_broadcast`, `C105_make_square_blocks`, `C105_flory_huggins`, `C105_symmetric`, `C105_flory_huggins_from`, `C105_block`, `C105_entropy`, `C105_ensemble`, `C105_from_chemical_potential`, `C105_constraint`, `C105_phases` | Exact arithmetic; numbers of components and features are not negative, and chi of set_uniform_chis is a float. Trusted: the translator, which refuses constructs it does not know, and the meaning of the numpy functions in `Model/TranscriptObjects.lean`. Aliasing of arrays is not represented. make_square_blocks for one-dimensional block sizes. |
| C106 | the code of Phases and PhasesResult, transcribed by program, agrees with the model | proved | `C106_phases`, `C106_sort`, `C106_get_clusters`, `C106_get_clusters_few`, `C106_conserves`, `C106_random_composition`, `C106_result_new`, `C106_result` | Exact arithmetic. Trusted: the translator, which refuses constructs it does not know, and the meaning of the numpy functions in `Model/TranscriptPhases.lean`. Division by a total volume of zero (nan in numpy) is not represented. scipy is assumed to return one label for each phase. |
| C107 | constructor and changing methods of the finder, transcribed by program, agree with the model | proved | `C107_compiled`, `C107_setters`, `C107_resets`, `C107_init`, `C107_defaults`, `C107_history`, `C107_settings_kept` | Exact arithmetic. Trusted: the translator, which refuses constructs it does not know, and the meaning of its primitives in `Model/FinderObject.lean`. The bodies of `_compiled_impl` are those of the model (C109 compares them). Messages of the logger are left out. An iterable of constraints is a list. |
| C108 | data types and memory layout of the arrays handed to compiled classes | proved | `C108_interaction`, `C108_block`, `C108_entropies`, `C108_canonical`, `C108_grandCanonical`, `C108_targets`, `C108_matrix`, `C108_few`, `C108_row` | Trusted: numpy's rules for strides of copies with order K, of broadcasts and of elementwise results. What numba does with an array that is not as declared is not modelled. |
| C109 | compilation, properties and FloryHuggins, transcribed by program, agree with the model | proved | `C109_objects`, `C109_compiled`, `C109_override`, `C109_getters`, `C109_flory_huggins`, `C109_defaults`, `C109_coefficient` | Exact arithmetic. Trusted: the translator, which refuses constructs it does not know, and the meaning of its primitives in `Model/Compile.lean`. Numbers of components are assumed to fit into 32 bits. Matrices made by `set_uniform_chis` from a Python integer are not covered. |
| C110 | find_coexisting_phases, transcribed by program, agrees with the model and returns valid phases | proved | `C110_run`, `C110_history`, `C110_shortcut`, `C110_returns`, `C110_equilibrium` | Exact arithmetic. Trusted: the translator, which refuses constructs it does not know, and the conversions in `Model/ShortcutObject.lean`. `scipy` is assumed to return one label per phase (`ScipyWorks`). The attributes after a `run` that raises are not compared. |
| C111 | the whole workflow, for the transcribed text alone | proved | `C111_workflow` | Exact arithmetic. Trusted: the translators and the conversions in `Model/ShortcutObject.lean` and `Model/WorkflowObject.lean`. Constraints are global. |
| C112 | constraints of any class: run as translated from the text for them | proved | `C112_library_metastep`, `C112_library_run`, `C112_library_reinitialize`, `C112_starts`, `C112_simulation`, `C112_returns`, `C112_volumes`, `C112_result`, `C112_balance` | Exact arithmetic. Only `evolve` of a constraint may raise, and methods depend on nothing but the data of the constraint and the arguments. |
| C113 | interactions of any class: run balances the chemical potentials of their free energy | proved | `C113_result`, `C113_balance`, `C113_flory_huggins` | Exact arithmetic. `incomp_coef` returns a number (the base class also allows an array). Methods of the interaction return new arrays. |
| C114 | searches with the transcribed text find stable coexisting phases with positive probability | proved | `C114_found`, `C114_repeated`, `C114_both`, `C114_count` | Exact arithmetic. Trusted: the translators and the conversions in `Model/ShortcutObject.lean`. The generator is passed as argument `rng`. The phases have to fit into compartments of equal volume (C115 covers all mixtures nearby). |
| C115 | searches find the phases of all mixtures near a given one, with the accuracy of the tolerance | proved | `C115_found`, `C115_repeated` | Exact arithmetic. Trusted: the translators and the conversions in `Model/ShortcutObject.lean`. The generator is passed as argument `rng`. Volumes of the given phases are multiples of 1/M; those of the mixtures nearby need not be. |
| C116 | searches with the transcribed text return one phase when the interaction is weak | proved | `C116_search`, `C116_one` | Exact arithmetic. Trusted: the translators and the conversions in `Model/ShortcutObject.lean`. The generator is passed as argument `rng`. The bounds on Flory parameters, acceptances and tolerance are existential. |
| C117 | phase diagrams: scans with the transcribed text follow coexisting phases | proved | `C117_scan`, `C117_random`, `C117_clusters` | Exact arithmetic. Trusted: the translators and the conversions in `Model/ShortcutObject.lean`. One compartment for each phase, as many as independent compositions allow; for more compartments see C98_warm_start. The bounds on shift, acceptance, step and tolerance are existential. The random variant needs phases of equal volume at the first point, and its generator is passed as argument `rng`. For `get_clusters`, scipy is assumed to behave as documented (`ScipyDocumented`). |
| C118 | polydisperse mixtures: the whole workflow of the transcribed text | proved | `C118_workflow` | Exact arithmetic. Trusted: the translators and the conversions in `Model/ShortcutObject.lean`, `Model/WorkflowObject.lean` and `Model/PolyObject.lean`. Arrays are given in full shape. A feature without components is excluded (see C22), and so is a feature matrix that is not symmetric (see C18). |
| C119 | local constraints: the whole workflow of the transcribed text | proved | `C119_workflow` | Exact arithmetic. Trusted: the translators and the conversions in `Model/ShortcutObject.lean`, `Model/WorkflowObject.lean` and `Model/ConsObject.lean`. The residue of global constraints refers to the volumes before the last step and is treated by C29. |
| C120 | polydisperse mixtures with local constraints: the whole workflow of the transcribed text | proved | `C120_workflow` | Exact arithmetic. Trusted: the translators and the conversions in `Model/ShortcutObject.lean`, `Model/WorkflowObject.lean`, `Model/PolyObject.lean` and `Model/ConsObject.lean`. The residue of global constraints refers to the volumes before the last step and is treated by C29. |
<!-- end of outcomes -->

## Trusted base

* **Lean's kernel** (4.33.0) and the statements of the definitions and theorems.  No axiom, `sorry`,
  `native_decide` or `bv_decide` is used.
* **Axioms.**  Every theorem of the manifest depends on `propext`, `Classical.choice` and `Quot.sound`,
  the three axioms of Lean used throughout Mathlib, except `C07_again`, which does not need choice.
  (`#print axioms` on each of them; `vcheck` repeats this.)
* **The reading of the code.**  The code was never run.  For the compiled code (the main loop and all
  `…Compiled` classes) and for `run` and the `reinitialize_*` methods of the finder the model is proved
  equal to a translation made by a program, `tools/transcribe.py`, from Python's syntax tree (C102 and
  C103, `Verif/Gen/`).  The translation leaves out log messages, progress bars and the clock, by name,
  and keeps no attributes when an exception is raised.  What is trusted there is the
  translator (one rule per construct; it stops at any construct it does not know and at any two names
  for the same array), the types and shapes of the arguments written at the end of that file, and the
  meaning of the primitives in `Model/Py.lean` and `Model/Transcript.lean`.
  `python3 tools/transcribe.py --check` compares the committed files with a fresh translation.
  The array code of the free energies is translated in the same way by `tools/transcribe_arrays.py`
  (C104), with the primitives in `Model/TranscriptArrays.lean`, and constructors, setters and array
  utilities by `tools/transcribe_objects.py` (C105), with those in `Model/TranscriptObjects.lean`; `phases.py` by
  `tools/transcribe_phases.py` (C106), with those in `Model/TranscriptPhases.lean`; the constructor and setters of the finder by
  `tools/transcribe_finder.py` (C107), with those in `Model/FinderObject.lean`; compilation, properties and
  `FloryHuggins` by `tools/transcribe_compile.py` (C109), with those in `Model/Compile.lean`; `find_coexisting_phases` by
  `tools/transcribe_shortcut.py` (C110), with the conversions between objects in `Model/ShortcutObject.lean`,
  `Model/WorkflowObject.lean`, `Model/PolyObject.lean` and `Model/ConsObject.lean`.  Log
  messages are left out only if their arguments are among those in `tools/messages.py`, which cannot raise, and if a
  constructor of the class creates the logger.
  For the rest, the only connection between the model and `/repo` is that every definition cites the
  lines it transcribes; `tools/cites.py` checks that each definition of `Verif/Model` and `Verif/Gen`
  carries a citation and that the lines exist.
* **The behaviour of Python, numpy, numba and scipy** as written down in `Model/Py.lean`,
  `Model/NDArray.lean` and `Model/XReal.lean`: order of evaluation, broadcasting, `np.repeat`, stable
  `lexsort`, division by zero raising in compiled scalar code, `log 0 = -inf`, `nan_to_num`.
  Assumed of random generators: `uniform(-1, 1)` lies in `[-1, 1]`, `integers(0, n)` is below `n`
  (`Rng.Ok`), draws for compositions lie in `[0, 1]`.  Assumed of `argsort`: it returns a permutation
  that sorts.  Assumed of `eigvalsh`: it returns the eigenvalues of the symmetric matrix given by the
  lower triangle.  Nothing is assumed of scipy's clustering but that it returns one label per row; C81
  assumes that the labels are those of centroid linkage cut at the distance (`Model/Clustering.lean`).

### What is modelled

All functions and classes of these files, branch by branch, including which exception is raised:

| code | model |
|---|---|
| `flory/common/phases.py` | `Model/Phases.lean`; with rounding `Model/Rounded.lean` |
| `flory/common/utilities.py` | `Model/Utilities.lean` |
| `flory/common/math.py`, `flory/entropy/*.py` (uncompiled) | `Model/EntropyObj.lean` |
| `flory/entropy/*.py` (compiled) | `Model/Entropy.lean`; with arbitrary arithmetic `Model/FloatParts.lean` |
| `flory/interaction/*.py` | `Model/Interaction.lean` |
| `flory/ensemble/*.py` | `Model/Ensemble.lean` |
| `flory/constraint/*.py` | `Model/Constraint.lean`, `Model/Objects.lean` |
| `flory/free_energy/*.py` | `Model/FreeEnergy.lean`, `Model/FHObject.lean` |
| `flory/mcmp/_finder_impl.py` | `Model/FinderImpl.lean`; with arbitrary arithmetic `Model/Floats.lean` |
| `flory/mcmp/finder.py` | `Model/Run.lean` (`run`), `Model/Finder.lean` (everything else) |
| `flory/shortcut.py` | `Model/Shortcut.lean` |
| `pdist`, `linkage`, `fcluster` of scipy as used in `phases.py` | `Model/Clustering.lean` |
| `np.linalg.norm` as used in `equilibration_error` | `Model/Norm.lean` |
| the abstract compiled classes of the `base.py` files | `Model/Interface.lean` |
| constraints of any class, as in `flory/constraint/base.py` | `Model/UserConstraint.lean` |
| sharing of arrays between objects (all of the above) | `Model/Alias.lean` |
| data types and strides of the arrays handed to compiled classes | `Model/Layout.lean` |

### What is not modelled

* Floating-point rounding, overflow and NaN inside the iteration, except in C85 to C87.  All other theorems about
  runs are about exact arithmetic; the diagnostics of a real run include rounding errors.
* numba: compilation, caching, and what it does with an array that does not have the declared type (C108 says
  which arrays do).  All other theorems are about entries, not about where they lie in memory.  Accesses outside of arrays, undefined behaviour in
  compiled code, are the error value `outOfBounds`.
* `__str__`/`__repr__`, logging, progress bars and the wall-clock `time` entry of the diagnostics.
* The generators of random numbers. Ranges or distributions of single draws are hypotheses (distributions in C79 and C89).
* LAPACK's eigenvalue algorithm (specified above).
* User-defined subclasses of the abstract classes, except in theorems about arbitrary interactions,
  entropies and ensembles (`InteractionI`, `EntropyI`, `EnsembleI` are arbitrary records of functions).
  Constraints are a closed list of three classes, except in C112: there `run` is translated a second time for
  constraints of any class (`Model/UserConstraint.lean`), of which only `evolve` may raise.  In C113
  it is translated for interactions of any class.
* Negative numbers of compartments, non-numeric arguments.

## Findings

Violated as documented or expected (each with a witness proved in Lean):

* C06: `get_clusters` does not sort, contrary to its docstring.
* C13: `set_uniform_chis` with an integer leaves an integer matrix; later random draws are truncated.
* C18: the setter of `chis_feat` of block interactions raises `AttributeError` (it reads `_num_feat`,
  which does not exist), and so does the constructor for asymmetric matrices (it uses `_logger` before
  it is set).
* C20, C55: the Hessian of the ideal gas (`ideal_gas.py:178`) is `l/φ` instead of `1/(l φ)`; stability
  verdicts are wrong for sizes other than one. They even depend on the unit in which sizes are measured
  (`C55_depends_on_unit`), although nothing else of the project does (C96).
* C22: a polydisperse feature with zero components reads outside of its array.
* C35: the volume of a compartment can change by more than `Js_step_upper_bound` per pass.
* C38: `max_abs_omega_diff` is a signed maximum, not the maximum of absolute values.
* C42: the returned volumes are one update ahead of the returned fractions. If a compartment died one pass before
  the last, the volumes of the others are shifted by the same amount in this update, which the reported errors do
  not show: `C42_converged_wrong` is a run that converges with zero errors and returns a wrong mean composition.
* C44: rejected `set_*` calls leave a finder that cannot run.
* C45: constraints are dropped silently if `kwargs_individual` is too short.
* C46: grand canonical ensembles, block interactions and linear constraints share their arrays with
  the compiled instances.

In floating-point arithmetic (C84): `normalize` is not idempotent, and the last fraction of
`get_uniform_random_composition` can be negative (-2^-52 in the witness).  `max_abs_omega_diff` and
`max_constraint_residue` ignore NaN (`C85_blind`), but `max_abs_incomp` and `max_abs_js_diff` do not, so that
convergence is not reported.

Further observations made while modelling (no claim attached, or noted with the claim):

* With `kill_threshold ≥ 1` everything dies at once and the next division raises `ZeroDivisionError`.
* A compiled interaction of zero components cannot be made (`.min()` of an empty array raises).
* `chemical_potentials` of a single composition has shape `(1, C)`; `equilibration_error` replaces
  infinities by zero, so phases in which a component is absent can look balanced (`C82_absent`); the orders
  `-inf`, negative numbers and `-2` report zero for phases out of balance (`C82_overlooked`).
* The docs' extended free energy omits the sizes; a pass uses the new field where the docs use the
  old one in the local energy; the docs' pressure has no incompressibility coefficient (C64, C65).
* `from_chemical_potential` and `chemical_potentials` differ by `(1 + ln l)/l` (C25).
* `find_coexisting_phases` clusters with the fixed cut-off 0.01: phases in equilibrium that are closer (near
  a critical point) are returned as one phase, which does not have the least free energy (`C81_hidden_phases`).
* Random revival draws from the range of fields over all compartments, dead ones included.
* When no revivals are left, dead compartments stay dead: the returned volumes add up to the number of living
  compartments, and the dead ones are returned as copies of living ones (C92).  A grand canonical run then keeps
  only the phases of least grand potential of those it starts near: metastable phases are lost.
* Molecular sizes are not checked; a size of zero gives NaN (`C21_zero_size`).
* In passes in which a compartment died, the volumes do not sum to the number of living compartments,
  so the volume step and `max_abs_js_diff` depend on the arbitrary zero of the fields (C72).
* `reinitialize_from_phis` omits the pressure: a finder reinitialized from coexisting phases is only
  stationary if they have equal volumes and pressures, as in symmetric mixtures (C101).  Runs from exactly uniform fields never separate (C68).  Nearly uniform fields merge if the
  mean composition is stable, also where separated phases have less energy (between binodal and spinodal);
  such a run reports convergence to one metastable phase (C83).
* The defaults of `acceptance_omega` and `additional_chis_shift` only suit mixtures with few features of small
  molecules: for equal interactions, small differences between compartments near the homogeneous
  state grow, also if it is stable, once the number of features times the mean molecule size exceeds 1000 (C99).
* The default `additional_chis_shift` does not make all stable mixtures attract the iteration: for three
  components of size 200 with chis `diag(2, -2, 0)`, the third only in traces, no `acceptance_omega` leads back
  to the stable homogeneous state, while a larger shift does (`C100_default_shift`).
* Some valid arguments arrive at the compiled classes with another type than declared (C108): one number as
  `phi_means` for several components, integers as `phi_means` or activities, single precision in a block
  interaction, a transposed matrix given to a linear constraint, and one row assigned to a constraint with several.
* `examples/binary_phase_diagram.py` takes the first cluster for the dense phase and the second for the dilute one,
  but `get_clusters` does not sort (C06), so that the two branches of the plot may swap between points.  As a set, the
  two points are those of the binodal (`C117_clusters`).
* `reinitialize_from_omegas` with an integer array leaves an integer array in the finder; `check_field` does not
  convert the data type.

## Mutation testing

`seeded/LOG.jsonl` has one line per wrong program tried in a scratch copy of the Lean project: the
definition, the edit, the claim it breaks, the theorems that failed to build and, if none did, the
theorem that was tightened.  An edit counts as detected only if a theorem of the broken claim, or a
lemma it rests on, stops proving; `rejected by the type checker` marks edits that do not yield a
program of the model.

Lines whose edit has a `line` are edits of the Python text itself in a scratch copy of the repository.  The edited text is transcribed again by the programs in `tools/` and the agreement theorems
are rebuilt.  Edits that the translators refuse, or that give ill-typed or unchanged Lean, are not in the log;
every unchanged one was read and either is equivalent to the original or led to a stricter translator.
