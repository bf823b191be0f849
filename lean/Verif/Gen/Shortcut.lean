import Verif.Model.ShortcutObject

/-!
# Transcription of `flory/shortcut.py`

Written by `tools/transcribe_shortcut.py`; do not edit.
-/

set_option linter.unusedVariables false

namespace Flory.Gen

variable {G : Type} {M : ℕ}

/-- A copy of the dictionary `diagnostics`, empty before `run` (`flory/mcmp/finder.py:675-683`),
without the entry `time`. -/
def diagnosticsDict : Option (Diagnostics ℝ) → Dict ℝ
  | none => []
  | some d => [("steps", (d.steps : ℝ)),
    ("max_abs_incomp", d.maxAbsIncomp),
    ("max_abs_omega_diff", d.maxAbsOmegaDiff),
    ("max_abs_js_diff", d.maxAbsJsDiff),
    ("max_constraint_residue", d.maxConstraintResidue),
    ("revive_count_left", (d.reviveCountLeft : ℝ))]

/-- `find_coexisting_phases` (`flory/shortcut.py:17-72`).  The keyword arguments are
`constraints`, `args` and, for the compiled instances, `kwargs`. -/
noncomputable def find_coexisting_phases (gen : Rng G ℝ) (newGen : ℤ → G) (now : ℤ)
    (other : ℕ → PackedCons M → PackedCons M) (scipy : Scipy) (sort : ArgSort ℝ) (num_comp : ℕ)
    (chis : NDArr ℝ) (phi_means : Option (NDArr ℝ)) (sizes : Option (NDArr ℝ))
    (constraints : ConsArg) (args : InitArgs G) (kwargs : Dict ℝ) : Py (PhasesResultAttrs ℝ) := do
  let t1 : FloryHugginsAttrs ← FloryHuggins.init num_comp chis sizes
  let free_energy : FloryHugginsAttrs := t1
  let t2 : CanonicalEnsembleAttrs ← CanonicalEnsemble.init num_comp phi_means
  let ensemble : CanonicalEnsembleAttrs := t2
  let t3 : FinderObj G M ← newObject (CoexistingPhasesFinder.init gen newGen now other
    ((FloryHugginsInteraction.object free_energy.interaction).map FloryHugginsInteractionCompiledAttrs.pack)
    ((IdealGasEntropy.object free_energy.entropy).map IdealGasEntropyCompiledAttrs.pack)
    ((CanonicalEnsemble.object ensemble).map CanonicalEnsembleCompiledAttrs.pack)
    constraints args kwargs)
  let finder : FinderObj G M := t3
  let t4 : FinderObj G M × Py PhasesAttrs := FinderObj.run gen none none none finder
  let finder : FinderObj G M := t4.1
  let t5 : PhasesAttrs ← t4.2
  let phases : PhasesAttrs := t5
  let t6 : PhasesAttrs ← Phases.get_clusters scipy phases (1 / 100 : ℝ)
  let t7 : PhasesAttrs ← Phases.sort sort t6
  let t8 : PhasesAttrs ← Phases.normalize t7
  let phases : PhasesAttrs := t8
  let t9 : Option (Diagnostics ℝ) ← (Act.read FinderObj._diagnostics finder).2
  let t10 : PhasesResultAttrs ℝ ← PhasesResult.from_phases phases (some (diagnosticsDict t9))
  pure t10

end Flory.Gen
