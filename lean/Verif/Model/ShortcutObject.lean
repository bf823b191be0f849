import Verif.Gen.Compile
import Verif.Gen.FinderObject
import Verif.Gen.Phases
import Verif.Model.GenFinder
import Verif.Model.Shortcut

/-!
# Pieces for the transcription of `find_coexisting_phases`

The transcribed constructor of a finder stores instances of any size, the transcribed `run` works on a record whose
types contain the sizes.  Here are the conversions.  `Verif/Gen/Shortcut.lean`, written by
`tools/transcribe_shortcut.py`, uses them.
-/

namespace Flory

/-- The same object with its compiled instances written differently (`flory/mcmp/finder.py:180-182`). -/
def InstObj.map {α β : Type} (f : α → β) (o : InstObj α) : InstObj β where
  params := o.params
  impl := fun kw => (o.impl kw).map f

namespace Gen

/-- A compiled interaction, sizes in its type. Models `flory/interaction/flory_huggins.py:37-50`; entries outside
the first `num_feat` rows and columns are dropped. -/
def FloryHugginsInteractionCompiledAttrs.pack (a : FloryHugginsInteractionCompiledAttrs) : AnyInteraction :=
  ⟨a._num_feat, ⟨fun i j => a._chis.get [i.1, j.1], a._incomp_coef⟩⟩

/-- A compiled entropy, sizes in its type. Models `flory/entropy/ideal_gas.py:41-52`. -/
def IdealGasEntropyCompiledAttrs.pack (a : IdealGasEntropyCompiledAttrs) : AnyEntropy :=
  ⟨a._num_comp, a._num_comp, .ideal ⟨fun i => a._sizes.get [i.1]⟩⟩

/-- A compiled ensemble, sizes in its type. Models `flory/ensemble/canonical.py:37-50`. -/
def CanonicalEnsembleCompiledAttrs.pack (a : CanonicalEnsembleCompiledAttrs) : AnyEnsemble :=
  ⟨a._num_comp, .canonical ⟨fun i => a._phi_means.get [i.1]⟩⟩

namespace FinderObj

variable {G : Type} {M : ℕ}

/-- The attributes, if all of them are assigned (`flory/mcmp/finder.py:178-239`). -/
def collect (o : FinderObj G M) : Option {f : Finder G // f.numPart = M} := do
  let numComp ← o._num_comp
  let numFeat ← o._num_feat
  let maxSteps ← o._max_steps
  let criterion ← o._convergence_criterion
  let tolerance ← o._tolerance
  let interval ← o._interval
  let randomStd ← o._random_std
  let acceptanceJs ← o._acceptance_Js
  let JsStepUpperBound ← o._Js_step_upper_bound
  let acceptanceOmega ← o._acceptance_omega
  let killThreshold ← o._kill_threshold
  let reviveScaler ← o._revive_scaler
  let maxRevive ← o._max_revive_per_compartment
  let kwargs ← o._kwargs_for_instances
  let interaction ← o._interaction
  let entropy ← o._entropy
  let ensemble ← o._ensemble
  let constraints ← o._constraints
  let omegas ← o._omegas
  let Js ← o._Js
  let phisFeat ← o._phis_feat
  let phisComp ← o._phis_comp
  let reviveLeft ← o._revive_count_left
  let g ← o._rng
  let diagnostics ← o._diagnostics
  return ⟨{
    numComp := numComp
    numFeat := numFeat
    numPart := M
    maxSteps := maxSteps
    criterion := criterion
    tolerance := tolerance
    interval := interval
    randomStd := randomStd
    params := ⟨acceptanceJs, JsStepUpperBound, acceptanceOmega, killThreshold, reviveScaler⟩
    maxRevive := maxRevive
    kwargs := kwargs
    interaction := interaction
    entropy := entropy
    ensemble := ensemble
    constraints := constraints
    omegas := fun i m => omegas.get [i.1, m.1]
    Js := fun m => Js.get [m.1]
    phisFeat := fun i m => phisFeat.get [i.1, m.1]
    phisComp := fun i m => phisComp.get [i.1, m.1]
    reviveLeft := reviveLeft
    g := g
    diagnostics := diagnostics }, rfl⟩

/-- The dictionary of diagnostics (`flory/mcmp/finder.py:675-683`); the number of steps is not negative. -/
def diagnosticsOf (d : DiagDict) : Diagnostics ℝ where
  steps := d.steps.toNat
  maxAbsIncomp := d.maxAbsIncomp
  maxAbsOmegaDiff := d.maxAbsOmegaDiff
  maxAbsJsDiff := d.maxAbsJsDiff
  maxConstraintResidue := d.maxConstraintResidue
  reviveCountLeft := d.reviveCountLeft

/-- The object after `run` changed its attributes in place or assigned them (`flory/mcmp/finder.py:585-686`). -/
def adopt {C S : ℕ} (o : FinderObj G M) (a : FinderAttrs C S M) (g : G) : FinderObj G M :=
  { o with
    _constraints := some (a.constraints.map fun c => ⟨S, true, c⟩)
    _omegas := some (.ofMat a.omegas)
    _Js := some (.ofVec a.Js)
    _phis_feat := some (.ofMat a.phisFeat)
    _phis_comp := some (.ofMat a.phisComp)
    _revive_count_left := some a.reviveLeft
    _rng := some g
    _diagnostics := some (a.diagnostics.map diagnosticsOf) }

/-- `finder.run(max_steps, tolerance, interval)` (`flory/mcmp/finder.py:510-686`): the transcribed method on the
attributes, and the `Phases` object it creates.  Simplified: if it raises, the object keeps its attributes. -/
noncomputable def run (rng : Rng G ℝ) (maxSteps : Option ℚ) (tolerance : Option ℝ) (interval : Option ℤ) :
    Act (FinderObj G M) PhasesAttrs := fun o =>
  match o.collect with
  | none => (o, .error .attributeError)
  | some ⟨f, hM⟩ =>
    match f.parts with
    | none => (o, .error .outOfBounds)
    | some p =>
      if h : f.numPart = 0 then (o, .error .valueError)
      else
        haveI : NeZero f.numPart := ⟨h⟩
        match Finder.run (f.attrs p) maxSteps tolerance interval rng f.g with
        | .error e => (o, .error e)
        | .ok (ph, a, g) =>
          (o.adopt (hM ▸ a) g, Phases.init (.ofVec ph.volumes) (.ofMat ph.fractions))

end FinderObj

/-- `CoexistingPhasesFinder(…)` creates an object without attributes and calls the constructor
(`flory/shortcut.py:62-67`). -/
def newObject {G : Type} {M : ℕ} (init : Act (FinderObj G M) Unit) : Py (FinderObj G M) :=
  match init {} with
  | (o, .ok ()) => .ok o
  | (_, .error e) => .error e

end Gen

end Flory
