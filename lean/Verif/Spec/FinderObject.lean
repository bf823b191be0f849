import Verif.Gen.FinderObject
import Verif.Spec.TranscriptObjects

/-!
# When a transcribed finder and a finder of the model describe the same Python object
-/

namespace Flory

namespace Spec

/-- What the model of a finder leaves out. -/
structure FinderExtra where
  progress : Bool
  rngIsExternal : Bool
  rngSeed : ℤ

/-- All attributes are assigned and have the values of the model. -/
structure SameFinder {G : Type} {M : ℕ} (x : FinderExtra) (o : Gen.FinderObj G M) (f : Finder G) : Prop where
  num_part : o._num_part = some M
  part : f.numPart = M
  constraints : o._constraints = some (part ▸ f.constraints)
  num_comp : o._num_comp = some f.numComp
  num_feat : o._num_feat = some f.numFeat
  interaction : o._interaction = some f.interaction
  entropy : o._entropy = some f.entropy
  ensemble : o._ensemble = some f.ensemble
  rng_is_external : o._rng_is_external = some x.rngIsExternal
  rng_seed : o._rng_seed = some x.rngSeed
  rng : o._rng = some f.g
  max_steps : o._max_steps = some f.maxSteps
  criterion : o._convergence_criterion = some f.criterion
  tolerance : o._tolerance = some f.tolerance
  interval : o._interval = some f.interval
  progress : o._progress = some x.progress
  random_std : o._random_std = some f.randomStd
  acceptance_Js : o._acceptance_Js = some f.params.acceptanceJs
  acceptance_omega : o._acceptance_omega = some f.params.acceptanceOmega
  Js_step_upper_bound : o._Js_step_upper_bound = some f.params.JsStepUpperBound
  kill_threshold : o._kill_threshold = some f.params.killThreshold
  revive_scaler : o._revive_scaler = some f.params.reviveScaler
  max_revive : o._max_revive_per_compartment = some f.maxRevive
  diagnostics : o._diagnostics = some f.diagnostics
  Js : ∃ a, o._Js = some a ∧ SameVec a f.Js
  omegas : ∃ a, o._omegas = some a ∧ SameMat a f.omegas
  phis_feat : ∃ a, o._phis_feat = some a ∧ SameMat a f.phisFeat
  phis_comp : ∃ a, o._phis_comp = some a ∧ SameMat a f.phisComp
  revive_left : o._revive_count_left = some f.reviveLeft
  kwargs : o._kwargs_for_instances = some f.kwargs

/-- The method of the code did the same as the method of the model: the same object afterwards and the same
result or exception. -/
def SameCall {G : Type} {M : ℕ} (x : FinderExtra) (r : Gen.FinderObj G M × Py Unit) (q : Finder G × Py Unit) :
    Prop := SameFinder x r.1 q.1 ∧ r.2 = q.2

/-- The keyword arguments of the constructor that the model knows, and the two it does not. -/
def initArgs {G : Type} (a : FinderArgs) (rng : Option G) (progress : Bool) : Gen.InitArgs G where
  num_part := a.numPart
  rng := rng
  max_steps := a.maxSteps
  convergence_criterion := a.criterion
  tolerance := a.tolerance
  interval := a.interval
  progress := progress
  random_std := a.randomStd
  acceptance_Js := a.acceptanceJs
  acceptance_omega := a.acceptanceOmega
  Js_step_upper_bound := a.JsStepUpperBound
  kill_threshold := a.killThreshold
  revive_scaler := a.reviveScaler
  max_revive_per_compartment := a.maxRevive

/-- The call of a transcribed method that a call of the model stands for; `run` is treated in C103. -/
noncomputable def codeCall {G : Type} {M : ℕ} (gen : Rng G ℝ) (other : ℕ → PackedCons M → PackedCons M) :
    FinderOp → Option (Act (Gen.FinderObj G M) Unit)
  | .setInteraction o reset kw => some (Gen.CoexistingPhasesFinder.set_interaction o reset kw)
  | .setEntropy o reset kw => some (Gen.CoexistingPhasesFinder.set_entropy o reset kw)
  | .setEnsemble o reset kw => some (Gen.CoexistingPhasesFinder.set_ensemble o reset kw)
  | .setConstraints c reset ind kw => some (Gen.CoexistingPhasesFinder.set_constraints other c reset ind kw)
  | .resetRevive => some Gen.CoexistingPhasesFinder.reset_revive
  | .reinitConstraint => some (Gen.CoexistingPhasesFinder.reinitialize_constraint other)
  | .reinitRandom => some (Gen.CoexistingPhasesFinder.reinitialize_random gen other)
  | .reinitOmegas w => some (Gen.CoexistingPhasesFinder.reinitialize_from_omegas other w)
  | .reinitPhis p => some (Gen.CoexistingPhasesFinder.reinitialize_from_phis other p)
  | .run _ _ _ => none

/-- One call after the other, whether they raise or not: the object at the end and all results. -/
def callAll {σ : Type} : List (Act σ Unit) → σ → σ × List (Py Unit)
  | [], s => (s, [])
  | c :: cs, s => ((callAll cs (c s).1).1, (c s).2 :: (callAll cs (c s).1).2)

end Spec

end Flory
