import Verif.Model.FinderImpl
import Verif.Model.Phases
import Mathlib.Data.Rat.Floor

/-!
# Model of `CoexistingPhasesFinder.run`

The parts of `flory/mcmp/finder.py:510-686` that determine the result.  Progress bars, logging and the
`time` entry of the diagnostics are not modelled.  The arguments `max_steps` and `interval` are a
rational number (floating-point numbers are rational) and an integer; rounding of the division
`max_steps / interval` is not modelled.
-/

namespace Flory

variable {K G : Type}

/-- The entries of `diagnostics` (`finder.py:675-683`), without `time`. -/
structure Diagnostics (K : Type) where
  steps : ℕ
  maxAbsIncomp : K
  maxAbsOmegaDiff : K
  maxAbsJsDiff : K
  maxConstraintResidue : K
  reviveCountLeft : ℤ

/-- What the loop of `run` changes: the arrays, constraints and generator of the finder (`st`),
`_revive_count_left` and the local variables `steps` and those returned by the last metastep
(unbound before the first one). Models `flory/mcmp/finder.py:585-648`. -/
structure RunState (C S M : ℕ) (K G : Type) where
  st : State C S M K G
  reviveLeft : ℤ
  steps : ℕ
  last : Option (MetaResult C S M K G)

/-- Everything that stays fixed during `run`: the compiled instances, the numerical parameters and
the generator functions. `crash` is the content of the arrays after an exception inside the compiled
routine, which works in place; nothing is assumed about it. Models `flory/mcmp/finder.py:549-611`. -/
structure RunEnv (C S M : ℕ) (K G : Type) where
  ia : InteractionI S M K
  en : EntropyI C S M K
  es : EnsembleI C M K
  rng : Rng G K
  params : Params K
  criterion : String
  crash : State C S M K G → State C S M K G

section Run

variable [Field K] [LinearOrder K] {C S M : ℕ} [NeZero M]

/-- The convergence test (`finder.py:631-638`). -/
def converged (tolerance : K) (r : MetaResult C S M K G) : Bool :=
  r.isLastStepSafe && decide (tolerance > r.last.maxAbsIncomp)
    && decide (tolerance > r.last.maxAbsOmegaDiff) && decide (tolerance > r.last.maxAbsJsDiff)
    && decide (tolerance > r.last.maxConstraintResidue)

/-- The loop of `run` (`finder.py:585-648`): at most `n` metasteps of `inner` passes. -/
def runLoop (e : RunEnv C S M K G) (tolerance : K) (inner : ℕ) :
    (n : ℕ) → RunState C S M K G → RunState C S M K G × Py Unit
  | 0, s => (s, .ok ())
  | n + 1, s =>
    match metastep e.ia e.en e.es e.rng e.params s.reviveLeft inner s.st with
    | .error err => ({ s with st := e.crash s.st }, .error err)
    | .ok r =>
      let s : RunState C S M K G :=
        { st := r.last.state
          reviveLeft := s.reviveLeft - r.last.reviveCount
          steps := s.steps + inner
          last := some r }
      if e.criterion = "standard" then
        if converged tolerance r then (s, .ok ()) else runLoop e tolerance inner n s
      else (s, .error .valueError)

/-- `steps_tracker` (`finder.py:556`): `int(np.ceil(max_steps / interval))`. -/
def stepsTracker (maxSteps : ℚ) (interval : ℤ) : Py ℤ :=
  if interval = 0 then .error .zeroDivisionError else .ok ⌈maxSteps / interval⌉

/-- `steps_inner` (`finder.py:557`): `max(1, int(np.ceil(max_steps)) // steps_tracker)`, a floor
division of integers. -/
def stepsInner (maxSteps : ℚ) (tracker : ℤ) : Py ℕ :=
  if tracker = 0 then .error .zeroDivisionError
  else .ok (max 1 (Int.fdiv ⌈maxSteps⌉ tracker)).toNat

/-- The end of `run` (`finder.py:657-686`): copies of volumes and fractions, in which the dead
compartments are replaced; diagnostics.  Only the generator of the finder changes. -/
def runFinal (e : RunEnv C S M K G) (s : RunState C S M K G) :
    RunState C S M K G × Py (Phases M C K × Diagnostics K) :=
  match reviveByCopy e.rng s.st.Js s.st.phisComp e.params.killThreshold s.st.g with
  | .error err => (s, .error err)
  | .ok c =>
    let s : RunState C S M K G := { s with st := { s.st with g := c.g } }
    match s.last with
    | none => (s, .error .unboundLocalError)
    | some r => (s, .ok (⟨c.Js, fun m i => c.targets i m⟩,
        { steps := s.steps
          maxAbsIncomp := r.last.maxAbsIncomp
          maxAbsOmegaDiff := r.last.maxAbsOmegaDiff
          maxAbsJsDiff := r.last.maxAbsJsDiff
          maxConstraintResidue := r.last.maxConstraintResidue
          reviveCountLeft := s.reviveLeft }))

/-- `run` (`finder.py:510-686`) with the arguments resolved.  Returns the new arrays and revive budget
of the finder together with the result or exception. -/
def runImpl (e : RunEnv C S M K G) (maxSteps : ℚ) (tolerance : K) (interval : ℤ)
    (st : State C S M K G) (reviveLeft : ℤ) :
    RunState C S M K G × Py (Phases M C K × Diagnostics K) :=
  let s : RunState C S M K G := ⟨st, reviveLeft, 0, none⟩
  match stepsTracker maxSteps interval with
  | .error err => (s, .error err)
  | .ok tracker =>
    match stepsInner maxSteps tracker with
    | .error err => (s, .error err)
    | .ok inner =>
      match runLoop e tolerance inner tracker.toNat s with
      | (s, .error err) => (s, .error err)
      | (s, .ok ()) => runFinal e s

end Run

end Flory
