import Verif.Model.Constraint
import Verif.Model.Transcript

/-!
# Transcription of `flory/constraint/no.py`

Written by `tools/transcribe.py`; do not edit.
-/

set_option linter.unusedVariables false
set_option linter.unusedSectionVars false

namespace Flory.Gen

variable {K : Type} [Field K] [LinearOrder K] {S M : ℕ} [NeZero M]

/-- `NoConstraintCompiled.initialize` (`flory/constraint/no.py:47-49`, code from line 48). -/
def NoC.initialize (self : NoC S M K) :
    NoC S M K :=
  let self_potential : Mat S M K := self.potential
  let self_volume_derivative : Vec M K := self.volumeDerivative
  let self_potential : Mat S M K := fun i1 i2 => 0
  let self_volume_derivative : Vec M K := fun i3 => 0
  { self with potential := self_potential, volumeDerivative := self_volume_derivative }

/-- `NoConstraintCompiled.prepare` (`flory/constraint/no.py:51-52`, code from line 52). -/
def NoC.prepare (self : NoC S M K) (phis_feat : Mat S M K) (Js : Vec M K) (masks : Vec M K) :
    NoC S M K :=
  self

/-- `NoConstraintCompiled.evolve` (`flory/constraint/no.py:54-55`, code from line 55). -/
def NoC.evolve (self : NoC S M K) (step : K) (masks : Vec M K) :
    K :=
  0

end Flory.Gen
