import Verif.Model.Finder
import Verif.Model.Transcript

/-!
# The attributes of a finder, for the transcription of its methods

`Verif/Gen/Finder.lean` contains the methods of `CoexistingPhasesFinder` as translated by
`tools/transcribe.py`.  They work on the record of this file.
-/

namespace Flory

/-- The dictionary `self._diagnostics` (`flory/mcmp/finder.py:675-683`), without the entry `time`. -/
structure DiagDict where
  steps : ℤ
  maxAbsIncomp : ℝ
  maxAbsOmegaDiff : ℝ
  maxAbsJsDiff : ℝ
  maxConstraintResidue : ℝ
  reviveCountLeft : ℤ

/-- The attributes used by the transcribed methods (`flory/mcmp/finder.py:178-239`), for compiled
instances that fit (`flory/mcmp/finder.py:241-284`).  The generator `self._rng` is passed separately. -/
structure FinderAttrs (C S M : ℕ) where
  interaction : InteractionI S M ℝ
  entropy : EntropyI C S M ℝ
  ensemble : EnsembleI C M ℝ
  constraints : List (Cons S M ℝ)
  maxSteps : ℚ
  criterion : String
  tolerance : ℝ
  interval : ℤ
  randomStd : ℝ
  params : Params ℝ
  maxRevive : ℤ
  diagnostics : Option DiagDict
  omegas : Mat S M ℝ
  Js : Vec M ℝ
  phisFeat : Mat S M ℝ
  phisComp : Mat C M ℝ
  reviveLeft : ℤ

/-- `rng.normal(0.0, std, (rows, cols))`; numpy rejects a negative standard deviation. Models
`flory/mcmp/finder.py:449-453`. -/
noncomputable def drawNormalPy {G : Type} (rng : Rng G ℝ) (std : ℝ) (rows cols : ℕ) (g : G) :
    Py (Mat rows cols ℝ × G) :=
  if std < 0 then .error .valueError else .ok (Finder.drawNormal rng std rows cols g)

end Flory
