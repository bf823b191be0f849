import Verif.Model.GenObjects
import Verif.Gen.Finder

/-!
# Finders with transcribed methods

The methods of `Verif/Gen/Finder.lean` work on a record of attributes.  Here is the record that belongs
to a finder of the model, with compiled objects whose methods are transcribed, and the way back.
-/

namespace Flory

variable {G : Type}

/-- The diagnostics as the dictionary of the transcription (`flory/mcmp/finder.py:675-683`). -/
def Diagnostics.dict (d : Diagnostics ℝ) : DiagDict where
  steps := d.steps
  maxAbsIncomp := d.maxAbsIncomp
  maxAbsOmegaDiff := d.maxAbsOmegaDiff
  maxAbsJsDiff := d.maxAbsJsDiff
  maxConstraintResidue := d.maxConstraintResidue
  reviveCountLeft := d.reviveCountLeft

/-- The attributes of a finder (`flory/mcmp/finder.py:178-239`); the compiled instances have the
transcribed methods of `Verif/Gen/`. -/
noncomputable def Finder.attrs (f : Finder G) (p : Finder.Parts f.numComp f.numFeat f.numPart) :
    FinderAttrs f.numComp f.numFeat f.numPart where
  interaction := Gen.FHCompiled.obj p.ia f.numPart
  entropy := Gen.entropyObj f.numPart p.en
  ensemble := Gen.ensembleObj f.numPart p.es
  constraints := p.cons
  maxSteps := f.maxSteps
  criterion := f.criterion
  tolerance := f.tolerance
  interval := f.interval
  randomStd := f.randomStd
  params := f.params
  maxRevive := f.maxRevive
  diagnostics := f.diagnostics.map Diagnostics.dict
  omegas := f.omegas
  Js := f.Js
  phisFeat := f.phisFeat
  phisComp := f.phisComp
  reviveLeft := f.reviveLeft

/-- A finder after a method changed its attributes in place (`flory/mcmp/finder.py:178-239`). -/
noncomputable def Finder.adopt (f : Finder G) (a : FinderAttrs f.numComp f.numFeat f.numPart) (g : G)
    (d : Option (Diagnostics ℝ)) : Finder G :=
  { f with
    constraints := a.constraints.map fun c => ⟨f.numFeat, true, c⟩
    omegas := a.omegas
    Js := a.Js
    phisFeat := a.phisFeat
    phisComp := a.phisComp
    reviveLeft := a.reviveLeft
    g := g
    diagnostics := d }

end Flory
