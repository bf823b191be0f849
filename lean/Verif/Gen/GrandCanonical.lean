import Verif.Model.Ensemble
import Verif.Model.Transcript

/-!
# Transcription of `flory/ensemble/grandcanonical.py`

Written by `tools/transcribe.py`; do not edit.
-/

set_option linter.unusedVariables false
set_option linter.unusedSectionVars false

namespace Flory.Gen

variable {K : Type} [Field K] [LinearOrder K] {C M : ℕ}

/-- `GrandCanonicalEnsembleCompiled.__init__` (`flory/ensemble/grandcanonical.py:39-48`, code from line 47). -/
def GrandC.init (scaled_activity : Vec C K) :
    GrandC C K :=
  let self_scaled_activity : Vec C K := scaled_activity
  { scaledActivity := self_scaled_activity }

/-- `GrandCanonicalEnsembleCompiled.normalize` (`flory/ensemble/grandcanonical.py:54-64`, code from line 57). -/
def GrandC.normalize (self : GrandC C K) (phis_comp : Mat C M K) (Qs : Vec C K) (masks : Vec M K)
    :
    Vec M K × Mat C M K :=
  let self_scaled_activity : Vec C K := self.scaledActivity
  let incomp : Vec M K := fun i1 => ((-1) * 1)
  let s5 :=
    forRange C (phis_comp, incomp) fun itr_comp s2 =>
      let phis_comp : Mat C M K := s2.1
      let incomp : Vec M K := s2.2
      let phis_comp : Mat C M K :=
        setAt phis_comp itr_comp (fun i3 => (((self_scaled_activity itr_comp) * (phis_comp itr_comp i3)) * (masks i3)))
      let incomp : Vec M K := fun i4 => ((incomp i4) + (phis_comp itr_comp i4))
      (phis_comp, incomp)
  let phis_comp : Mat C M K := s5.1
  let incomp : Vec M K := s5.2
  let incomp : Vec M K := fun i6 => ((incomp i6) * (masks i6))
  (incomp, phis_comp)

end Flory.Gen
