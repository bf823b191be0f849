import Verif.Model.Ensemble
import Verif.Model.Transcript

/-!
# Transcription of `flory/ensemble/canonical.py`

Written by `tools/transcribe.py`; do not edit.
-/

set_option linter.unusedVariables false
set_option linter.unusedSectionVars false

namespace Flory.Gen

variable {K : Type} [Field K] [LinearOrder K] {C M : ℕ}

/-- `CanonicalEnsembleCompiled.__init__` (`flory/ensemble/canonical.py:39-48`, code from line 47). -/
def CanonicalC.init (phi_means : Vec C K) :
    CanonicalC C K :=
  let self_phi_means : Vec C K := phi_means
  { phiMeans := self_phi_means }

/-- `CanonicalEnsembleCompiled.normalize` (`flory/ensemble/canonical.py:54-63`, code from line 57). -/
def CanonicalC.normalize (self : CanonicalC C K) (phis_comp : Mat C M K) (Qs : Vec C K)
    (masks : Vec M K) :
    Py (Vec M K × Mat C M K) := do
  let self_phi_means : Vec C K := self.phiMeans
  let incomp : Vec M K := fun i1 => ((-1) * 1)
  let s6 ←
    forRangeM C (phis_comp, incomp) fun itr_comp s2 => do
      let phis_comp : Mat C M K := s2.1
      let incomp : Vec M K := s2.2
      let t3 : K ← pyDiv (self_phi_means itr_comp) (Qs itr_comp)
      let factor : K := t3
      let phis_comp : Mat C M K :=
        setAt phis_comp itr_comp (fun i4 => ((factor * (phis_comp itr_comp i4)) * (masks i4)))
      let incomp : Vec M K := fun i5 => ((incomp i5) + (phis_comp itr_comp i5))
      pure (phis_comp, incomp)
  let phis_comp : Mat C M K := s6.1
  let incomp : Vec M K := s6.2
  let incomp : Vec M K := fun i7 => ((incomp i7) * (masks i7))
  pure (incomp, phis_comp)

end Flory.Gen
