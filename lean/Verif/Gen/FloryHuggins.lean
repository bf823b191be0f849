import Verif.Model.Interaction
import Verif.Model.Transcript

/-!
# Transcription of `flory/interaction/flory_huggins.py`

Written by `tools/transcribe.py`; do not edit.
-/

set_option linter.unusedVariables false
set_option linter.unusedSectionVars false

namespace Flory.Gen

variable {K : Type} [Field K] [LinearOrder K] {S M : ℕ}

/-- `FloryHugginsInteractionCompiled.__init__` (`flory/interaction/flory_huggins.py:37-50`, code from line 48). -/
def FHCompiled.init (chis : Mat S S K) (chis_shift : K) :
    FHCompiled S K :=
  let self_chis : Mat S S K := chis
  let self_incomp_coef : K :=
    (∑ i1, ∑ i2, (chis i1 i2)) + ((chis_shift * ((S : ℕ) : K)) * ((S : ℕ) : K))
  { chis := self_chis, coef := self_incomp_coef }

/-- `FloryHugginsInteractionCompiled.volume_derivative` (`flory/interaction/flory_huggins.py:56-65`, code from line 61). -/
def FHCompiled.volume_derivative (self : FHCompiled S K) (potential : Mat S M K)
    (phis_feat : Mat S M K) :
    Vec M K :=
  let ans : Vec M K := fun i1 => 0
  let ans : Vec M K :=
    forRange S ans fun itr ans =>
      let ans : Vec M K := fun i2 => ((ans i2) + ((potential itr i2) * (phis_feat itr i2)))
      ans
  let ans : Vec M K := fun i3 => ((ans i3) * (1 / 2))
  ans

/-- `FloryHugginsInteractionCompiled.potential` (`flory/interaction/flory_huggins.py:67-68`, code from line 68). -/
def FHCompiled.potential (self : FHCompiled S K) (phis_feat : Mat S M K) :
    Mat S M K :=
  let self_chis : Mat S S K := self.chis
  fun i2 i3 => (∑ k1, (self_chis i2 k1) * (phis_feat k1 i3))

/-- `FloryHugginsInteractionCompiled.incomp_coef` (`flory/interaction/flory_huggins.py:70-71`, code from line 71). -/
def FHCompiled.incomp_coef (self : FHCompiled S K) (phis_feat : Mat S M K) :
    K :=
  let self_incomp_coef : K := self.coef
  self_incomp_coef

end Flory.Gen
