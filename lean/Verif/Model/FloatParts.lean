import Verif.Model.Floats
import Verif.Model.Entropy
import Verif.Model.Interaction

/-! # Compiled entropies and interactions with arbitrary arithmetic, see `Model/Floats.lean` -/

namespace Flory

variable {F : Type} (o : Floats F)

local infixl:65 " +ᶠ " => o.add
local infixl:65 " -ᶠ " => o.sub
local infixl:70 " *ᶠ " => o.mul
local infixl:70 " /ᶠ " => o.div

section Ideal

variable {C M : ℕ}

/-- `IdealGasEntropyCompiled.partition` (`flory/entropy/ideal_gas.py:62-71`). -/
def idealPartitionF (sizes : Vec C F) (phisComp omegas : Mat C M F) (Js : Vec M F) :
    Py (Mat C M F × Vec C F) :=
  let totalJs := o.sum Js
  forRangeM C (phisComp, fun _ => o.ofNat 0) fun i s => do
    let row : Vec M F := fun m => o.exp (o.neg (omegas i m) *ᶠ sizes i)
    let phis := setAt s.1 i row
    let q ← o.pyDiv (o.sum fun m => row m *ᶠ Js m) totalJs
    return (phis, setAt s.2 i q)

/-- `volume_derivative` of both entropies (`flory/entropy/ideal_gas.py:78-82`,
`flory/entropy/ideal_gas_polydispersed.py:93-97`). -/
def gasVolumeDerivativeF (sizes : Vec C F) (phisComp : Mat C M F) : Vec M F :=
  forRange C (fun _ => o.ofNat 0) fun i ans m => ans m -ᶠ phisComp i m /ᶠ sizes i

/-- `IdealGasEntropyCompiled` (`flory/entropy/ideal_gas.py:18-82`). -/
def idealF (sizes : Vec C F) (M : ℕ) : EntropyI C C M F where
  partition := idealPartitionF o sizes
  compToFeat phisFeat phisComp := .ok (forRange C phisFeat fun r a => setAt a r (phisComp r))
  volumeDerivative := gasVolumeDerivativeF o sizes

end Ideal

section Poly

variable {C S M : ℕ}

/-- `IdealGasPolydispersedEntropyCompiled.partition`
(`flory/entropy/ideal_gas_polydispersed.py:69-82`). -/
def polyPartitionF (sizes : Vec C F) (perFeat : Vec S ℕ) (phisComp : Mat C M F) (omegas : Mat S M F)
    (Js : Vec M F) : Py (Mat C M F × Vec C F) := do
  let totalJs := o.sum Js
  let s ← forRangeM S (phisComp, ((fun _ => o.ofNat 0 : Vec C F), 0)) fun r s =>
    forRangeM (perFeat r) s fun _ s => do
      let (phis, Qs, itr) := s
      let size ← readAt sizes itr
      let row : Vec M F := fun m => o.exp (o.neg (omegas r m) *ᶠ size)
      let phis ← writeAt phis itr row
      let q ← o.pyDiv (o.sum fun m => row m *ᶠ Js m) totalJs
      let Qs ← writeAt Qs itr q
      return (phis, Qs, itr + 1)
  return (s.1, s.2.1)

/-- `comp_to_feat` (`flory/entropy/ideal_gas_polydispersed.py:84-91`). -/
def polyCompToFeatF (perFeat : Vec S ℕ) (phisFeat : Mat S M F) (phisComp : Mat C M F) :
    Py (Mat S M F) := do
  let s ← forRangeM S (phisFeat, 0) fun r s => do
    let (feat, itr) := s
    let row ← readAt phisComp itr
    let feat := setAt feat r row
    forRangeM (perFeat r - 1) (feat, itr + 1) fun _ s => do
      let (feat, itr) := s
      let row ← readAt phisComp itr
      return (setAt feat r fun m => feat r m +ᶠ row m, itr + 1)
  return s.1

/-- `IdealGasPolydispersedEntropyCompiled` (`flory/entropy/ideal_gas_polydispersed.py:19-97`). -/
def polyF (sizes : Vec C F) (perFeat : Vec S ℕ) (M : ℕ) : EntropyI C S M F where
  partition := polyPartitionF o sizes perFeat
  compToFeat := polyCompToFeatF o perFeat
  volumeDerivative := gasVolumeDerivativeF o sizes

end Poly

section Interaction

variable {S : ℕ}

/-- `FloryHugginsInteractionCompiled` (`flory/interaction/flory_huggins.py:56-71`); the coefficient of the
incompressibility is a number computed at construction. -/
def floryHugginsF (chis : Mat S S F) (coef : F) (M : ℕ) : InteractionI S M F where
  potential phisFeat r m := o.dot (chis r) fun s => phisFeat s m
  volumeDerivative potential phisFeat :=
    let ans : Vec M F := forRange S (fun _ => o.ofNat 0) fun r ans m =>
      ans m +ᶠ potential r m *ᶠ phisFeat r m
    fun m => ans m *ᶠ o.half
  incompCoef _ := coef

end Interaction

end Flory
