import Verif.Model.Constraint
import Verif.Model.Transcript

/-!
# Transcription of `flory/constraint/linear_global.py`

Written by `tools/transcribe.py`; do not edit.
-/

set_option linter.unusedVariables false
set_option linter.unusedSectionVars false

namespace Flory.Gen

variable {K : Type} [Field K] [LinearOrder K] {A S M : ℕ} [NeZero M]

/-- `LinearGlobalConstraintCompiled.initialize` (`flory/constraint/linear_global.py:100-101`, code from line 101). -/
def GlobalC.initialize (self : GlobalC A S M K) :
    GlobalC A S M K :=
  let self_multiplier : Vec A K := self.multiplier
  let self_multiplier : Vec A K := fun i1 => 0
  { self with multiplier := self_multiplier }

/-- `LinearGlobalConstraintCompiled.prepare` (`flory/constraint/linear_global.py:103-124`, code from line 104). -/
def GlobalC.prepare (self : GlobalC A S M K) (phis_feat : Mat S M K) (Js : Vec M K)
    (masks : Vec M K) :
    GlobalC A S M K :=
  let self_Cs : Mat A S K := self.Cs
  let self_Ts : Vec A K := self.Ts
  let self_multiplier : Vec A K := self.multiplier
  let self_residue : Vec A K := self.residue
  let self_potential : Mat S M K := self.potential
  let self_volume_derivative : Vec M K := self.volumeDerivative
  let self_elasticity : K := self.elasticity
  let compart_residue : Mat A M K := fun i2 i3 => (∑ k1, (self_Cs i2 k1) * (phis_feat k1 i3))
  let compart_residue : Mat A M K :=
    forRange A compart_residue fun itr_cons compart_residue =>
      let compart_residue : Mat A M K :=
        setAt compart_residue itr_cons (fun i4 => ((compart_residue itr_cons i4) - (self_Ts itr_cons)))
      compart_residue
  let self_residue : Vec A K := fun i6 => (∑ i5, ((compart_residue i6 i5) * (Js i5)))
  let self_potential : Mat S M K :=
    fun i8 i9 => ((∑ k7, (self_Cs k7 i8) * ((self_multiplier k7) + ((2 * self_elasticity) * (self_residue k7)))) * 1)
  let self_volume_derivative : Vec M K := fun i10 => 0
  let self_volume_derivative : Vec M K :=
    forRange A self_volume_derivative fun itr_cons self_volume_derivative =>
      let self_volume_derivative : Vec M K :=
        fun i11 => ((self_volume_derivative i11) + ((compart_residue itr_cons i11) * ((self_multiplier itr_cons) + ((2 * (self_residue itr_cons)) * self_elasticity))))
      self_volume_derivative
  let self_potential : Mat S M K := fun i12 i13 => ((self_potential i12 i13) * (masks i13))
  let self_volume_derivative : Vec M K :=
    fun i14 => ((self_volume_derivative i14) * (masks i14))
  let self_residue : Vec A K := fun i16 => ((self_residue i16) / (∑ i15, (Js i15)))
  { self with residue := self_residue, potential := self_potential, volumeDerivative := self_volume_derivative }

/-- `LinearGlobalConstraintCompiled.evolve` (`flory/constraint/linear_global.py:126-128`, code from line 127). -/
def GlobalC.evolve (self : GlobalC A S M K) (step : K) (masks : Vec M K) :
    Py (K × GlobalC A S M K) := do
  let self_multiplier : Vec A K := self.multiplier
  let self_residue : Vec A K := self.residue
  let self_acceptance_ratio : K := self.acceptanceRatio
  let self_multiplier : Vec A K :=
    fun i1 => ((self_multiplier i1) + ((step * self_acceptance_ratio) * (self_residue i1)))
  let t3 : K ← npMaxPy fun i2 => |(self_residue i2)|
  pure (t3, { self with multiplier := self_multiplier })

end Flory.Gen
