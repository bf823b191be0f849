import Verif.Model.Constraint
import Verif.Model.Transcript

/-!
# Transcription of `flory/constraint/linear_local.py`

Written by `tools/transcribe.py`; do not edit.
-/

set_option linter.unusedVariables false
set_option linter.unusedSectionVars false

namespace Flory.Gen

variable {K : Type} [Field K] [LinearOrder K] {A S M : ℕ} [NeZero M]

/-- `LinearLocalConstraintCompiled.initialize` (`flory/constraint/linear_local.py:99-100`, code from line 100). -/
def LocalC.initialize (self : LocalC A S M K) :
    LocalC A S M K :=
  let self_multiplier : Mat A M K := self.multiplier
  let self_multiplier : Mat A M K := fun i1 i2 => 0
  { self with multiplier := self_multiplier }

/-- `LinearLocalConstraintCompiled.prepare` (`flory/constraint/linear_local.py:102-117`, code from line 103). -/
def LocalC.prepare (self : LocalC A S M K) (phis_feat : Mat S M K) (Js : Vec M K)
    (masks : Vec M K) :
    LocalC A S M K :=
  let self_Cs : Mat A S K := self.Cs
  let self_Ts : Vec A K := self.Ts
  let self_multiplier : Mat A M K := self.multiplier
  let self_residue : Mat A M K := self.residue
  let self_potential : Mat S M K := self.potential
  let self_volume_derivative : Vec M K := self.volumeDerivative
  let self_elasticity : K := self.elasticity
  let self_residue : Mat A M K := fun i2 i3 => (∑ k1, (self_Cs i2 k1) * (phis_feat k1 i3))
  let self_residue : Mat A M K :=
    forRange A self_residue fun itr_cons self_residue =>
      let self_residue : Mat A M K :=
        setAt self_residue itr_cons (fun i4 => ((self_residue itr_cons i4) - (self_Ts itr_cons)))
      self_residue
  let self_potential : Mat S M K :=
    fun i6 i7 => (∑ k5, (self_Cs k5 i6) * ((self_multiplier k5 i7) + ((2 * self_elasticity) * (self_residue k5 i7))))
  let self_volume_derivative : Vec M K := fun i8 => 0
  let self_volume_derivative : Vec M K :=
    forRange A self_volume_derivative fun itr_cons self_volume_derivative =>
      let self_volume_derivative : Vec M K :=
        fun i9 => ((self_volume_derivative i9) + ((self_residue itr_cons i9) * ((self_multiplier itr_cons i9) + ((self_residue itr_cons i9) * self_elasticity))))
      self_volume_derivative
  let self_potential : Mat S M K := fun i10 i11 => ((self_potential i10 i11) * (masks i11))
  let self_residue : Mat A M K := fun i12 i13 => ((self_residue i12 i13) * (masks i13))
  let self_volume_derivative : Vec M K :=
    fun i14 => ((self_volume_derivative i14) * (masks i14))
  { self with residue := self_residue, potential := self_potential, volumeDerivative := self_volume_derivative }

/-- `LinearLocalConstraintCompiled.evolve` (`flory/constraint/linear_local.py:119-122`, code from line 120). -/
def LocalC.evolve (self : LocalC A S M K) (step : K) (masks : Vec M K) :
    Py (K × LocalC A S M K) := do
  let self_multiplier : Mat A M K := self.multiplier
  let self_residue : Mat A M K := self.residue
  let self_acceptance_ratio : K := self.acceptanceRatio
  let self_multiplier : Mat A M K :=
    fun i1 i2 => ((self_multiplier i1 i2) + ((step * self_acceptance_ratio) * (self_residue i1 i2)))
  let self_multiplier : Mat A M K := fun i3 i4 => ((self_multiplier i3 i4) * (masks i4))
  let t7 : K ← npMaxPy fun i5 => npMax fun i6 => |(self_residue i5 i6)|
  pure (t7, { self with multiplier := self_multiplier })

end Flory.Gen
