import Verif.Model.Entropy
import Verif.Model.Transcript

/-!
# Transcription of `flory/entropy/ideal_gas.py`

Written by `tools/transcribe.py`; do not edit.
-/

set_option linter.unusedVariables false
set_option linter.unusedSectionVars false

namespace Flory.Gen

variable {C M : ℕ}

/-- `IdealGasEntropyCompiled.__init__` (`flory/entropy/ideal_gas.py:41-52`, code from line 50). -/
noncomputable def IdealC.init (sizes : Vec C ℝ) :
    IdealC C :=
  let self_sizes : Vec C ℝ := sizes
  { sizes := self_sizes }

/-- `IdealGasEntropyCompiled.partition` (`flory/entropy/ideal_gas.py:62-71`, code from line 65). -/
noncomputable def IdealC.partition (self : IdealC C) (phis_comp : Mat C M ℝ) (omegas : Mat C M ℝ)
    (Js : Vec M ℝ) :
    Py (Vec C ℝ × Mat C M ℝ) := do
  let self_sizes : Vec C ℝ := self.sizes
  let Qs : Vec C ℝ := fun i1 => 0
  let total_Js : ℝ := (∑ i2, (Js i2))
  let s7 ←
    forRangeM C (phis_comp, Qs) fun itr_comp s3 => do
      let phis_comp : Mat C M ℝ := s3.1
      let Qs : Vec C ℝ := s3.2
      let phis_comp : Mat C M ℝ :=
        setAt phis_comp itr_comp (fun i4 => (Real.exp ((-(omegas itr_comp i4)) * (self_sizes itr_comp))))
      let Qs : Vec C ℝ := setAt Qs itr_comp (∑ i5, ((phis_comp itr_comp i5) * (Js i5)))
      let t6 : ℝ ← pyDiv (Qs itr_comp) total_Js
      let Qs : Vec C ℝ := setAt Qs itr_comp t6
      pure (phis_comp, Qs)
  let phis_comp : Mat C M ℝ := s7.1
  let Qs : Vec C ℝ := s7.2
  pure (Qs, phis_comp)

/-- `IdealGasEntropyCompiled.comp_to_feat` (`flory/entropy/ideal_gas.py:73-76`, code from line 74). -/
noncomputable def IdealC.comp_to_feat (self : IdealC C) (phis_feat : Mat C M ℝ)
    (phis_comp : Mat C M ℝ) :
    Mat C M ℝ :=
  let phis_feat : Mat C M ℝ :=
    forRange C phis_feat fun itr_feat phis_feat =>
      let itr_comp : Fin C := itr_feat
      let phis_feat : Mat C M ℝ := setAt phis_feat itr_feat (fun i1 => (phis_comp itr_comp i1))
      phis_feat
  phis_feat

/-- `IdealGasEntropyCompiled.volume_derivative` (`flory/entropy/ideal_gas.py:78-82`, code from line 79). -/
noncomputable def IdealC.volume_derivative (self : IdealC C) (phis_comp : Mat C M ℝ) :
    Vec M ℝ :=
  let self_sizes : Vec C ℝ := self.sizes
  let ans : Vec M ℝ := fun i1 => 0
  let ans : Vec M ℝ :=
    forRange C ans fun itr_comp ans =>
      let ans : Vec M ℝ :=
        fun i2 => ((ans i2) - ((phis_comp itr_comp i2) / (self_sizes itr_comp)))
      ans
  ans

end Flory.Gen
