import Verif.Model.Entropy
import Verif.Model.Transcript

/-!
# Transcription of `flory/entropy/ideal_gas_polydispersed.py`

Written by `tools/transcribe.py`; do not edit.
-/

set_option linter.unusedVariables false
set_option linter.unusedSectionVars false

namespace Flory.Gen

variable {C S M : ℕ}

/-- `IdealGasPolydispersedEntropyCompiled.__init__` (`flory/entropy/ideal_gas_polydispersed.py:43-59`, code from line 56). -/
noncomputable def PolyC.init (sizes : Vec C ℝ) (num_comp_per_feat : Vec S ℕ) :
    PolyC C S :=
  let self_sizes : Vec C ℝ := sizes
  let self_num_comp_per_feat : Vec S ℕ := num_comp_per_feat
  { perFeat := self_num_comp_per_feat, sizes := self_sizes }

/-- `IdealGasPolydispersedEntropyCompiled.partition` (`flory/entropy/ideal_gas_polydispersed.py:69-82`, code from line 72). -/
noncomputable def PolyC.partition (self : PolyC C S) (phis_comp : Mat C M ℝ) (omegas : Mat S M ℝ)
    (Js : Vec M ℝ) :
    Py (Vec C ℝ × Mat C M ℝ) := do
  let self_num_comp_per_feat : Vec S ℕ := self.perFeat
  let self_sizes : Vec C ℝ := self.sizes
  let Qs : Vec C ℝ := fun i1 => 0
  let total_Js : ℝ := (∑ i2, (Js i2))
  let itr_comp : ℤ := 0
  let s12 ←
    forRangeM S (phis_comp, Qs, itr_comp) fun itr_feat s3 => do
      let phis_comp : Mat C M ℝ := s3.1
      let Qs : Vec C ℝ := s3.2.1
      let itr_comp : ℤ := s3.2.2
      let s11 ←
        forRangeM ((((self_num_comp_per_feat itr_feat) : ℕ) : ℤ)).toNat (phis_comp, Qs, itr_comp) fun _i s4 => do
          let phis_comp : Mat C M ℝ := s4.1
          let Qs : Vec C ℝ := s4.2.1
          let itr_comp : ℤ := s4.2.2
          let t5 : ℝ ← readInt self_sizes itr_comp
          let phis_comp : Mat C M ℝ ←
            writeInt phis_comp itr_comp (fun i6 => (Real.exp ((-(omegas itr_feat i6)) * t5)))
          let t7 : Vec M ℝ ← readInt phis_comp itr_comp
          let Qs : Vec C ℝ ← writeInt Qs itr_comp (∑ i8, ((t7 i8) * (Js i8)))
          let t9 : ℝ ← readInt Qs itr_comp
          let t10 : ℝ ← pyDiv t9 total_Js
          let Qs : Vec C ℝ ← writeInt Qs itr_comp t10
          let itr_comp : ℤ := itr_comp + 1
          pure (phis_comp, Qs, itr_comp)
      let phis_comp : Mat C M ℝ := s11.1
      let Qs : Vec C ℝ := s11.2.1
      let itr_comp : ℤ := s11.2.2
      pure (phis_comp, Qs, itr_comp)
  let phis_comp : Mat C M ℝ := s12.1
  let Qs : Vec C ℝ := s12.2.1
  pure (Qs, phis_comp)

/-- `IdealGasPolydispersedEntropyCompiled.comp_to_feat` (`flory/entropy/ideal_gas_polydispersed.py:84-91`, code from line 85). -/
noncomputable def PolyC.comp_to_feat (self : PolyC C S) (phis_feat : Mat S M ℝ)
    (phis_comp : Mat C M ℝ) :
    Py (Mat S M ℝ) := do
  let self_num_comp_per_feat : Vec S ℕ := self.perFeat
  let itr_comp : ℤ := 0
  let s8 ←
    forRangeM S (phis_feat, itr_comp) fun itr_feat s1 => do
      let phis_feat : Mat S M ℝ := s1.1
      let itr_comp : ℤ := s1.2
      let t2 : Vec M ℝ ← readInt phis_comp itr_comp
      let phis_feat : Mat S M ℝ := setAt phis_feat itr_feat (fun i3 => (t2 i3))
      let itr_comp : ℤ := itr_comp + 1
      let s7 ←
        forRangeM ((((self_num_comp_per_feat itr_feat) : ℕ) : ℤ) - 1).toNat (phis_feat, itr_comp) fun _i s4 => do
          let phis_feat : Mat S M ℝ := s4.1
          let itr_comp : ℤ := s4.2
          let t5 : Vec M ℝ ← readInt phis_comp itr_comp
          let phis_feat : Mat S M ℝ :=
            setAt phis_feat itr_feat (fun i6 => ((phis_feat itr_feat i6) + (t5 i6)))
          let itr_comp : ℤ := itr_comp + 1
          pure (phis_feat, itr_comp)
      let phis_feat : Mat S M ℝ := s7.1
      let itr_comp : ℤ := s7.2
      pure (phis_feat, itr_comp)
  let phis_feat : Mat S M ℝ := s8.1
  pure phis_feat

/-- `IdealGasPolydispersedEntropyCompiled.volume_derivative` (`flory/entropy/ideal_gas_polydispersed.py:93-97`, code from line 94). -/
noncomputable def PolyC.volume_derivative (self : PolyC C S) (phis_comp : Mat C M ℝ) :
    Vec M ℝ :=
  let self_sizes : Vec C ℝ := self.sizes
  let ans : Vec M ℝ := fun i1 => 0
  let ans : Vec M ℝ :=
    forRange C ans fun itr_comp ans =>
      let ans : Vec M ℝ :=
        fun i2 => ((ans i2) - ((phis_comp itr_comp i2) / (self_sizes itr_comp)))
      ans
  ans

end Flory.Gen
