import Verif.Model.Interface
import Mathlib.Analysis.SpecialFunctions.Log.Basic

/-! # Model of `flory/entropy/` (compiled classes) -/

namespace Flory

/-- `IdealGasEntropyCompiled` (`flory/entropy/ideal_gas.py:18-60`). -/
structure IdealC (C : ℕ) where
  sizes : Vec C ℝ

namespace IdealC

variable {C M : ℕ}

/-- `partition` (`ideal_gas.py:62-71`).  `Qs[i] /= total_Js` is a scalar division and raises if
the total volume is zero. -/
noncomputable def partition (e : IdealC C) (phisComp : Mat C M ℝ) (omegas : Mat C M ℝ)
    (Js : Vec M ℝ) : Py (Mat C M ℝ × Vec C ℝ) :=
  let totalJs := ∑ m, Js m
  forRangeM C (phisComp, fun _ => 0) fun i s => do
    let row : Vec M ℝ := fun m => Real.exp (-omegas i m * e.sizes i)
    let phis := setAt s.1 i row
    let q ← pyDiv (∑ m, row m * Js m) totalJs
    return (phis, setAt s.2 i q)

/-- `comp_to_feat` (`ideal_gas.py:73-76`). -/
def compToFeat (_ : IdealC C) (phisFeat phisComp : Mat C M ℝ) : Py (Mat C M ℝ) :=
  .ok (forRange C phisFeat fun r a => setAt a r (phisComp r))

/-- `volume_derivative` (`ideal_gas.py:78-82`).  Array divided by scalar: does not raise; the model
is meant for non-zero sizes. -/
noncomputable def volumeDerivative (e : IdealC C) (phisComp : Mat C M ℝ) : Vec M ℝ :=
  forRange C (fun _ => 0) fun i ans m => ans m - phisComp i m / e.sizes i

/-- The compiled entropy as seen by the core iteration. Compiled classes in
`flory/entropy/ideal_gas.py:18-82` and `flory/entropy/ideal_gas_polydispersed.py:19-97`, used at
`flory/mcmp/_finder_impl.py:345-347` and `373`. -/
noncomputable def toI (e : IdealC C) (M : ℕ) : EntropyI C C M ℝ where
  partition := e.partition
  compToFeat := e.compToFeat
  volumeDerivative := e.volumeDerivative

end IdealC

/-- `IdealGasPolydispersedEntropyCompiled` (`flory/entropy/ideal_gas_polydispersed.py:19-67`).
`C` is the length of `sizes`, `S` the length of `num_comp_per_feat`. -/
structure PolyC (C S : ℕ) where
  sizes : Vec C ℝ
  perFeat : Vec S ℕ

namespace PolyC

variable {C S M : ℕ}

/-- `partition` (`ideal_gas_polydispersed.py:69-82`): the running index `itr_comp` is the last
part of the loop state. -/
noncomputable def partition (e : PolyC C S) (phisComp : Mat C M ℝ) (omegas : Mat S M ℝ)
    (Js : Vec M ℝ) : Py (Mat C M ℝ × Vec C ℝ) := do
  let totalJs := ∑ m, Js m
  let s ← forRangeM S (phisComp, ((fun _ => 0 : Vec C ℝ), 0)) fun r s =>
    forRangeM (e.perFeat r) s fun _ s => do
      let (phis, Qs, itr) := s
      let size ← readAt e.sizes itr
      let row : Vec M ℝ := fun m => Real.exp (-omegas r m * size)
      let phis ← writeAt phis itr row
      let q ← pyDiv (∑ m, row m * Js m) totalJs
      let Qs ← writeAt Qs itr q
      return (phis, Qs, itr + 1)
  return (s.1, s.2.1)

/-- `comp_to_feat` (`ideal_gas_polydispersed.py:84-91`): the first component is copied, the others
(`range(1, n)`) are added. -/
noncomputable def compToFeat (e : PolyC C S) (phisFeat : Mat S M ℝ) (phisComp : Mat C M ℝ) :
    Py (Mat S M ℝ) := do
  let s ← forRangeM S (phisFeat, 0) fun r s => do
    let (feat, itr) := s
    let row ← readAt phisComp itr
    let feat := setAt feat r row
    forRangeM (e.perFeat r - 1) (feat, itr + 1) fun _ s => do
      let (feat, itr) := s
      let row ← readAt phisComp itr
      return (setAt feat r fun m => feat r m + row m, itr + 1)
  return s.1

/-- `volume_derivative` (`ideal_gas_polydispersed.py:93-97`). -/
noncomputable def volumeDerivative (e : PolyC C S) (phisComp : Mat C M ℝ) : Vec M ℝ :=
  forRange C (fun _ => 0) fun i ans m => ans m - phisComp i m / e.sizes i

/-- The compiled entropy as seen by the core iteration. Compiled classes in
`flory/entropy/ideal_gas.py:18-82` and `flory/entropy/ideal_gas_polydispersed.py:19-97`, used at
`flory/mcmp/_finder_impl.py:345-347` and `373`. -/
noncomputable def toI (e : PolyC C S) (M : ℕ) : EntropyI C S M ℝ where
  partition := e.partition
  compToFeat := e.compToFeat
  volumeDerivative := e.volumeDerivative

end PolyC

end Flory
