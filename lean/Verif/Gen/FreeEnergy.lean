import Verif.Model.Norm
import Verif.Model.TranscriptArrays

/-!
# Transcription of the numeric code of the free energies

Written by `tools/transcribe_arrays.py`; do not edit.
-/

set_option linter.unusedVariables false

namespace Flory.Gen

open XReal (fin nan)

variable {C : ℕ}

/-- `xlogx` (`flory/common/math.py:11-17`). -/
noncomputable def xlogx (x : ℝ) :
    XReal :=
  if (x = 0) then
    (fin 0)
  else
    if (x < 0) then
      nan
    else
      (XReal.mulR (XReal.log x) x)

/-- `FloryHugginsInteractionBase._energy_impl` (`flory/interaction/flory_huggins.py:138-155`). -/
noncomputable def FloryHugginsInteractionBase.energy_impl (chis : Mat C C ℝ) (phis : Vec C ℝ) :
    ℝ :=
  let ans : ℝ := ((1 / 2) * (∑ si, ∑ sj, (phis si) * (phis sj) * (chis si sj)))
  ans

/-- `FloryHugginsInteractionBase._jacobian_impl` (`flory/interaction/flory_huggins.py:157-174`). -/
noncomputable def FloryHugginsInteractionBase.jacobian_impl (chis : Mat C C ℝ) (phis : Vec C ℝ) :
    Vec C ℝ :=
  let ans : Vec C ℝ := fun i => (∑ s, ((phis s) * (chis s i)))
  fun i => (ans i)

/-- `FloryHugginsInteractionBase._hessian_impl` (`flory/interaction/flory_huggins.py:176-192`). -/
noncomputable def FloryHugginsInteractionBase.hessian_impl (chis : Mat C C ℝ) (phis : Vec C ℝ) :
    Mat C C ℝ :=
  fun i j => (0 + (chis i j))

/-- `IdealGasEntropyBase._energy_impl` (`flory/entropy/ideal_gas.py:125-141`). -/
noncomputable def IdealGasEntropyBase.energy_impl (sizes : Vec C ℝ) (phis : Vec C ℝ) :
    XReal :=
  (XReal.sum fun s1 => (XReal.divR (xlogx (phis s1)) (sizes s1)))

/-- `IdealGasEntropyBase._jacobian_impl` (`flory/entropy/ideal_gas.py:143-159`). -/
noncomputable def IdealGasEntropyBase.jacobian_impl (sizes : Vec C ℝ) (phis : Vec C ℝ) :
    Vec C XReal :=
  fun i => ((XReal.divR (XReal.log (phis i)) (sizes i)) + (XReal.divR (fin 1) (sizes i)))

/-- `IdealGasEntropyBase._hessian_impl` (`flory/entropy/ideal_gas.py:161-184`). -/
noncomputable def IdealGasEntropyBase.hessian_impl (sizes : Vec C ℝ) (phis : Vec C ℝ) :
    Mat C C XReal :=
  let ans_diag : Vec C XReal := fun i => (XReal.mulR (XReal.divR (fin 1) (phis i)) (sizes i))
  let ans : Mat C C ℝ := fun i j => 0
  let ans : Mat C C XReal := fun i j => (fin (ans i j))
  let ans : Mat C C XReal :=
    forRange C ans fun itr ans =>
      let ans : Mat C C XReal := setAt2 ans itr itr (ans_diag itr)
      ans
  fun i j => (ans i j)

/-- `IdealGasEntropyBase._jacobian_fractions_impl` (`flory/entropy/ideal_gas.py:186-202`). -/
noncomputable def IdealGasEntropyBase.jacobian_fractions_impl (sizes : Vec C ℝ) (phis : Vec C ℝ) :
    Vec C XReal :=
  fun i => ((XReal.divR (xlogx (phis i)) (sizes i)) + (XReal.divR (fin (phis i)) (sizes i)))

/-- `FreeEnergyBase._energy_impl` (`flory/free_energy/base.py:74-93`). -/
noncomputable def FreeEnergyBase.energy_impl (self : FreeEnergy C) (phis : Vec C ℝ) :
    XReal :=
  ((self.interaction.energy (fun i => (phis i))) + (self.entropy.energy (fun i => (phis i))))

/-- `FreeEnergyBase._jacobian_impl` (`flory/free_energy/base.py:95-114`). -/
noncomputable def FreeEnergyBase.jacobian_impl (self : FreeEnergy C) (phis : Vec C ℝ) :
    Vec C XReal :=
  fun i => ((self.interaction.jacobian (fun i => (phis i)) i) + (self.entropy.jacobian (fun i => (phis i)) i))

/-- `FreeEnergyBase._hessian_impl` (`flory/free_energy/base.py:116-135`). -/
noncomputable def FreeEnergyBase.hessian_impl (self : FreeEnergy C) (phis : Vec C ℝ) :
    Mat C C XReal :=
  fun i j => ((self.interaction.hessian (fun i => (phis i)) i j) + (self.entropy.hessian (fun i => (phis i)) i j))

/-- `FreeEnergyBase._jacobian_fractions_impl` (`flory/free_energy/base.py:137-163`). -/
noncomputable def FreeEnergyBase.jacobian_fractions_impl (self : FreeEnergy C) (phis : Vec C ℝ) :
    Vec C XReal :=
  let ans_interaction : Vec C XReal :=
    match self.interaction.jacobianFractions with
    | some f => f (fun i => (phis i))
    | none => fun i => (XReal.mulR (self.interaction.jacobian (fun i => (phis i)) i) (phis i))
  let ans_entropy : Vec C XReal :=
    match self.entropy.jacobianFractions with
    | some f => f (fun i => (phis i))
    | none => fun i => (XReal.mulR (self.entropy.jacobian (fun i => (phis i)) i) (phis i))
  fun i => ((ans_interaction i) + (ans_entropy i))

/-- `FreeEnergyBase.check_volume_fractions` (`flory/free_energy/base.py:165-196`). -/
noncomputable def FreeEnergyBase.check_volume_fractions (self : FreeEnergy C) (phis : NDArr ℝ) (axis : ℤ) :
    Py (NDArr ℝ) := do
  let phis : NDArr ℝ := phis
  let t1 ← shapeAt phis.shape axis
  if t1 ≠ C then
    .error .volumeFractionError
  else
    if ndAny (fun x => x < 0) phis then
      .error .volumeFractionError
    else
      pure phis

/-- `FreeEnergyBase.free_energy_density` (`flory/free_energy/base.py:198-211`). -/
noncomputable def FreeEnergyBase.free_energy_density (self : FreeEnergy C) (phis : NDArr ℝ) :
    Py (Rows (XReal)) := do
  let t1 ← FreeEnergyBase.check_volume_fractions self phis (-1)
  let phis : NDArr ℝ := t1
  pure (((rowsOf C phis).map (FreeEnergyBase.energy_impl self)))

/-- `FreeEnergyBase.jacobian` with `index=None` (`flory/free_energy/base.py:213-242`). -/
noncomputable def FreeEnergyBase.jacobian (self : FreeEnergy C) (phis : NDArr ℝ) :
    Py (Rows (Vec C XReal)) := do
  let t1 ← FreeEnergyBase.check_volume_fractions self phis (-1)
  let phis : NDArr ℝ := t1
  let j_full : Rows (Vec C XReal) := ((rowsOf C phis).map (FreeEnergyBase.jacobian_impl self))
  pure j_full

/-- `FreeEnergyBase.jacobian` (`flory/free_energy/base.py:213-242`). -/
noncomputable def FreeEnergyBase.jacobian_at (self : FreeEnergy C) (phis : NDArr ℝ) (index : ℤ) :
    Py (Rows (Vec (C - 1) XReal)) := do
  let t1 ← FreeEnergyBase.check_volume_fractions self phis (-1)
  let phis : NDArr ℝ := t1
  let j_full : Rows (Vec C XReal) := ((rowsOf C phis).map (FreeEnergyBase.jacobian_impl self))
  let k2 ← normIndex C index
  let k3 ← normIndex C index
  let t4 : Rows (Vec (C - 1) XReal) ← Rows.zip2 (fun x y => fun i => ((x (skipAt k2 i)) - (y k3))) j_full j_full
  pure t4

/-- `FreeEnergyBase.hessian` with `index=None` (`flory/free_energy/base.py:244-278`). -/
noncomputable def FreeEnergyBase.hessian (self : FreeEnergy C) (phis : NDArr ℝ) :
    Py (Rows (Mat C C XReal)) := do
  let t1 ← FreeEnergyBase.check_volume_fractions self phis (-1)
  let phis : NDArr ℝ := t1
  let h_full : Rows (Mat C C XReal) := ((rowsOf C phis).map (FreeEnergyBase.hessian_impl self))
  pure h_full

/-- `FreeEnergyBase.hessian` (`flory/free_energy/base.py:244-278`). -/
noncomputable def FreeEnergyBase.hessian_at (self : FreeEnergy C) (phis : NDArr ℝ) (index : ℤ) :
    Py (Rows (Mat (C - 1) (C - 1) XReal)) := do
  let t1 ← FreeEnergyBase.check_volume_fractions self phis (-1)
  let phis : NDArr ℝ := t1
  let h_full : Rows (Mat C C XReal) := ((rowsOf C phis).map (FreeEnergyBase.hessian_impl self))
  let k2 ← normIndex C index
  let t3 : Rows (Mat C C XReal) ← Rows.zip2 (fun x y => fun i j => ((x i j) - (y k2 j))) h_full h_full
  let k4 ← normIndex C index
  let t5 : Rows (Mat C C XReal) ← Rows.zip2 (fun x y => fun i j => ((x i j) - (y i k4))) t3 h_full
  let k6 ← normIndex C index
  let k7 ← normIndex C index
  let t8 : Rows (Mat C C XReal) ← Rows.zip2 (fun x y => fun i j => ((x i j) + (y k7 k6))) t5 h_full
  let h_reduced_full : Rows (Mat C C XReal) := t8
  let k9 ← normIndex C index
  let k10 ← normIndex C index
  pure (h_reduced_full.map fun x => (fun i j => (x (skipAt k10 i) (skipAt k9 j))))

/-- `FreeEnergyBase.chemical_potentials` (`flory/free_energy/base.py:280-297`). -/
noncomputable def FreeEnergyBase.chemical_potentials (self : FreeEnergy C) (phis : NDArr ℝ) :
    Py (Rows (Vec C XReal)) := do
  let t1 ← FreeEnergyBase.check_volume_fractions self phis (-1)
  let phis : NDArr ℝ := t1
  let t2 ← FreeEnergyBase.free_energy_density self phis
  let f : Rows (XReal) := t2
  let t3 ← FreeEnergyBase.jacobian self phis
  let j : Rows (Vec C XReal) := t3
  let phij : Rows (XReal) := ((rowsOf C phis).map (FreeEnergyBase.jacobian_fractions_impl self)).map fun x => (XReal.sum fun s1 => (x s1))
  let t4 : Rows (Vec 1 XReal) ← Rows.zip2 (fun x y => fun i => (x - y)) ((Rows.atLeast1 f)) phij
  let t5 : Rows (Vec C XReal) ← Rows.zip2 (fun x y => fun i => ((x 0) + (y i))) t4 j
  let ans : Rows (Vec C XReal) := t5
  pure ans

/-- `FreeEnergyBase.exchange_chemical_potentials` (`flory/free_energy/base.py:299-320`). -/
noncomputable def FreeEnergyBase.exchange_chemical_potentials (self : FreeEnergy C) (phis : NDArr ℝ) (index : ℤ) :
    Py (Rows (Vec C XReal)) := do
  let t1 ← FreeEnergyBase.jacobian self phis
  let mus : Rows (Vec C XReal) := t1
  let k2 ← normIndex C index
  let t3 : Rows (Vec C XReal) ← Rows.zip2 (fun x y => fun i => ((x i) - (y k2))) mus mus
  pure t3

/-- `FreeEnergyBase.pressure` (`flory/free_energy/base.py:322-340`). -/
noncomputable def FreeEnergyBase.pressure (self : FreeEnergy C) (phis : NDArr ℝ) (index : ℤ) :
    Py (Rows (XReal)) := do
  let t1 ← FreeEnergyBase.chemical_potentials self phis
  let mus : Rows (Vec C XReal) := t1
  let k2 ← normIndex C index
  pure (mus.map fun x => (-(x k2)))

/-- `FreeEnergyBase.num_unstable_modes` with `conserved=True` (`flory/free_energy/base.py:342-361`). -/
noncomputable def FreeEnergyBase.num_unstable_modes (self : FreeEnergy C) (phis : NDArr ℝ) :
    Py (Rows (ℕ)) := do
  let t1 ← FreeEnergyBase.hessian_at self phis 0
  let t2 ← Rows.eigvalsh t1
  let eigenvalues : Rows (Vec (C - 1) ℝ) := t2
  pure (eigenvalues.map fun x => (∑ s1, if ((x s1) < 0) then 1 else 0))

/-- `FreeEnergyBase.num_unstable_modes` with `conserved=False` (`flory/free_energy/base.py:342-361`). -/
noncomputable def FreeEnergyBase.num_unstable_modes_free (self : FreeEnergy C) (phis : NDArr ℝ) :
    Py (Rows (ℕ)) := do
  let t1 ← FreeEnergyBase.hessian self phis
  let t2 ← Rows.eigvalsh t1
  let eigenvalues : Rows (Vec C ℝ) := t2
  pure (eigenvalues.map fun x => (∑ s1, if ((x s1) < 0) then 1 else 0))

/-- `FreeEnergyBase.is_stable` with `conserved=True` (`flory/free_energy/base.py:363-379`). -/
noncomputable def FreeEnergyBase.is_stable (self : FreeEnergy C) (phis : NDArr ℝ) :
    Py (Rows (Bool)) := do
  let t1 ← FreeEnergyBase.num_unstable_modes self phis
  pure (t1.map fun x => decide (x = 0))

/-- `FreeEnergyBase.is_stable` with `conserved=False` (`flory/free_energy/base.py:363-379`). -/
noncomputable def FreeEnergyBase.is_stable_free (self : FreeEnergy C) (phis : NDArr ℝ) :
    Py (Rows (Bool)) := do
  let t1 ← FreeEnergyBase.num_unstable_modes_free self phis
  pure (t1.map fun x => decide (x = 0))

/-- `FreeEnergyBase.equilibration_error` (`flory/free_energy/base.py:381-408`). -/
noncomputable def FreeEnergyBase.equilibration_error (self : FreeEnergy C) (phis : NDArr ℝ) (order : NormOrder) (axis : Option ℤ) :
    Py (NormResult) := do
  let t1 ← FreeEnergyBase.chemical_potentials self phis
  let mus : Rows (Vec C XReal) := t1
  let mus : Rows (Vec C ℝ) := mus.map fun x => (fun i => (XReal.nanToNum (x i)))
  let t2 ← Rows.mean0 mus
  let t3 : Rows (Vec C ℝ) ← Rows.zip2 (fun x y => fun i => ((x i) - (y i))) mus t2
  let t4 ← Rows.inPlace mus t3
  let mus : Rows (Vec C ℝ) := t4
  let t5 ← Rows.norm mus order axis
  pure t5

end Flory.Gen
