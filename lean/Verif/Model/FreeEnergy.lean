import Verif.Model.EntropyObj
import Verif.Model.Interaction
import Mathlib.Analysis.Matrix.Spectrum

/-!
# Model of `flory/free_energy/`

numpy arrays whose last dimension is the component are a leading shape together with one item
per leading multi-index (`Rows`).
-/

namespace Flory

open XReal

/-- Analytic part of an interaction or an entropy with `C` components: the interface of
`flory/interaction/base.py:131-180` and `flory/entropy/base.py:135-184`, for one composition.
`jacobianFractions` is the optional method looked up with `hasattr`. -/
structure EnergyPart (C : ℕ) where
  energy : Vec C ℝ → XReal
  jacobian : Vec C ℝ → Vec C XReal
  hessian : Vec C ℝ → Mat C C XReal
  jacobianFractions : Option (Vec C ℝ → Vec C XReal)

/-- Flory-Huggins interaction (`flory/interaction/flory_huggins.py:138-192`). -/
noncomputable def fhPart {C : ℕ} (chis : Mat C C ℝ) : EnergyPart C where
  energy phi := fin (fhEnergy chis phi)
  jacobian phi i := fin (fhJacobian chis phi i)
  hessian phi i j := fin (fhHessian chis phi i j)
  jacobianFractions := none

/-- Ideal gas entropy (`flory/entropy/ideal_gas.py:125-202`). -/
noncomputable def gasPart {C : ℕ} (sizes : Vec C ℝ) : EnergyPart C where
  energy := gasEnergy sizes
  jacobian := gasJacobian sizes
  hessian := gasHessian sizes
  jacobianFractions := some (gasJacobianFractions sizes)

/-- An array with leading shape `lead` and one item of type `α` per leading index. The array
arguments and results of `flory/free_energy/base.py:74-408`. -/
structure Rows (α : Type) where
  lead : List ℕ
  row : List ℕ → α

/-- Apply a function to every item. Numpy vectorization in `flory/free_energy/base.py:74-408`. -/
def Rows.map {α β : Type} (f : α → β) (a : Rows α) : Rows β := ⟨a.lead, fun idx => f (a.row idx)⟩

/-- `FreeEnergyBase` object (`flory/free_energy/base.py:27-47`). -/
structure FreeEnergy (C : ℕ) where
  interaction : EnergyPart C
  entropy : EnergyPart C

/-- `FreeEnergyBase.__init__` (`flory/free_energy/base.py:27-47`): parts come with their own component number. -/
def FreeEnergy.new (i : Σ C, EnergyPart C) (e : Σ C, EnergyPart C) : Py (Σ C, FreeEnergy C) :=
  if h : i.1 = e.1 then .ok ⟨i.1, i.2, h ▸ e.2⟩ else .error .componentNumberError

/-- `FloryHuggins.__init__` (`flory/free_energy/flory_huggins.py:35-54`). -/
noncomputable def FreeEnergy.floryHuggins (C : ℕ) (chis : NDArr ℝ) (sizes : Option (NDArr ℝ)) :
    Py (Σ C, FreeEnergy C) := do
  let i ← FHInteraction.new C chis
  let e ← GasEntropy.new C sizes
  FreeEnergy.new ⟨C, fhPart i.chis⟩ ⟨C, gasPart e.sizes⟩

/-- A Python index into an axis of length `n`: negative indices count from the end. Models `index`
at `flory/free_energy/base.py:241`, `273-278`, `320`, `340`. -/
def normIndex (n : ℕ) (k : ℤ) : Py (Fin n) :=
  if h : 0 ≤ k ∧ k < n then .ok ⟨k.toNat, by omega⟩
  else if h : -(n : ℤ) ≤ k ∧ k < 0 then .ok ⟨(k + n).toNat, by omega⟩
  else .error .indexError

/-- Position in the original axis after `np.delete(·, k)`. Models `flory/free_energy/base.py:241`,
`278`. -/
def skipAt {C : ℕ} (k : Fin C) (i : Fin (C - 1)) : Fin C :=
  if i.1 < k.1 then ⟨i.1, by omega⟩ else ⟨i.1 + 1, by omega⟩

/-- The symmetric matrix `np.linalg.eigvalsh` works with: it only reads the lower triangle. Models
`flory/free_energy/base.py:360`. -/
def lowerSymmetric {n : ℕ} (H : Mat n n ℝ) : Matrix (Fin n) (Fin n) ℝ :=
  Matrix.of fun i j => if j ≤ i then H i j else H j i

theorem lowerSymmetric_isHermitian {n : ℕ} (H : Mat n n ℝ) : (lowerSymmetric H).IsHermitian := by
  refine Matrix.IsHermitian.ext fun i j => ?_
  simp only [lowerSymmetric, Matrix.of_apply, star_trivial]
  rcases lt_trichotomy i j with h | h | h
  · rw [if_pos h.le, if_neg (not_le.mpr h)]
  · rw [h]
  · rw [if_neg (not_le.mpr h), if_pos h.le]

/-- `np.linalg.eigvalsh` of a real matrix. Models `flory/free_energy/base.py:360`. -/
noncomputable def eigvalsh {n : ℕ} (H : Mat n n ℝ) : Vec n ℝ :=
  (lowerSymmetric_isHermitian H).eigenvalues

namespace FreeEnergy

variable {C : ℕ} (fe : FreeEnergy C)

/-- `_energy_impl` (`flory/free_energy/base.py:74-93`). -/
def energyImpl (phi : Vec C ℝ) : XReal := fe.interaction.energy phi + fe.entropy.energy phi

/-- `_jacobian_impl` (`flory/free_energy/base.py:95-114`). -/
def jacobianImpl (phi : Vec C ℝ) : Vec C XReal :=
  fun i => fe.interaction.jacobian phi i + fe.entropy.jacobian phi i

/-- `_hessian_impl` (`flory/free_energy/base.py:116-135`). -/
def hessianImpl (phi : Vec C ℝ) : Mat C C XReal :=
  fun i j => fe.interaction.hessian phi i j + fe.entropy.hessian phi i j

/-- The `hasattr` branches of `_jacobian_fractions_impl` (`flory/free_energy/base.py:153-161`). -/
noncomputable def partFractions (p : EnergyPart C) (phi : Vec C ℝ) : Vec C XReal :=
  match p.jacobianFractions with
  | some f => f phi
  | none => fun i => (p.jacobian phi i).mulR (phi i)

/-- `_jacobian_fractions_impl` (`flory/free_energy/base.py:137-163`). -/
noncomputable def jacobianFractionsImpl (phi : Vec C ℝ) : Vec C XReal :=
  fun i => partFractions fe.interaction phi i + partFractions fe.entropy phi i

/-- All multi-indices of a shape. Used for the vectorized call at
`flory/free_energy/base.py:360-361`. -/
def allIndices : List ℕ → List (List ℕ)
  | [] => [[]]
  | d :: s => (List.range d).flatMap fun i => (allIndices s).map fun idx => i :: idx

/-- `check_volume_fractions` with the default axis (`flory/free_energy/base.py:165-196`).  A scalar has no last
dimension: `IndexError`. -/
noncomputable def checkVolumeFractions (_ : FreeEnergy C) (phis : NDArr ℝ) :
    Py (Rows (Vec C ℝ)) :=
  match phis.shape.getLast? with
  | none => .error .indexError
  | some d =>
    if d ≠ C then .error .volumeFractionError
    else if ∃ idx ∈ allIndices phis.shape, phis.get idx < 0 then .error .volumeFractionError
    else .ok ⟨phis.shape.dropLast, fun idx i => phis.get (idx ++ [i.1])⟩

/-- `free_energy_density` (`flory/free_energy/base.py:198-211`). -/
noncomputable def freeEnergyDensity (phis : NDArr ℝ) : Py (Rows XReal) := do
  let phis ← fe.checkVolumeFractions phis
  return phis.map fe.energyImpl

/-- `jacobian(phis)` (`flory/free_energy/base.py:235-238`). -/
noncomputable def jacobian (phis : NDArr ℝ) : Py (Rows (Vec C XReal)) := do
  let phis ← fe.checkVolumeFractions phis
  return phis.map fe.jacobianImpl

/-- `jacobian(phis, index)` (`flory/free_energy/base.py:235-242`). -/
noncomputable def jacobianAt (phis : NDArr ℝ) (index : ℤ) : Py (Rows (Vec (C - 1) XReal)) := do
  let phis ← fe.checkVolumeFractions phis
  let j := phis.map fe.jacobianImpl
  let k ← normIndex C index
  return j.map fun v i => v (skipAt k i) - v k

/-- `hessian(phis)` (`flory/free_energy/base.py:266-269`). -/
noncomputable def hessian (phis : NDArr ℝ) : Py (Rows (Mat C C XReal)) := do
  let phis ← fe.checkVolumeFractions phis
  return phis.map fe.hessianImpl

/-- `hessian(phis, index)` (`flory/free_energy/base.py:266-278`). -/
noncomputable def hessianAt (phis : NDArr ℝ) (index : ℤ) :
    Py (Rows (Mat (C - 1) (C - 1) XReal)) := do
  let phis ← fe.checkVolumeFractions phis
  let h := phis.map fe.hessianImpl
  let k ← normIndex C index
  let reduced := h.map fun (H : Mat C C XReal) (i j : Fin C) => H i j - H k j - H i k + H k k
  return reduced.map fun H i j => H (skipAt k i) (skipAt k j)

/-- `chemical_potentials` (`flory/free_energy/base.py:280-297`).  For a single composition `np.atleast_1d` adds a leading
dimension of length one. -/
noncomputable def chemicalPotentials (phis : NDArr ℝ) : Py (Rows (Vec C XReal)) := do
  let p ← fe.checkVolumeFractions phis
  let f ← fe.freeEnergyDensity phis
  let j ← fe.jacobian phis
  let phij := p.map fun phi => XReal.sum (fe.jacobianFractionsImpl phi)
  let lead := if f.lead = [] then [1] else f.lead
  let orig := fun idx : List ℕ => if f.lead = [] then [] else idx
  return ⟨lead, fun idx i => f.row (orig idx) - phij.row (orig idx) + j.row (orig idx) i⟩

/-- `exchange_chemical_potentials` (`flory/free_energy/base.py:299-320`). -/
noncomputable def exchangeChemicalPotentials (phis : NDArr ℝ) (index : ℤ) :
    Py (Rows (Vec C XReal)) := do
  let mus ← fe.jacobian phis
  let k ← normIndex C index
  return mus.map fun v i => v i - v k

/-- `pressure` (`flory/free_energy/base.py:322-340`). -/
noncomputable def pressure (phis : NDArr ℝ) (index : ℤ) : Py (Rows XReal) := do
  let mus ← fe.chemicalPotentials phis
  let k ← normIndex C index
  return mus.map fun v => -(v k)

/-- Number of negative eigenvalues (`flory/free_energy/base.py:360-361`). -/
noncomputable def countNegative {n : ℕ} (H : Mat n n ℝ) : ℕ :=
  (Finset.univ.filter fun i => eigvalsh H i < 0).card

/-- `np.linalg.eigvalsh` and counting on every item of an array of matrices. Matrices with entries
that are not finite (compositions with vanishing fractions) make LAPACK fail or return NaN; the
model raises `LinAlgError`, and no property is stated for them. Models
`flory/free_energy/base.py:360-361`. -/
noncomputable def countRows {n : ℕ} (h : Rows (Mat n n XReal)) : Py (Rows ℕ) :=
  haveI := Classical.propDecidable
  if ∀ idx ∈ allIndices h.lead, ∀ i j, (h.row idx i j).IsFin then
    .ok (h.map fun H => countNegative fun i j => (H i j).nanToNum)
  else .error .linAlgError

/-- `num_unstable_modes(phis)` (`flory/free_energy/base.py:342-361`, `conserved=True`). -/
noncomputable def numUnstableModes (phis : NDArr ℝ) : Py (Rows ℕ) := do
  countRows (← fe.hessianAt phis 0)

/-- `num_unstable_modes(phis, conserved=False)` (`flory/free_energy/base.py:342-361`). -/
noncomputable def numUnstableModesFree (phis : NDArr ℝ) : Py (Rows ℕ) := do
  countRows (← fe.hessian phis)

/-- `is_stable(phis)` (`flory/free_energy/base.py:363-379`). -/
noncomputable def isStable (phis : NDArr ℝ) : Py (Rows Bool) := do
  let n ← fe.numUnstableModes phis
  return n.map fun k => decide (k = 0)

/-- `is_stable(phis, conserved=False)` (`flory/free_energy/base.py:363-379`). -/
noncomputable def isStableFree (phis : NDArr ℝ) : Py (Rows Bool) := do
  let n ← fe.numUnstableModesFree phis
  return n.map fun k => decide (k = 0)

/-- The deviations of the chemical potentials of `P` phases from their mean (`flory/free_energy/base.py:405-407`).  The
model covers phases given as an array of shape `(P, C)` with `P ≥ 1`, or one composition. -/
noncomputable def deviations {P : ℕ} (mus : Fin P → Vec C XReal) : Mat P C ℝ :=
  let mus : Mat P C ℝ := fun p i => (mus p i).nanToNum
  fun p i => mus p i - (∑ q, mus q i) / P

/-- `equilibration_error` with `order=None` (`flory/free_energy/base.py:381-408`), before the norm; `P` is the number of
rows of `chemical_potentials`. -/
noncomputable def equilibrationDeviations (phis : NDArr ℝ) : Py (Σ P, Mat P C ℝ) := do
  let mus ← fe.chemicalPotentials phis
  match mus.lead with
  | [P] => .ok ⟨P, deviations fun p : Fin P => mus.row [p.1]⟩
  | _ => .error .notImplementedError

/-- `equilibration_error(phis, axis=1)`: one number per phase (`flory/free_energy/base.py:381-408`). -/
noncomputable def equilibrationErrorByPhase (phis : NDArr ℝ) : Py (List ℝ) := do
  let d ← fe.equilibrationDeviations phis
  return List.ofFn fun p => Real.sqrt (∑ i, d.2 p i ^ 2)

/-- `equilibration_error(phis, axis=0)`: one number per component (`flory/free_energy/base.py:381-408`). -/
noncomputable def equilibrationErrorByComponent (phis : NDArr ℝ) : Py (Vec C ℝ) := do
  let d ← fe.equilibrationDeviations phis
  return fun i => Real.sqrt (∑ p, d.2 p i ^ 2)

/-- `equilibration_error(phis, axis=None)`: one number (`flory/free_energy/base.py:381-408`). -/
noncomputable def equilibrationErrorAll (phis : NDArr ℝ) : Py ℝ := do
  let d ← fe.equilibrationDeviations phis
  return Real.sqrt (∑ p, ∑ i, d.2 p i ^ 2)

end FreeEnergy

end Flory
