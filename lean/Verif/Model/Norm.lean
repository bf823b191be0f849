import Verif.Model.FreeEnergy
import Mathlib.Analysis.SpecialFunctions.Pow.Real

/-! # `equilibration_error` with every `order` and `axis` -/

namespace Flory

/-- The argument `ord` of `np.linalg.norm`: `None`, `np.inf`, `-np.inf`, a number, `"fro"`, `"nuc"`, or
another string. Passed on at `flory/free_energy/base.py:408`. -/
inductive NormOrder where
  | none
  | inf
  | ninf
  | num (p : ℝ)
  | fro
  | nuc
  | other

/-- A norm along one axis gives an array, over both axes a number. Result at
`flory/free_energy/base.py:408`. -/
inductive NormResult where
  | scalar (x : ℝ)
  | array (x : List ℝ)

/-- `np.linalg.norm` along one axis, for one line of the array (`flory/free_energy/base.py:408`).  A
negative power of zero is infinite, and a negative power of infinity is zero.  Lines are not empty. -/
noncomputable def vectorNorm {n : ℕ} (v : Vec n ℝ) (order : NormOrder) : Py ℝ :=
  haveI := Classical.propDecidable
  match order with
  | .none => .ok (Real.sqrt (∑ i, v i ^ 2))
  | .inf => .ok (⨆ i, |v i|)
  | .ninf => .ok (⨅ i, |v i|)
  | .num p =>
    if p = 0 then .ok (∑ i, if v i ≠ 0 then 1 else 0)
    else if p = 1 then .ok (∑ i, |v i|)
    else if p = 2 then .ok (Real.sqrt (∑ i, v i ^ 2))
    else if p < 0 ∧ ∃ i, v i = 0 then .ok 0
    else .ok ((∑ i, |v i| ^ p) ^ (1 / p))
  | .fro => .error .valueError
  | .nuc => .error .valueError
  | .other => .error .valueError

/-- Function `op` of the singular values of a matrix, of which there are as many as rows or columns,
whichever are fewer: roots of the eigenvalues of the smaller one of the two matrices of scalar products.
Used by `np.linalg.norm` at `flory/free_energy/base.py:408`. -/
noncomputable def singular {P C : ℕ} (op : {n : ℕ} → Vec n ℝ → ℝ) (A : Mat P C ℝ) : ℝ :=
  if P ≤ C then op fun p => Real.sqrt (eigvalsh (fun p q => ∑ i, A p i * A q i) p)
  else op fun i => Real.sqrt (eigvalsh (fun i j => ∑ p, A p i * A p j) i)

/-- `np.linalg.norm` over both axes of a matrix (`flory/free_energy/base.py:408`).  There is at least
one row and one column. -/
noncomputable def matrixNorm {P C : ℕ} (A : Mat P C ℝ) (order : NormOrder) : Py ℝ :=
  haveI := Classical.propDecidable
  match order with
  | .none => .ok (Real.sqrt (∑ p, ∑ i, A p i ^ 2))
  | .fro => .ok (Real.sqrt (∑ p, ∑ i, A p i ^ 2))
  | .nuc => .ok (singular (fun v => ∑ k, v k) A)
  | .inf => .ok (⨆ p, ∑ i, |A p i|)
  | .ninf => .ok (⨅ p, ∑ i, |A p i|)
  | .num p =>
    if p = 2 then .ok (singular (fun v => ⨆ k, v k) A)
    else if p = -2 then .ok (singular (fun v => ⨅ k, v k) A)
    else if p = 1 then .ok (⨆ i, ∑ p, |A p i|)
    else if p = -1 then .ok (⨅ i, ∑ p, |A p i|)
    else .error .valueError
  | .other => .error .valueError

/-- `np.linalg.norm(mus, ord=order, axis=axis)` of a matrix (`flory/free_energy/base.py:408`): an axis
that does not exist raises `AxisError`, a subclass of `ValueError`. -/
noncomputable def norm2d {P C : ℕ} (A : Mat P C ℝ) (order : NormOrder) (axis : Option ℤ) :
    Py NormResult :=
  match axis with
  | none => do return .scalar (← matrixNorm A order)
  | some k =>
    if k = 0 ∨ k = -2 then do
      return .array (← (List.ofFn fun i => vectorNorm (fun p => A p i) order).mapM id)
    else if k = 1 ∨ k = -1 then do
      return .array (← (List.ofFn fun p => vectorNorm (A p) order).mapM id)
    else .error .valueError

/-- `equilibration_error(phis, order, axis)` (`flory/free_energy/base.py:381-408`).  The model covers what
`equilibrationDeviations` covers. -/
noncomputable def FreeEnergy.equilibrationError {C : ℕ} (fe : FreeEnergy C) (phis : NDArr ℝ)
    (order : NormOrder) (axis : Option ℤ) : Py NormResult := do
  let d ← fe.equilibrationDeviations phis
  norm2d d.2 order axis

end Flory
