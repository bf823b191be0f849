import Verif.Model.Py
import Mathlib.Data.Real.Basic

/-! # The documented constraint energies (independent of the model) -/

namespace Flory.Spec

variable {A S M : ℕ}

/-- Violation of constraint `a` in compartment `m`: `Σ_r C_ar φ_rm - T_a`. -/
def violation (Cs : Mat A S ℝ) (Ts : Vec A ℝ) (phi : Mat S M ℝ) (a : Fin A) (m : Fin M) : ℝ :=
  (∑ r, Cs a r * phi r m) - Ts a

/-- Energy of local linear constraints, docstring of `LinearLocalConstraintCompiled`
(`linear_local.py:47-51`). -/
def localConstraintEnergy (Cs : Mat A S ℝ) (Ts : Vec A ℝ) (xi : Mat A M ℝ) (kappa : ℝ)
    (phi : Mat S M ℝ) (J : Vec M ℝ) : ℝ :=
  ∑ a, ∑ m, J m * (xi a m * violation Cs Ts phi a m + kappa * violation Cs Ts phi a m ^ 2)

/-- Energy of global linear constraints, docstring of `LinearGlobalConstraintCompiled`
(`linear_global.py:47-52`). -/
def globalConstraintEnergy (Cs : Mat A S ℝ) (Ts : Vec A ℝ) (xi : Vec A ℝ) (kappa : ℝ)
    (phi : Mat S M ℝ) (J : Vec M ℝ) : ℝ :=
  ∑ a, xi a * ∑ m, J m * violation Cs Ts phi a m +
    ∑ a, kappa * (∑ m, J m * violation Cs Ts phi a m) ^ 2

/-- Replace one entry of a matrix. -/
def updEntry (phi : Mat S M ℝ) (r : Fin S) (m : Fin M) (x : ℝ) : Mat S M ℝ :=
  fun r' m' => if r' = r ∧ m' = m then x else phi r' m'

end Flory.Spec
