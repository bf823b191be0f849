import Verif.Model.XReal
import Verif.Spec.Calculus
import Verif.Model.NDArray

/-! # The Flory-Huggins free energy as documented (independent of the model) -/

namespace Flory.Spec

open Topology XReal

variable {C : ℕ}

/-- `f = Σ φ_i ln(φ_i)/l_i + ½ Σ χ_ij φ_i φ_j` (`0 ln 0 = 0`). -/
noncomputable def freeEnergy (chis : Mat C C ℝ) (l : Vec C ℝ) (phi : Vec C ℝ) : ℝ :=
  (∑ i, phi i * Real.log (phi i) / l i) + 1 / 2 * ∑ i, ∑ j, chis i j * phi i * phi j

/-- Chemical potential per volume of component `i`:
`μ_i = (ln φ_i + 1)/l_i + Σ_j χ_ij φ_j − ½ Σ χ φ φ − Σ_j φ_j/l_j`. -/
noncomputable def chemPot (chis : Mat C C ℝ) (l : Vec C ℝ) (phi : Vec C ℝ) (i : Fin C) : ℝ :=
  (Real.log (phi i) + 1) / l i + ∑ j, chis i j * phi j
    - 1 / 2 * (∑ j, ∑ k, chis j k * phi j * phi k) - ∑ j, phi j / l j

/-- The numbers `g` are finite and are the gradient at `x` of the function `f`, which is finite near
`x`. -/
def XGradientAt (f : Vec C ℝ → XReal) (g : Vec C XReal) (x : Vec C ℝ) : Prop :=
  ∃ (e : Vec C ℝ → ℝ) (g' : Vec C ℝ), (∀ᶠ y in 𝓝 x, f y = fin (e y)) ∧ (∀ i, g i = fin (g' i)) ∧
    IsGradientAt e g' x

/-- Change of the composition that exchanges component `i` against component `k`. -/
def exchange (i k : Fin C) : Vec C ℝ := Pi.single i 1 - Pi.single k 1

/-- The composition stored at leading index `idx` of an array whose last dimension is the component. -/
def composition (C : ℕ) (phis : NDArr ℝ) (idx : List ℕ) : Vec C ℝ := fun i => phis.get (idx ++ [i.1])

/-- `idx` is a valid multi-index of an array of the given shape. -/
def ValidIndex (idx shape : List ℕ) : Prop := List.Forall₂ (· < ·) idx shape

/-- The Python index `k` (negative indices count from the end) denotes component `k'`. -/
def IsIndex (k : ℤ) (k' : Fin C) : Prop := k = k' ∨ k = (k' : ℤ) - C

end Flory.Spec
