import Verif.Spec.Overshoot

/-! # Whether some `acceptance_omega` damps all differences between compartments -/

namespace Flory.Spec

variable {C S : ℕ}

/-- Change of the exchange potentials along `z`, weighted with `y`: the mixed second derivative of the free
energy of a mixture with loads `d`. -/
noncomputable def crossCurvature (chis : Mat S S ℝ) (d y z : Vec S ℝ) : ℝ :=
  ∑ r, y r * (z r / d r + ∑ s, chis r s * z s)

/-- The free energy decreases in one volume-conserving direction and increases in all that are conjugate to
it: the mixture has just crossed its spinodal. -/
def OneUnstable (chis : Mat S S ℝ) (d : Vec S ℝ) : Prop :=
  ∃ z₀ : Vec S ℝ, ∑ r, z₀ r = 0 ∧ curvature chis d z₀ < 0 ∧
    ∀ z : Vec S ℝ, ∑ r, z r = 0 → z ≠ 0 → crossCurvature chis d z z₀ = 0 → 0 < curvature chis d z

/-- In every volume-conserving direction the curvature of the free energy is at least `α` times the one of a
mixture without interactions. -/
def StableBy (α : ℝ) (chis : Mat S S ℝ) (d : Vec S ℝ) : Prop :=
  ∀ z : Vec S ℝ, ∑ r, z r = 0 → α * ∑ r, z r ^ 2 / d r ≤ curvature chis d z

/-- How much the features differ in the response of their potential to adding the same amount of all
features, measured from `c`. -/
noncomputable def unevenness (chis : Mat S S ℝ) (d : Vec S ℝ) (c : ℝ) : ℝ :=
  ∑ r, d r * (1 / d r + ∑ s, chis r s - c) ^ 2

end Flory.Spec
