import Verif.Spec.FreeEnergy

/-! # The extended free energy of the documentation (`docs/source/theory.rst`)

Written for components that belong to features; for `feat = id` and unit sizes this is the formula of
the section "Example: Flory-Huggins Free Energy".  The sizes `l` enter the partition functions as in the
documented Flory-Huggins free energy (`φ/l ln φ`).  The relative volumes `J` add up to one; the term
with the multiplier `η` only enforces this and is left out. -/

namespace Flory.Spec

variable {C S M : ℕ}

/-- Single molecule partition function `Q_i = Σ_m J_m exp(-l_i w_i^m)`. -/
noncomputable def partitionFn (feat : Fin C → Fin S) (l : Vec C ℝ) (J : Vec M ℝ) (w : Mat S M ℝ)
    (i : Fin C) : ℝ := ∑ m, J m * Real.exp (-w (feat i) m * l i)

/-- `Σ_m J_m [½ Σ χ φ φ - Σ w φ + ξ_m (Σ φ - 1)] - Σ_i φ̄_i / l_i ln Q_i`. -/
noncomputable def extendedEnergy (chis : Mat S S ℝ) (feat : Fin C → Fin S) (l phiMeans : Vec C ℝ)
    (J : Vec M ℝ) (pf w : Mat S M ℝ) (xi : Vec M ℝ) : ℝ :=
  ∑ m, J m * (1 / 2 * (∑ r, ∑ q, chis r q * pf r m * pf q m) - (∑ r, w r m * pf r m)
    + xi m * ((∑ r, pf r m) - 1))
  - ∑ i, phiMeans i / l i * Real.log (partitionFn feat l J w i)

end Flory.Spec
