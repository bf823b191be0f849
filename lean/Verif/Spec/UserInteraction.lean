import Verif.Spec.Calculus
import Verif.Model.Interface
import Mathlib.Analysis.SpecialFunctions.Log.Basic

/-! # Free energies with interactions of any class -/

namespace Flory.Spec

variable {C S M : ℕ}

/-- The fractions of the features of a mixture. -/
def features (feat : Fin C → Fin S) (phi : Vec C ℝ) : Vec S ℝ :=
  fun r => ∑ i, if feat i = r then phi i else 0

/-- The free energy density `Σ φ_i ln φ_i / l_i + f(features)`. -/
noncomputable def freeDensity (f : Vec S ℝ → ℝ) (sizes : Vec C ℝ) (feat : Fin C → Fin S)
    (phi : Vec C ℝ) : ℝ :=
  ∑ i, phi i * Real.log (phi i) / sizes i + f (features feat phi)

/-- The chemical potential per volume of component `i` for a free energy density `g`, from its
derivative: `μ_i = g + ∂_i g − Σ_j φ_j ∂_j g`. -/
noncomputable def densityPotential (g : Vec C ℝ → ℝ) (phi : Vec C ℝ) (i : Fin C) : ℝ :=
  g phi + fderiv ℝ g phi (Pi.single i 1) - fderiv ℝ g phi phi

/-- An interaction whose energy is the integral of the density `f` with gradient `df`: `potential` is
the gradient and `volume_derivative` the density in every compartment. -/
structure IsDensity (ia : InteractionI S M ℝ) (f : Vec S ℝ → ℝ) (df : Vec S ℝ → Vec S ℝ) : Prop where
  potential : ∀ phi r m, ia.potential phi r m = df (fun q => phi q m) r
  volumeDerivative : ∀ phi m, ia.volumeDerivative (ia.potential phi) phi m = f fun q => phi q m
  gradient : ∀ x, (∀ r, 0 ≤ x r) → IsGradientAt f (df x) x

end Flory.Spec
