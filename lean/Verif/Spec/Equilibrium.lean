import Verif.Model.FinderImpl
import Verif.Spec.FreeEnergy

/-! # Coexisting phases in equilibrium (independent of the iteration) -/

namespace Flory.Spec

variable {C S M : ℕ}

/-- Compartments of volumes `J` (with mean one) and compositions `φ` (columns) coexist in equilibrium:
they are incompressible, have the prescribed mean composition, and every component has the same
chemical potential everywhere. -/
structure Coexistence (chis : Mat S S ℝ) (feat : Fin C → Fin S) (l phiMeans : Vec C ℝ) (J : Vec M ℝ)
    (phi : Mat C M ℝ) : Prop where
  volumes : ∑ m, J m = (M : ℝ)
  pos : ∀ i m, 0 < phi i m
  incompressible : ∀ m, ∑ i, phi i m = 1
  mean : ∀ i, ∑ m, J m * phi i m = M * phiMeans i
  balance : ∃ mu : Vec C ℝ, ∀ i m,
    chemPot (fun i j => chis (feat i) (feat j)) l (fun j => phi j m) i = mu i

/-- The field of feature `r` in a phase of composition `phi`: its interaction energy plus the pressure
of the phase. -/
noncomputable def equilibriumField (chis : Mat S S ℝ) (feat : Fin C → Fin S) (l phi : Vec C ℝ)
    (r : Fin S) : ℝ :=
  ∑ j, chis r (feat j) * phi j
    - 1 / 2 * (∑ j, ∑ k, chis (feat j) (feat k) * phi j * phi k) - ∑ j, phi j / l j

/-- A constraint with vanishing multipliers that holds for feature fractions `pf` and volumes `J`. -/
def Fulfilled (pf : Mat S M ℝ) (J : Vec M ℝ) : Cons S M ℝ → Prop
  | .no c => (∀ r m, c.potential r m = 0) ∧ ∀ m, c.volumeDerivative m = 0
  | .loc _ c => (∀ a m, c.multiplier a m = 0) ∧ ∀ a m, ∑ r, c.Cs a r * pf r m = c.Ts a
  | .glob _ c => (∀ a, c.multiplier a = 0) ∧ ∀ a, ∑ m, (∑ r, c.Cs a r * pf r m - c.Ts a) * J m = 0

end Flory.Spec
