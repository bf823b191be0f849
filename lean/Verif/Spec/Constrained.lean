import Verif.Spec.Ensembles

/-! # Equilibria under linear constraints -/

namespace Flory.Spec

variable {C S M : ℕ}

/-- The force of a constraint on feature `r` in compartment `m`: its multipliers times how far one unit
of the feature is from the target. -/
def force (r : Fin S) (m : Fin M) : Cons S M ℝ → ℝ
  | .no _ => 0
  | .loc _ c => ∑ a, c.multiplier a m * (c.Cs a r - c.Ts a)
  | .glob _ c => ∑ a, c.multiplier a * (c.Cs a r - c.Ts a)

/-- The force of all constraints. -/
def totalForce (ks : List (Cons S M ℝ)) (r : Fin S) (m : Fin M) : ℝ := (ks.map (force r m)).sum

/-- A constraint holds for feature fractions `pf` and volumes `J`: a local one in every compartment, a
global one in the mean. -/
def HoldsFor (pf : Mat S M ℝ) (J : Vec M ℝ) : Cons S M ℝ → Prop
  | .no c => (∀ r m, c.potential r m = 0) ∧ ∀ m, c.volumeDerivative m = 0
  | .loc _ c => ∀ a m, ∑ r, c.Cs a r * pf r m = c.Ts a
  | .glob _ c => ∀ a, ∑ m, (∑ r, c.Cs a r * pf r m - c.Ts a) * J m = 0

/-- Compartments of volumes `J` (with mean one) and compositions `φ` in equilibrium under constraints:
the constraints hold, and the chemical potential of every component, corrected by the forces of the
constraints, is the same number `mu i` everywhere. -/
structure Constrained (chis : Mat S S ℝ) (feat : Fin C → Fin S) (l : Vec C ℝ) (ks : List (Cons S M ℝ))
    (mu : Vec C ℝ) (J : Vec M ℝ) (phi : Mat C M ℝ) : Prop where
  volumes : ∑ m, J m = (M : ℝ)
  pos : ∀ i m, 0 < phi i m
  incompressible : ∀ m, ∑ i, phi i m = 1
  holds : ∀ k ∈ ks, HoldsFor (fun r m => ∑ i, if feat i = r then phi i m else 0) J k
  balance : ∀ i m, chemPot (fun i j => chis (feat i) (feat j)) l (fun j => phi j m) i
    + totalForce ks (feat i) m = mu i

/-- A constraint object of the class without constraint holds zero arrays. -/
def Inert : Cons S M ℝ → Prop
  | .no c => (∀ r m, c.potential r m = 0) ∧ ∀ m, c.volumeDerivative m = 0
  | .loc _ _ => True
  | .glob _ _ => True

/-- The values of linear constraints with coefficients `Cs`, with the sum of the fractions, determine the
composition. -/
def Determines {A : ℕ} (feat : Fin C → Fin S) (Cs : Mat A S ℝ) : Prop :=
  ∀ v : Vec C ℝ, ∃ (lam : Vec A ℝ) (c : ℝ), ∀ i, v i = ∑ a, lam a * Cs a (feat i) + c

end Flory.Spec
