import Verif.Spec.Equilibrium

/-! # Phases in contact with a reservoir (independent of the iteration) -/

namespace Flory.Spec

variable {C S M : ℕ}

/-- Compartments of volumes `J` (with mean one) and compositions `φ` (columns) are in equilibrium with a
reservoir of potentials `mus`: they are incompressible, and the chemical potential of every component is
the prescribed one (with the conventional constant `(1 + ln l)/l`) up to one constant `c`, which
incompressibility leaves free. -/
structure Reservoir (chis : Mat S S ℝ) (feat : Fin C → Fin S) (l mus : Vec C ℝ) (c : ℝ) (J : Vec M ℝ)
    (phi : Mat C M ℝ) : Prop where
  volumes : ∑ m, J m = (M : ℝ)
  pos : ∀ i m, 0 < phi i m
  incompressible : ∀ m, ∑ i, phi i m = 1
  balance : ∀ i m, chemPot (fun i j => chis (feat i) (feat j)) l (fun j => phi j m) i =
    mus i + (1 + Real.log (l i)) / l i + c

end Flory.Spec
