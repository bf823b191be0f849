import Verif.Model.Interface
import Mathlib.Analysis.SpecialFunctions.Exp

/-!
# Expected behaviour of compiled entropies and ensembles

Property theorems about the iteration are stated for every entropy and ensemble with this
behaviour; that the compiled classes have it is proved in `Verif/Props/Instances.lean`.
-/

namespace Flory

variable {C S M : ℕ}

/-- The ensemble multiplies the Boltzmann factors of component `i` by `a Qs i` and masks dead
compartments; the returned incompressibility is the sum of the fractions minus one, masked. -/
structure Scales {K : Type} [Field K] (es : EnsembleI C M K) (a : Vec C K → Vec C K) : Prop where
  inv : ∀ {ph Qs masks x}, es.normalize ph Qs masks = .ok x →
    x = (fun i m => a Qs i * ph i m * masks m,
      fun m => ((∑ i, a Qs i * ph i m * masks m) - 1) * masks m)

/-- Ideal gas with molecule sizes `sizes`, in which component `i` feels the field of feature
`feat i`: Boltzmann factors, partition functions, feature fractions and volume derivative.
`partition` may only fail when the total volume vanishes. -/
structure IsIdealGas (en : EntropyI C S M ℝ) (sizes : Vec C ℝ) (feat : Fin C → Fin S) : Prop where
  partition_inv : ∀ {ph om J x}, en.partition ph om J = .ok x →
    (C ≠ 0 → ∑ m, J m ≠ 0) ∧
    x = (fun i m => Real.exp (-om (feat i) m * sizes i),
      fun i => (∑ m, Real.exp (-om (feat i) m * sizes i) * J m) / ∑ m, J m)
  partition_ok : ∀ ph om {J}, ∑ m, J m ≠ 0 → ∃ x, en.partition ph om J = .ok x
  compToFeat : ∀ pf ph, en.compToFeat pf ph =
    .ok fun r m => ∑ i, if feat i = r then ph i m else 0
  volumeDerivative : ∀ ph m, en.volumeDerivative ph m = -∑ i, ph i m / sizes i

end Flory
