import Verif.Model.Interface
import Mathlib.Analysis.SpecialFunctions.Exp

/-! # Model of `flory/ensemble/` (compiled classes and constructors) -/

namespace Flory

variable {K : Type} [Field K] [LinearOrder K] {C M : ℕ}

/-- `CanonicalEnsembleCompiled` (`flory/ensemble/canonical.py:17-52`). -/
structure CanonicalC (C : ℕ) (K : Type) where
  phiMeans : Vec C K

/-- `normalize` (`canonical.py:54-63`): the factor is a scalar division and raises for `Q = 0`. -/
def CanonicalC.normalize (e : CanonicalC C K) (phisComp : Mat C M K) (Qs : Vec C K)
    (masks : Vec M K) : Py (Mat C M K × Vec M K) := do
  let s ← forRangeM C (phisComp, fun _ => -1 * 1) fun i s => do
    let factor ← pyDiv (e.phiMeans i) (Qs i)
    let phis := setAt s.1 i fun m => factor * s.1 i m * masks m
    return (phis, fun m => s.2 m + phis i m)
  return (s.1, fun m => s.2 m * masks m)

/-- `GrandCanonicalEnsembleCompiled` (`flory/ensemble/grandcanonical.py:17-52`). -/
structure GrandC (C : ℕ) (K : Type) where
  scaledActivity : Vec C K

/-- `normalize` (`grandcanonical.py:54-64`). -/
def GrandC.normalize (e : GrandC C K) (phisComp : Mat C M K) (_Qs : Vec C K) (masks : Vec M K) :
    Py (Mat C M K × Vec M K) :=
  let s := forRange C (phisComp, fun _ => -1 * 1) fun i s =>
    let phis := setAt s.1 i fun m => e.scaledActivity i * s.1 i m * masks m
    (phis, fun m => s.2 m + phis i m)
  .ok (s.1, fun m => s.2 m * masks m)

/-- The compiled ensemble as seen by the core iteration. Models `flory/ensemble/canonical.py:17-63`,
used at `flory/mcmp/_finder_impl.py:346`. -/
def CanonicalC.toI (e : CanonicalC C K) (M : ℕ) : EnsembleI C M K := ⟨e.normalize⟩

/-- The compiled ensemble as seen by the core iteration. Models
`flory/ensemble/grandcanonical.py:17-64`, used at `flory/mcmp/_finder_impl.py:346`. -/
def GrandC.toI (e : GrandC C K) (M : ℕ) : EnsembleI C M K := ⟨e.normalize⟩

/-- `GrandCanonicalEnsemble.from_chemical_potential` (`grandcanonical.py:101-129`) followed by
compilation: `scaled_activity = sizes * exp(sizes * mus)`.  Broadcasting of the arguments is
not repeated here. -/
noncomputable def GrandC.fromChemicalPotential (mus sizes : Vec C ℝ) : GrandC C ℝ :=
  ⟨fun i => sizes i * Real.exp (sizes i * mus i)⟩

end Flory
