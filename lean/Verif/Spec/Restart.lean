import Verif.Spec.Separated
import Verif.Spec.Finder

/-! # Starting from given volume fractions -/

namespace Flory.Spec

/-- A finder for a canonical mixture of ideal molecules of sizes `l` with mean composition `x`; molecule `i`
consists of feature `feat i`.  The volumes cannot change so much in one step that a compartment dies. -/
structure MixtureFinder {G : Type} (f : Finder G) (ia : FHCompiled f.numFeat ℝ)
    (feat : Fin f.numComp → Fin f.numFeat) (l x : Vec f.numComp ℝ) : Prop where
  interaction : f.interaction = ⟨_, ia⟩
  entropy : ∃ en : EntropyInst f.numComp f.numFeat, f.entropy = ⟨_, _, en⟩ ∧ IsIdealGas (en.toI f.numPart) l feat
  ensemble : f.ensemble = ⟨_, .canonical ⟨x⟩⟩
  kill : 0 ≤ f.params.killThreshold
  accept : 0 ≤ f.params.acceptanceJs
  bound : 0 < f.params.JsStepUpperBound
  kill_bound : f.params.killThreshold + 2 * f.params.JsStepUpperBound < 1

variable {C S M : ℕ}

/-- Fraction of each feature in compartments with the molecules `phi`. -/
def featureFractions (feat : Fin C → Fin S) (phi : Mat C M ℝ) (r : Fin S) (m : Fin M) : ℝ :=
  ∑ i with feat i = r, phi i m

/-- Pressure of a phase of composition `phi`: the part of its fields that is the same for all features. -/
noncomputable def phasePressure (chis : Mat S S ℝ) (feat : Fin C → Fin S) (l phi : Vec C ℝ) : ℝ :=
  - (1 / 2 * ∑ j, ∑ k, chis (feat j) (feat k) * phi j * phi k) - ∑ j, phi j / l j

/-- Boltzmann factor of molecule `i` in compartment `m` if the fields are only due to the interaction with the
fractions `p` of the features. -/
noncomputable def boltzmann (chis : Mat S S ℝ) (feat : Fin C → Fin S) (l : Vec C ℝ) (p : Mat S M ℝ) (i : Fin C)
    (m : Fin M) : ℝ :=
  Real.exp (-(∑ s, chis (feat i) s * p s m) * l i)

end Flory.Spec
