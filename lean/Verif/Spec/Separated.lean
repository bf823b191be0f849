import Verif.Spec.Equilibrium
import Verif.Spec.Run
import Verif.Spec.Instances
import Verif.Lemmas.Balance
import Verif.Spec.Steps

/-! # Convergence of runs to separated phases -/

namespace Flory.Spec

variable {C S M : ℕ}

/-- The free energy of a phase of composition `phi` is strictly convex in the directions that conserve the
volume: the phase lies outside of the spinodal region. -/
def StablePhase (chis : Mat S S ℝ) (feat : Fin C → Fin S) (l phi : Vec C ℝ) : Prop :=
  ∀ z : Vec C ℝ, ∑ i, z i = 0 → z ≠ 0 →
    0 < ∑ i, z i ^ 2 / (l i * phi i) + ∑ i, ∑ j, chis (feat i) (feat j) * z i * z j

/-- No combination of the compositions of the phases (columns of `phi`) vanishes. -/
def IndependentPhases (phi : Mat C M ℝ) : Prop :=
  ∀ y : Vec M ℝ, (∀ i, ∑ m, y m * phi i m = 0) → y = 0

/-- Compartments with volumes `J` and compositions `phi` attract the iteration.  For every ratio `ρ ≤ R` of
the acceptances and a small enough `acceptance_omega`, every canonical run without constraints that starts
with volumes near `J` and fields near the equilibrium fields (up to a constant per feature) succeeds without
revivals, reports errors below any tolerance when it is given enough steps (a number that depends on the
tolerance and the constants only and grows at most like the logarithm of the inverse tolerance), and returns the compositions `phi` up to an error that decays
geometrically with the number of steps and is at most a fixed multiple of the tolerance, and volumes near
`J`.  When the phases are independent the volumes converge to `J`, too. -/
def ConvergesToPhases [NeZero M] (G : Type) (ia : FHCompiled S ℝ) (es : CanonicalC C ℝ) (l : Vec C ℝ)
    (feat : Fin C → Fin S) (J : Vec M ℝ) (phi : Mat C M ℝ) (R : ℝ) : Prop :=
  ∀ ρ, 0 < ρ → ρ ≤ R → ∃ a₀ > 0, ∀ (e : RunEnv C S M ℝ G), e.rng.Ok → 0 ≤ e.params.killThreshold →
    e.params.killThreshold < 1 → 2 * e.params.killThreshold * ((M : ℝ) - 1) < 1 →
    (∀ m, e.params.killThreshold < J m) → 0 < e.params.JsStepUpperBound → e.criterion = "standard" →
    e.ia = ia.toI M → IsIdealGas e.en l feat → e.es = es.toI M → 0 < e.params.acceptanceOmega →
    e.params.acceptanceOmega ≤ a₀ → e.params.acceptanceJs = ρ * e.params.acceptanceOmega →
    ∃ η > 0, ∃ B > 0, ∃ q, 0 < q ∧ q < 1 ∧ ∀ (shift : Vec S ℝ), ∃ K > 0, ∀ tol > 0, ∃ N : ℕ, LogSteps K tol N ∧
      ∀ (st : State C S M ℝ G) (U : ℝ), 0 ≤ U → U ≤ η → ∑ m, st.Js m = M → (∀ m, |st.Js m - J m| ≤ U) →
      (∀ r m, |st.omegas r m - (equilibriumField ia.chis feat l (fun j => phi j m) r + shift r)| ≤ U) →
      (∀ k ∈ st.cons, k.Trivial) → ∀ (maxSteps : ℚ) (interval b : ℤ), N ≤ maxSteps → 0 < interval →
      ∃ f ph d, runImpl e maxSteps tol interval st b = (f, .ok (ph, d)) ∧ d.reviveCountLeft = b ∧
        d.maxAbsIncomp < tol ∧ d.maxAbsOmegaDiff < tol ∧ d.maxAbsJsDiff < tol ∧
        d.maxConstraintResidue = 0 ∧
        (∀ m i, |ph.fractions m i - phi i m| ≤ B * U * q ^ d.steps) ∧
        (∀ m i, |ph.fractions m i - phi i m| ≤ B * tol) ∧
        (∀ m, |ph.volumes m - J m| ≤ B * U) ∧
        (IndependentPhases phi → ∀ m, |ph.volumes m - J m| ≤ B * U * q ^ d.steps)

end Flory.Spec
