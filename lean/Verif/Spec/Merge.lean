import Verif.Spec.Run
import Verif.Spec.Instances
import Verif.Lemmas.Balance
import Verif.Spec.Steps

/-! # Behaviour of the iteration near a homogeneous state -/

namespace Flory.Spec

variable {C S : ℕ}

/-- Total of size times fraction of the components of a feature. -/
noncomputable def loads (l : Vec C ℝ) (feat : Fin C → Fin S) (phi : Vec C ℝ) (r : Fin S) : ℝ :=
  ∑ i, if feat i = r then l i * phi i else 0

/-- Curvature of the free energy of a mixture with two features in the direction that exchanges them;
it vanishes on the spinodal. -/
noncomputable def exchangeCurvature (chis : Mat 2 2 ℝ) (d : Vec 2 ℝ) : ℝ :=
  1 / d 0 + 1 / d 1 + chis 0 0 + chis 1 1 - 2 * chis 0 1

/-- Curvature of the free energy of a mixture with loads `d` in the direction `z`. -/
noncomputable def curvature (chis : Mat S S ℝ) (d z : Vec S ℝ) : ℝ :=
  ∑ r, z r ^ 2 / d r + ∑ r, ∑ s, chis r s * z r * z s

/-- Every run without constraints that starts with volumes one and nearly equal fields succeeds without
revivals, reports errors below any tolerance when it is given enough steps (a number that grows at most like the
logarithm of the inverse tolerance), and returns the composition `phi` in every compartment up to an error that decays geometrically with the number of steps. -/
def Merges {M : ℕ} [NeZero M] {G : Type} (e : RunEnv C S M ℝ G) (phi : Vec C ℝ) : Prop :=
  ∃ η > 0, ∃ B > 0, ∃ q, 0 < q ∧ q < 1 ∧ ∀ (st : State C S M ℝ G) (U : ℝ), U ≤ η →
    (∀ m, st.Js m = 1) → (∀ r m n, |st.omegas r m - st.omegas r n| ≤ U) → 0 ≤ U →
    (∀ k ∈ st.cons, k.Trivial) → ∃ K > 0, ∀ tol > 0, ∃ N : ℕ, LogSteps K tol N ∧
    ∀ (maxSteps : ℚ) (interval b : ℤ), N ≤ maxSteps → 0 < interval →
    ∃ f ph d, runImpl e maxSteps tol interval st b = (f, .ok (ph, d)) ∧ d.reviveCountLeft = b ∧
      d.maxAbsIncomp < tol ∧ d.maxAbsOmegaDiff < tol ∧ d.maxAbsJsDiff < tol ∧
      d.maxConstraintResidue = 0 ∧
      (∀ m i, |ph.fractions m i - phi i| ≤ B * U * q ^ d.steps) ∧
      (∀ r m n, |f.st.omegas r m - f.st.omegas r n| ≤ B * U * q ^ d.steps) ∧
      ∀ m, |ph.volumes m - 1| ≤ B * U

/-- With a small enough `acceptance_omega`, every canonical run without constraints that starts with
volumes one and nearly equal fields succeeds without revivals, reports errors below any tolerance when it
is given enough steps, and returns the mean composition in every compartment up to an error that decays
geometrically with the number of steps. -/
def ConvergesToMean (G : Type) (ia : FHCompiled S ℝ) (es : CanonicalC C ℝ) (l : Vec C ℝ)
    (feat : Fin C → Fin S) : Prop :=
  ∃ a₀ > 0, ∀ (M : ℕ) [NeZero M] (e : RunEnv C S M ℝ G), e.rng.Ok → 0 ≤ e.params.killThreshold →
    e.params.killThreshold < 1 → 2 * e.params.killThreshold * ((M : ℝ) - 1) < 1 →
    0 < e.params.JsStepUpperBound → e.criterion = "standard" → e.ia = ia.toI M →
    IsIdealGas e.en l feat → e.es = es.toI M → 0 < e.params.acceptanceOmega →
    e.params.acceptanceOmega ≤ a₀ → Merges e es.phiMeans

/-- With a small enough `acceptance_omega`, at least two compartments and no constraints there are,
arbitrarily close to any fields that are the same in all compartments, fields from which the iteration
does not stay near the mean composition: within a number of passes that only depends on these fields, a
compartment dies or a fraction differs from the mean by more than `ε`. -/
def LeavesMean (G : Type) (ia : FHCompiled S ℝ) (es : CanonicalC C ℝ) (l : Vec C ℝ)
    (feat : Fin C → Fin S) : Prop :=
  ∃ a₀ > 0, ∃ ε > 0, ∀ (M : ℕ) [NeZero M] (e : RunEnv C S M ℝ G), 2 ≤ M → e.rng.Ok →
    0 ≤ e.params.killThreshold → e.params.killThreshold < 1 → 0 < e.params.JsStepUpperBound →
    e.ia = ia.toI M → IsIdealGas e.en l feat → e.es = es.toI M → 0 < e.params.acceptanceOmega →
    e.params.acceptanceOmega ≤ a₀ →
    ∀ (w : Vec S ℝ), ∀ η > 0, ∃ om : Mat S M ℝ, (∀ r m, |om r m - w r| ≤ η) ∧ ∃ N : ℕ,
      ∀ (b : ℤ) (st : State C S M ℝ G), (∀ m, st.Js m = 1) → st.omegas = om →
      (∀ k ∈ st.cons, k.Trivial) → ∃ n t, n ≤ N ∧ Passes e b n 0 st t ∧
        ∃ m, t.Js m ≤ e.params.killThreshold ∨ ∃ i, ε < |t.phisComp i m - es.phiMeans i|

end Flory.Spec
