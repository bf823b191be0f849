import Verif.Spec.Ensembles
import Verif.Spec.Run
import Verif.Spec.Instances
import Verif.Spec.Separated

/-! # Selection of phases in contact with a reservoir -/

namespace Flory.Spec

variable {C S M : ℕ}

/-- A phase of composition `phi` can exchange components with a reservoir of potentials `mus`: the chemical
potential of every component is the prescribed one (with the conventional constant `(1 + ln l)/l`) up to one
constant `c`, the grand potential per volume of the phase (`grandPotential_eq`). -/
structure ReservoirPhase (chis : Mat S S ℝ) (feat : Fin C → Fin S) (l mus phi : Vec C ℝ) (c : ℝ) : Prop where
  pos : ∀ i, 0 < phi i
  incompressible : ∑ i, phi i = 1
  balance : ∀ i, chemPot (fun i j => chis (feat i) (feat j)) l phi i = mus i + (1 + Real.log (l i)) / l i + c

/-- Grand potential per volume: free energy without what the reservoir provides. -/
noncomputable def grandPotential (chis : Mat S S ℝ) (feat : Fin C → Fin S) (l mus phi : Vec C ℝ) : ℝ :=
  freeEnergy (fun i j => chis (feat i) (feat j)) l phi -
    ∑ i, phi i * (mus i + (1 + Real.log (l i)) / l i)

/-- No other entry is smaller. -/
def Least (c : Vec M ℝ) (n : Fin M) : Prop := ∀ k, c n ≤ c k

/-- Among phases `phi` (columns) with grand potentials `c`, the iteration selects those with the least grand
potential.  With a small enough `acceptance_omega`, every grand canonical run without constraints and without
revivals that starts near these phases with nearly equal volumes succeeds, reports errors below any small
tolerance when it is given enough steps (a number that grows at most like the logarithm of the inverse
tolerance), and returns only phases of least grand potential up to an error that
decays geometrically with the number of steps; these phases stay where they were, and the returned volumes add
up to their number. -/
def SelectsPhases [NeZero M] (G : Type) (ia : FHCompiled S ℝ) (l mus : Vec C ℝ) (feat : Fin C → Fin S)
    (phi : Mat C M ℝ) (c : Vec M ℝ) : Prop :=
  ∃ a₀ > 0, ∀ (e : RunEnv C S M ℝ G), e.rng.Ok → 0 ≤ e.params.killThreshold →
    e.params.killThreshold < 1 → 2 * e.params.killThreshold * ((M : ℝ) - 1) < 1 →
    0 < e.params.JsStepUpperBound → e.criterion = "standard" → e.ia = ia.toI M →
    IsIdealGas e.en l feat → e.es = (GrandC.fromChemicalPotential mus l).toI M →
    0 < e.params.acceptanceOmega → e.params.acceptanceOmega ≤ a₀ → 0 < e.params.acceptanceJs →
    ∃ η > 0, ∃ B > 0, ∃ tol₀ > 0, ∃ q, 0 < q ∧ q < 1 ∧ ∀ (st : State C S M ℝ G) (U : ℝ), 0 ≤ U → U ≤ η →
      (∀ m, |st.Js m - 1| ≤ U) →
      (∀ r m, |st.omegas r m - (equilibriumField ia.chis feat l (fun j => phi j m) r - c m)| ≤ U) →
      (∀ k ∈ st.cons, k.Trivial) → ∃ K > 0, ∀ tol, 0 < tol → tol ≤ tol₀ → ∃ N : ℕ, LogSteps K tol N ∧
      ∀ (maxSteps : ℚ) (interval b : ℤ), b ≤ 0 → N ≤ maxSteps → 0 < interval →
      ∃ f ph d, runImpl e maxSteps tol interval st b = (f, .ok (ph, d)) ∧ d.reviveCountLeft = b ∧
        d.maxAbsIncomp < tol ∧ d.maxAbsOmegaDiff < tol ∧ d.maxAbsJsDiff < tol ∧
        d.maxConstraintResidue = 0 ∧
        (∀ m, ∃ n, Least c n ∧ ∀ i, |ph.fractions m i - phi i n| ≤ B * U * q ^ d.steps) ∧
        (∀ n, Least c n → ∀ i, |ph.fractions n i - phi i n| ≤ B * U * q ^ d.steps) ∧
        ∑ m, ph.volumes m = Nat.card {n // Least c n}

end Flory.Spec
