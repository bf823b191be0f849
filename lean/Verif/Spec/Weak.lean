import Verif.Spec.Separated

/-! # Mixing from arbitrary fields -/

namespace Flory.Spec

variable {G : Type} {C S M : ℕ}

/-- Runs that start with equal volumes and any fields of magnitude at most `B` mix: with enough steps (a
number that depends on the tolerance only and grows at most like the logarithm of its inverse) they succeed without revivals, report errors below the tolerance, return
the composition `phi` in every compartment up to an error that decays geometrically with the number of steps
and is at most `D` times the reported errors of the fields and of the incompressibility, and change no volume by more than `v`. -/
def Mixes [NeZero M] (e : RunEnv C S M ℝ G) (phi : Vec C ℝ) (B v D : ℝ) : Prop :=
  ∃ A > 0, ∃ q, 0 < q ∧ q < 1 ∧ ∃ K > 0, ∀ tol > 0, ∃ N : ℕ, LogSteps K tol N ∧
    ∀ st : State C S M ℝ G, (∀ m, st.Js m = 1) →
    (∀ r m, |st.omegas r m| ≤ B) → (∀ k ∈ st.cons, k.Trivial) → ∀ (maxSteps : ℚ) (interval b : ℤ),
    N ≤ maxSteps → 0 < interval →
    ∃ f ph d, runImpl e maxSteps tol interval st b = (f, .ok (ph, d)) ∧ d.reviveCountLeft = b ∧
      d.maxAbsIncomp < tol ∧ d.maxAbsOmegaDiff < tol ∧ d.maxAbsJsDiff < tol ∧ d.maxConstraintResidue = 0 ∧
      (∀ m i, |ph.fractions m i - phi i| ≤ A * q ^ d.steps ∧
        |ph.fractions m i - phi i| ≤ D * (d.maxAbsOmegaDiff + d.maxAbsIncomp)) ∧
      ∀ m, |ph.volumes m - 1| ≤ v

end Flory.Spec
