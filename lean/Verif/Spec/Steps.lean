import Mathlib.Analysis.SpecialFunctions.Log.Basic

/-! # Numbers of steps -/

namespace Flory.Spec

/-- The number of steps `N` grows at most like the logarithm of the inverse tolerance, with the constant `K`: each
further digit costs the same number of steps. -/
def LogSteps (K tol : ℝ) (N : ℕ) : Prop :=
  0 < N ∧ (N : ℝ) ≤ K * (1 + Real.log (1 + 1 / tol))

end Flory.Spec
