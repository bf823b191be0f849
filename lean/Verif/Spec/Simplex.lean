import Verif.Model.Phases
import Mathlib.MeasureTheory.Constructions.Pi
import Mathlib.Algebra.BigOperators.Fin

/-! # Vocabulary for statements about random compositions -/

namespace Flory.Spec

/-- Volume fractions of all components but the last: not negative, and not exceeding one in total. -/
def corner (n : ℕ) : Set (Fin n → ℝ) := {y | (∀ d, 0 ≤ y d) ∧ ∑ d, y d ≤ 1}

/-- The generator after `k` of the draws for `n + 1` components, draw `d` being `rng.beta(1, n - d)`. -/
def betaAfter {G : Type} (beta : Beta G ℝ) (g : G) (n : ℕ) : ℕ → G
  | 0 => g
  | k + 1 => (beta (betaAfter beta g n k) 1 (n - k)).2

/-- Draw number `k`. -/
def betaDraw {G : Type} (beta : Beta G ℝ) (g : G) (n k : ℕ) : ℝ :=
  (beta (betaAfter beta g n k) 1 (n - k)).1

end Flory.Spec
