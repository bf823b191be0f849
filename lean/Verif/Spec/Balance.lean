import Verif.Spec.FreeEnergy

/-! # Phases in equilibrium, exactly and approximately (independent of the model) -/

namespace Flory.Spec

variable {C : ℕ} {ι : Type}

/-- Phases of positive fractions that fill the space and have equal chemical potentials. -/
structure Balanced (chis : Mat C C ℝ) (l : Vec C ℝ) (phi : ι → Vec C ℝ) : Prop where
  pos : ∀ p i, 0 < phi p i
  fill : ∀ p, ∑ i, phi p i = 1
  balance : ∀ p q i, chemPot chis l (phi p) i = chemPot chis l (phi q) i

/-- The same up to errors of at most `δ`. -/
structure NearBalanced (chis : Mat C C ℝ) (l : Vec C ℝ) (δ : ℝ) (phi : ι → Vec C ℝ) : Prop where
  pos : ∀ p i, 0 < phi p i
  fill : ∀ p, |∑ i, phi p i - 1| ≤ δ
  balance : ∀ p q i, |chemPot chis l (phi p) i - chemPot chis l (phi q) i| ≤ δ

end Flory.Spec
