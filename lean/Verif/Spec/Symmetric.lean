import Verif.Spec.GroundState
import Verif.Spec.FreeEnergy

/-! # Symmetric mixtures: molecules of equal size that repel all unlike molecules in the same way -/

namespace Flory.Spec

open Real

/-- Like molecules do not interact, all pairs of unlike components have the Flory parameter `chi`. -/
def symmetricChis (C : ℕ) (chi : ℝ) : Mat C C ℝ := fun i j => if i = j then 0 else chi

/-- Composition with excess `s` of component `k`; all other components have the same fraction. -/
noncomputable def enriched (C : ℕ) (s : ℝ) (k : Fin C) : Vec C ℝ :=
  fun i => if i = k then (1 + (C - 1) * s) / C else (1 - s) / C

/-- Value of `size * chi` above which a symmetric mixture of `C > 2` components separates. -/
noncomputable def transition (C : ℕ) : ℝ := 2 * (C - 1) * log (C - 1) / (C - 2)

/-- The excess `s` balances the exchange of the enriched component with any other one, for `a = size * chi`. -/
def ExcessBalanced (C : ℕ) (a s : ℝ) : Prop := log (1 + (C - 1) * s) - log (1 - s) = a * s

/-- The excess of the phases of a separated symmetric mixture. -/
structure OrderParameter (C : ℕ) (a s : ℝ) : Prop where
  lower : ((C : ℝ) - 2) / (C - 1) ≤ s
  lt_one : s < 1
  balanced : ExcessBalanced C a s

end Flory.Spec
