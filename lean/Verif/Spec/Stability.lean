import Verif.Model.Py
import Mathlib.LinearAlgebra.Dimension.Finrank
import Mathlib.Data.Real.Basic

/-! # Stability notions, stated with quadratic forms on subspaces -/

namespace Flory.Spec

variable {C : ℕ}

/-- The quadratic form `Σ y_i H_ij y_j`. -/
def quad (H : Mat C C ℝ) (y : Vec C ℝ) : ℝ := ∑ i, ∑ j, y i * H i j * y j

/-- `d` is the dimension of a space of composition changes, all satisfying `ok`, on which the quadratic
form is negative definite. -/
def HasUnstableModes (H : Mat C C ℝ) (ok : Vec C ℝ → Prop) (d : ℕ) : Prop :=
  ∃ W : Submodule ℝ (Vec C ℝ), Module.finrank ℝ W = d ∧ (∀ y ∈ W, ok y) ∧
    ∀ y ∈ W, y ≠ 0 → quad H y < 0

/-- Changes of the composition conserving volume. -/
def Conserving (y : Vec C ℝ) : Prop := ∑ i, y i = 0

end Flory.Spec
