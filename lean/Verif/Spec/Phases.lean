import Verif.Model.Py

/-! # Specifications about collections of phases -/

namespace Flory.Spec

variable {K : Type} {C : ℕ}

/-- `l` lists all components of a composition from the most to the least concentrated one. -/
def IsRanking [LinearOrder K] (row : Vec C K) (l : List (Fin C)) : Prop :=
  l.Nodup ∧ (∀ i, i ∈ l) ∧ l.Pairwise fun i j => row j ≤ row i

/-- `i` is the only most concentrated component. -/
def MostConcentrated [LinearOrder K] (row : Vec C K) (i : Fin C) : Prop := ∀ j, j ≠ i → row j < row i

end Flory.Spec
