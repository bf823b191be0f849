import Verif.Model.NDArray

/-! # What numpy broadcasting means for vectors and matrices -/

namespace Flory.Spec

variable {K : Type}

/-- The vector `v` of length `n` is filled from `a`: a number or an array of length one gives equal
entries, an array of length `n` is taken over. -/
def Fill1 (n : ℕ) (a : NDArr K) (v : Vec n K) : Prop :=
  (a.shape = [] ∧ ∀ i, v i = a.get []) ∨
  (a.shape = [1] ∧ ∀ i, v i = a.get [0]) ∨
  (a.shape = [n] ∧ ∀ i, v i = a.get [i])

/-- The `r × c` matrix `v` is filled from `a`: by equal rows filled from a number or vector, by equal
rows or columns, or by taking over a matrix. -/
def Fill2 (r c : ℕ) (a : NDArr K) (v : Mat r c K) : Prop :=
  (∃ row, Fill1 c a row ∧ ∀ i j, v i j = row j) ∨
  (a.shape = [1, 1] ∧ ∀ i j, v i j = a.get [0, 0]) ∨
  (a.shape = [1, c] ∧ ∀ i j, v i j = a.get [0, j]) ∨
  (a.shape = [r, 1] ∧ ∀ i j, v i j = a.get [i, 0]) ∨
  (a.shape = [r, c] ∧ ∀ i j, v i j = a.get [i, j])

/-- `a` cannot fill a vector of length `n`. -/
def Unfit1 (n : ℕ) (a : NDArr K) : Prop := ∀ v, ¬ Fill1 n a v

/-- `a` cannot fill an `r × c` matrix. -/
def Unfit2 (r c : ℕ) (a : NDArr K) : Prop := ∀ v, ¬ Fill2 r c a v

end Flory.Spec
