import Verif.Model.Layout

/-!
# What the declaration of a field of a compiled class requires of an array
-/

namespace Flory

namespace Spec

/-- Distance, in items, of the entry with the given indices from the first entry. -/
def address : List ℤ → List ℕ → ℤ
  | s :: r, i :: idx => s * i + address r idx
  | _, _ => 0

/-- Number of entries before the one with the given indices, in C order. -/
def rank : List ℕ → List ℕ → ℕ
  | _ :: shape, i :: idx => i * shape.prod + rank shape idx
  | _, _ => 0

/-- Every entry lies where compiled code for contiguous arrays looks for it. -/
def RowMajor (a : Lay) : Prop :=
  ∀ idx, List.Forall₂ (fun i d => i < d) idx a.shape → address a.strides idx = rank a.shape idx

/-- The array is what a declaration as `dtype[:, …, ::1]` with `axes` axes says. -/
structure Declared (dt : DType) (axes : ℕ) (a : Lay) : Prop where
  dtype : a.dtype = dt
  axes : a.shape.length = axes
  rowMajor : RowMajor a

end Spec

end Flory
