import Verif.Model.Norm

/-!
# Primitives of the transcription of array code

`tools/transcribe_arrays.py` turns the array code of the free energies into the Lean definitions of
`Verif/Gen/FreeEnergy.lean`.  This file fixes the meaning of the numpy functions it uses.  It contains
no project code; every definition cites lines where the construct is used.
-/

namespace Flory

/-- `a.shape[axis]`; axes that do not exist raise `IndexError`. Models
`flory/free_energy/base.py:182`. -/
def shapeAt (shape : List ℕ) (axis : ℤ) : Py ℕ := do
  let k ← normIndex shape.length axis
  return shape.get k

/-- `np.any` of a test on every entry. Models `flory/free_energy/base.py:191`. -/
def ndAny (p : ℝ → Prop) (a : NDArr ℝ) : Prop :=
  ∃ idx ∈ FreeEnergy.allIndices a.shape, p (a.get idx)

/-- The test is a truth value, `flory/free_energy/base.py:191`. -/
noncomputable instance (p : ℝ → Prop) (a : NDArr ℝ) : Decidable (ndAny p a) :=
  Classical.propDecidable _

/-- An array whose last axis has length `C`, seen as compositions along the last axis. Models
`flory/free_energy/base.py:211`. -/
def rowsOf (C : ℕ) (a : NDArr ℝ) : Rows (Vec C ℝ) :=
  ⟨a.shape.dropLast, fun idx i => a.get (idx ++ [i.1])⟩

/-- Shape of the result of numpy broadcasting, for shapes written from the last axis to the first. Models
`flory/free_energy/base.py:296`. -/
def broadcastShapes : List ℕ → List ℕ → Option (List ℕ)
  | [], b => some b
  | a, [] => some a
  | x :: a, y :: b =>
    if x = y ∨ y = 1 then (broadcastShapes a b).map (x :: ·)
    else if x = 1 then (broadcastShapes a b).map (y :: ·)
    else none

/-- Index into an array of shape `shape` that is read at the index `idx` of a broadcast result: axes in
front are dropped, axes of length one are read at zero. Models `flory/free_energy/base.py:296`. -/
def clipIndex (shape idx : List ℕ) : List ℕ :=
  List.zipWith (fun n i => if n = 1 then 0 else i) shape (idx.drop (idx.length - shape.length))

namespace Rows

variable {α β γ : Type}

/-- Operation on two arrays with broadcasting of the leading axes. Models
`flory/free_energy/base.py:241`, `273-277`, `296`, `320`, `407`. -/
def zip2 (f : α → β → γ) (a : Rows α) (b : Rows β) : Py (Rows γ) :=
  if a.lead = b.lead then .ok ⟨a.lead, fun idx => f (a.row idx) (b.row idx)⟩
  else
    match broadcastShapes a.lead.reverse b.lead.reverse with
    | none => .error .valueError
    | some l => .ok ⟨l.reverse, fun idx => f (a.row (clipIndex a.lead idx)) (b.row (clipIndex b.lead idx))⟩

/-- `np.atleast_1d` of an array without trailing axes. Models `flory/free_energy/base.py:296`. -/
def atLeast1 (a : Rows α) : Rows α := if a.lead = [] then ⟨[1], fun _ => a.row []⟩ else a

/-- Assigning the result of an in-place operation: it must have the shape of the array. Models
`flory/free_energy/base.py:407`. -/
def inPlace (a b : Rows α) : Py (Rows α) := if a.lead = b.lead then .ok b else .error .valueError

/-- `a.mean(axis=0)` of an array with at least one leading axis. Models
`flory/free_energy/base.py:407`. -/
noncomputable def mean0 {C : ℕ} (a : Rows (Vec C ℝ)) : Py (Rows (Vec C ℝ)) :=
  match a.lead with
  | [] => .error .notImplementedError
  | P :: l => .ok ⟨l, fun idx i => (∑ p : Fin P, a.row (p.1 :: idx) i) / P⟩

/-- `np.linalg.norm(a, ord=order, axis=axis)` of an array with two axes. Models
`flory/free_energy/base.py:408`. -/
noncomputable def norm {C : ℕ} (a : Rows (Vec C ℝ)) (order : NormOrder) (axis : Option ℤ) :
    Py NormResult :=
  match a.lead with
  | [P] => norm2d (P := P) (fun p => a.row [p.1]) order axis
  | _ => .error .notImplementedError

/-- `np.linalg.eigvalsh` of every matrix.  Entries that are not finite raise `LinAlgError`, as in
`FreeEnergy.countRows`. Models `flory/free_energy/base.py:360`. -/
noncomputable def eigvalsh {n : ℕ} (h : Rows (Mat n n XReal)) : Py (Rows (Vec n ℝ)) :=
  haveI := Classical.propDecidable
  if ∀ idx ∈ FreeEnergy.allIndices h.lead, ∀ i j, (h.row idx i j).IsFin then
    .ok (h.map fun H => Flory.eigvalsh fun i j => (H i j).nanToNum)
  else .error .linAlgError

end Rows

end Flory
