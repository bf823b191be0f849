import Verif.Model.Py
import Mathlib.Data.List.FinRange

/-!
# numpy arrays of arbitrary rank

Only what the constructors of the project need: shape, element access, `np.broadcast_to`,
`np.repeat`.  No project code in this file.
-/

namespace Flory

/-- A numpy array: shape and element access by a multi-index. `get` outside the shape is irrelevant.
Arguments of `flory/common/utilities.py:28-70`. -/
structure NDArr (K : Type) where
  shape : List ℕ
  get : List ℕ → K

namespace NDArr

variable {K : Type}

/-- `arr.ndim`. Models `flory/constraint/linear_local.py:154-156`. -/
def ndim (a : NDArr K) : ℕ := a.shape.length

/-- A Python scalar. Argument `chis: float` of `flory/interaction/flory_huggins.py:90`. -/
def scalar (x : K) : NDArr K := ⟨[], fun _ => x⟩

/-- One-dimensional array. Arguments of `flory/common/utilities.py:28-70`. -/
def ofVec {n : ℕ} [Inhabited K] (v : Vec n K) : NDArr K :=
  ⟨[n], fun idx => if h : idx.headD 0 < n then v ⟨idx.headD 0, h⟩ else default⟩

/-- Two-dimensional array. Arguments of `flory/common/utilities.py:28-70`. -/
def ofMat {r c : ℕ} [Inhabited K] (a : Mat r c K) : NDArr K :=
  ⟨[r, c], fun idx => if h : idx.headD 0 < r ∧ idx.tail.headD 0 < c then
    a ⟨idx.headD 0, h.1⟩ ⟨idx.tail.headD 0, h.2⟩ else default⟩

/-- Content of an array known to have shape `(n,)`. Results of `flory/common/utilities.py:28-70`. -/
def toVec (a : NDArr K) (n : ℕ) : Vec n K := fun i => a.get [i]

/-- Content of an array known to have shape `(r, c)`. Results of `flory/common/utilities.py:28-70`. -/
def toMat (a : NDArr K) (r c : ℕ) : Mat r c K := fun i j => a.get [i, j]

/-- `np.atleast_1d`: scalars become arrays of shape `(1,)`. Models `flory/common/utilities.py:40`. -/
def atleast1d (a : NDArr K) : NDArr K :=
  match a.shape with
  | [] => ⟨[1], fun _ => a.get []⟩
  | _ => a

/-- `np.broadcast_to(a, shape)`: trailing dimensions must agree or be one in `a`. Models
`flory/common/utilities.py:41`. -/
def broadcastTo (a : NDArr K) (shape : List ℕ) : Py (NDArr K) :=
  if a.shape.length ≤ shape.length ∧
      List.Forall₂ (fun d t => d = t ∨ d = 1) a.shape
        (shape.drop (shape.length - a.shape.length)) then
    .ok ⟨shape, fun idx => a.get
      (List.zipWith (fun d i => if d = 1 then 0 else i) a.shape
        (idx.drop (shape.length - a.shape.length)))⟩
  else .error .valueError

/-- For each position along an axis after `np.repeat(·, counts)`, the position it came from. Models
`flory/common/utilities.py:68`. -/
def repeatIndex (counts : List ℕ) : List ℕ :=
  counts.zipIdx.flatMap fun p => List.replicate p.1 p.2

/-- `np.repeat(a, counts, axis)`; raises if the number of counts is not the axis length (or one, in
which case numpy broadcasts it). Models `flory/common/utilities.py:68`. -/
def repeatAxis (a : NDArr K) (counts : List ℕ) (axis : ℕ) : Py (NDArr K) :=
  let d := a.shape.getD axis 0
  if axis < a.shape.length then
    let counts' := if counts.length = 1 then List.replicate d (counts.getD 0 0) else counts
    if counts'.length = d then
      .ok ⟨a.shape.set axis counts'.sum, fun idx =>
        a.get (idx.set axis ((repeatIndex counts').getD (idx.getD axis 0) 0))⟩
    else .error .valueError
  else .error .indexError

end NDArr

end Flory
