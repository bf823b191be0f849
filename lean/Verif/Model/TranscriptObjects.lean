import Verif.Model.TranscriptArrays
import Verif.Model.Transcript
import Verif.Model.Utilities

/-!
# Array operations used by the transcription of constructors and setters

The definitions `Gen.…` of `Verif/Gen/Objects.lean`, written by `tools/transcribe_objects.py`, call these.
-/

namespace Flory

namespace NDArr

variable {K L : Type}

/-- `a.T`. Models `flory/interaction/flory_huggins.py:108-110`. -/
def transpose (a : NDArr K) : NDArr K := ⟨a.shape.reverse, fun idx => a.get idx.reverse⟩

/-- An operation on every element. Models `flory/ensemble/grandcanonical.py:128`. -/
def map (f : K → L) (a : NDArr K) : NDArr L := ⟨a.shape, fun idx => f (a.get idx)⟩

/-- `np.full`, `np.ones`, `np.ones_like` and `a[:] = x`. Models
`flory/interaction/flory_huggins.py:313`, `343`, `flory/entropy/ideal_gas.py:119`,
`flory/ensemble/grandcanonical.py:124`, `flory/ensemble/canonical.py:88`. -/
def full (shape : List ℕ) (x : K) : NDArr K := ⟨shape, fun _ => x⟩

/-- An operation on two arrays with broadcasting. Models `flory/interaction/flory_huggins.py:110`,
`flory/ensemble/grandcanonical.py:128`. -/
def zip2 (f : K → K → L) (a b : NDArr K) : Py (NDArr L) :=
  if a.shape = b.shape then .ok ⟨a.shape, fun idx => f (a.get idx) (b.get idx)⟩
  else
    match broadcastShapes a.shape.reverse b.shape.reverse with
    | none => .error .valueError
    | some l => .ok ⟨l.reverse, fun idx => f (a.get (clipIndex a.shape idx)) (b.get (clipIndex b.shape idx))⟩

/-- `a[np.diag_indices_from(a)] = x` for a square matrix; numpy's check that `a` is square is left out, as
`a` comes from `np.full((n, n), …)`. Models `flory/interaction/flory_huggins.py:315`. -/
def setDiag (a : NDArr K) (x : K) : NDArr K :=
  ⟨a.shape, fun idx => if idx.getD 0 0 = idx.getD 1 0 then x else a.get idx⟩

/-- A list of one value used for `n` places. Models `flory/interaction/flory_huggins.py:352-353`. -/
def spread (n : ℕ) : List K → List K
  | [x] => List.replicate n x
  | vals => vals

/-- `a[i, j] = vals` for a matrix, two lists of indices and a list of values: assignments in order. A single
value is used for all places; indices that are not below the length of their axis raise. Models
`flory/interaction/flory_huggins.py:352-353`. -/
def assignAt (a : NDArr K) (is js : List ℕ) (vals : List K) : Py (NDArr K) :=
  if is.length ≠ js.length then .error .indexError
  else if ¬((∀ i ∈ is, i < a.shape.getD 0 0) ∧ ∀ j ∈ js, j < a.shape.getD 1 0) then .error .indexError
  else
    let vals := spread is.length vals
    if vals.length ≠ is.length then .error .valueError
    else .ok ⟨a.shape, ((is.zip js).zip vals).foldl
      (fun g p idx => if idx = [p.1.1, p.1.2] then p.2 else g idx) a.get⟩

/-- The elements of a one-dimensional array. Models `flory/common/utilities.py:68`. -/
def items (a : NDArr K) : List K := List.ofFn (a.toVec (a.shape.headD 0))

/-- `np.repeat(a, counts, axis)`. Models `flory/common/utilities.py:68`. -/
def repeatBy (a : NDArr K) (counts : NDArr ℕ) (axis : ℕ) : Py (NDArr K) :=
  a.repeatAxis counts.items axis

/-- Sum over all indices of a shape. Models `flory/interaction/flory_huggins_block.py:68`. -/
def sumOver : List ℕ → (List ℕ → ℕ) → ℕ
  | [], f => f []
  | n :: s, f => ∑ i : Fin n, sumOver s fun idx => f (i.1 :: idx)

/-- `a.sum()` of an integer array. Models `flory/interaction/flory_huggins_block.py:68`,
`flory/entropy/ideal_gas_polydispersed.py:141`. -/
def total (a : NDArr ℕ) : ℕ := sumOver a.shape a.get

/-- `np.allclose(a, b)` for arrays of the same shape, with numpy's default tolerances. Models
`flory/interaction/flory_huggins_block.py:62`. -/
noncomputable def allclose (a b : NDArr ℝ) : Bool :=
  @decide (∀ idx, List.Forall₂ (· < ·) idx a.shape →
    |a.get idx - b.get idx| ≤ 1 / 10 ^ 8 + 1 / 10 ^ 5 * |b.get idx|) (Classical.propDecidable _)

end NDArr

/-- `np.triu_indices(n, k)`: rows and columns of the places with `i + k ≤ j`, in row-major order. Models
`flory/interaction/flory_huggins.py:351`. -/
def triu (n k : ℕ) : List ℕ × List ℕ :=
  ((List.range n).flatMap fun i => ((List.range n).filter fun j => i + k ≤ j).map fun j => (i, j)).unzip

end Flory
