import Verif.Model.TranscriptObjects
import Verif.Model.Phases

/-!
# Array operations used by the transcription of `flory/common/phases.py`

The definitions `Gen.…` of `Verif/Gen/Phases.lean`, written by `tools/transcribe_phases.py`, call these.
Rounding is not modelled.
-/

namespace Flory

/-- External functions of scipy (`flory/common/phases.py:126-130`).  `fcluster` returns one integer for every
row given to `pdist`. -/
structure Scipy where
  pdist : NDArr ℝ → NDArr ℝ
  linkage : NDArr ℝ → String → Py (NDArr ℝ)
  fcluster : NDArr ℝ → ℝ → String → Py (List ℤ)

namespace NDArr

variable {K : Type}

/-- `len(a)`. Models `flory/common/phases.py:78`. -/
def len (a : NDArr K) : Py ℕ :=
  match a.shape with
  | [] => .error .typeError
  | n :: _ => .ok n

/-- Sum of a real array over all its indices. Models `flory/common/phases.py:88`. -/
def sumAll : List ℕ → (List ℕ → ℝ) → ℝ
  | [], f => f []
  | n :: s, f => ∑ i : Fin n, sumAll s fun idx => f (i.1 :: idx)

/-- `a.sum()`. Models `flory/common/phases.py:32`, `88`, `142`. -/
def sum (a : NDArr ℝ) : ℝ := sumAll a.shape a.get

/-- `a @ b` for a one- and a two-dimensional array; other numbers of dimensions do not occur. Models
`flory/common/phases.py:93`. -/
def vecMat (a b : NDArr ℝ) : Py (NDArr ℝ) :=
  match a.shape, b.shape with
  | [n], [m, c] =>
    if n ≠ m then .error .valueError
    else .ok ⟨[c], fun idx => ∑ p : Fin n, a.get [p.1] * b.get (p.1 :: idx)⟩
  | _, _ => .error .valueError

/-- `np.argsort(a)` along the last axis. Models `flory/common/phases.py:105`. -/
def argsort (sort : ArgSort ℝ) (a : NDArr ℝ) : NDArr ℕ :=
  ⟨a.shape, fun idx =>
    if h : idx.getLastD 0 < a.shape.getLastD 0 then
      (sort (fun j : Fin (a.shape.getLastD 0) => a.get (idx.dropLast ++ [j.1])) ⟨_, h⟩).1
    else 0⟩

/-- `np.lexsort(keys)` for a two-dimensional array of keys. Models `flory/common/phases.py:106`. -/
def lexsort (keys : NDArr ℕ) : Py (List ℕ) := do
  let l ← npLexsort (keys.toMat (keys.shape.getD 0 0) (keys.shape.getD 1 0))
  return l.map Fin.val

/-- `a[index]` for a list of positions along the first axis. Models `flory/common/phases.py:107`. -/
def takeRows (a : NDArr K) (index : List ℕ) : Py (NDArr K) :=
  if ∀ k ∈ index, k < a.shape.headD 0 then
    .ok ⟨index.length :: a.shape.tail, fun idx => a.get (index.getD (idx.headD 0) 0 :: idx.tail)⟩
  else .error .indexError

/-- `a[mask]` and `a[mask, :]` for a boolean mask along the first axis: numpy raises if the lengths differ.
Models `flory/common/phases.py:136-137`. -/
def maskRows (a : NDArr K) (mask : List Bool) : Py (NDArr K) :=
  if mask.length ≠ a.shape.headD 0 then .error .indexError
  else a.takeRows ((List.range mask.length).filter fun k => mask.getD k false)

/-- `np.average(a, weights=w, axis=0)`: numpy raises `TypeError` or `ValueError` for weights of another shape
and `ZeroDivisionError` if they sum to zero. Models `flory/common/phases.py:138-140`. -/
noncomputable def average (a w : NDArr ℝ) : Py (NDArr ℝ) :=
  match w.shape with
  | [n] =>
    if n ≠ a.shape.headD 0 then .error .valueError
    else if w.sum = 0 then .error .zeroDivisionError
    else .ok ⟨a.shape.tail, fun idx => (∑ k : Fin n, a.get (k.1 :: idx) * w.get [k.1]) / w.sum⟩
  | _ => .error .typeError

/-- `np.asarray` of a list of numbers. Models `flory/common/phases.py:51`. -/
def ofReals (l : List ℝ) : NDArr ℝ := ⟨[l.length], fun idx => l.getD (idx.headD 0) 0⟩

/-- `np.asarray` of a list of arrays: numpy raises if the shapes differ. Models
`flory/common/phases.py:52`. -/
def stack (l : List (NDArr ℝ)) : Py (NDArr ℝ) :=
  match l with
  | [] => .ok ⟨[0], fun _ => 0⟩
  | a :: l' =>
    if ∀ b ∈ l', b.shape = a.shape then
      .ok ⟨l.length :: a.shape, fun idx => (l.getD (idx.headD 0) a).get idx.tail⟩
    else .error .valueError

/-- `a[k] = x` for a one-dimensional array. Models `flory/common/phases.py:31`, `32`. -/
def setItem (a : NDArr ℝ) (k : ℤ) (x : ℝ) : Py (NDArr ℝ) := do
  let i ← normIndex (a.shape.headD 0) k
  return ⟨a.shape, fun idx => if idx = [i.1] then x else a.get idx⟩

/-- `a[:-1]` for a one-dimensional array. Models `flory/common/phases.py:32`. -/
def init (a : NDArr ℝ) : NDArr ℝ := ⟨[a.shape.headD 0 - 1], a.get⟩

end NDArr

/-- `np.unique` of a list of labels. Models `flory/common/phases.py:135`. -/
def uniqueLabels (l : List ℤ) : List ℤ := l.toFinset.sort (· ≤ ·)

end Flory
