import Verif.Model.TranscriptPhases

/-!
# Array operations used by the transcription of compilation

The definitions `Gen.…` of `Verif/Gen/Compile.lean`, written by `tools/transcribe_compile.py`, call these.
-/

namespace Flory.NDArr

/-- Elements of an array in row-major order. Models `flory/interaction/flory_huggins.py:379`. -/
def flat : List ℕ → (List ℕ → ℝ) → List ℝ
  | [], f => [f []]
  | n :: s, f => (List.range n).flatMap fun i => flat s fun idx => f (i :: idx)

/-- `a.min()`: numpy raises `ValueError` for an array without elements; not-a-number is not modelled. Models
`flory/interaction/flory_huggins.py:135`, `379`, `flory/interaction/flory_huggins_block.py:127`. -/
noncomputable def min (a : NDArr ℝ) : Py ℝ :=
  match flat a.shape a.get with
  | [] => .error .valueError
  | x :: l => .ok (l.foldl Min.min x)

/-- `a[np.triu_indices_from(a, k=k)]` for `k ≥ 0`: numpy raises `ValueError` unless `a` has two axes. Models
`flory/interaction/flory_huggins.py:239`. -/
def upper (a : NDArr ℝ) (k : ℕ) : Py (List ℝ) :=
  match a.shape with
  | [n, m] => .ok <| (List.range n).flatMap fun i =>
    ((List.range m).filter fun j => i + k ≤ j).map fun j => a.get [i, j]
  | _ => .error .valueError

end Flory.NDArr
