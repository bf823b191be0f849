import Verif.Model.Py
import Mathlib.Algebra.Order.Floor.Defs

/-!
# Primitives of the transcription

`tools/transcribe.py` turns Python functions into the Lean definitions of `Verif/Gen/`.  This file
fixes the meaning of the constructs that `Verif/Model/Py.lean` does not contain.  It contains no
project code; every definition cites lines where the construct is used.
-/

namespace Flory

/-- `int(x)` of a number: truncation towards zero. Models `flory/mcmp/_finder_impl.py:341`. -/
def npInt {K : Type} [Field K] [LinearOrder K] [FloorRing K] (x : K) : ℤ :=
  if 0 ≤ x then ⌊x⌋ else ⌈x⌉

/-- Reading a variable that is only assigned inside a loop, which may not have run:
`UnboundLocalError`. Models `flory/mcmp/_finder_impl.py:419-426`. -/
def boundVar {α : Type} : Option α → Py α
  | some x => .ok x
  | none => .error .unboundLocalError

/-- `for x in literal_unroll(l): body` where the body changes neither `x` nor `l`. Models
`flory/mcmp/_finder_impl.py:362-364`, `375-377`. -/
def forList {α σ : Type} (l : List α) (s : σ) (body : α → σ → σ) : σ :=
  l.foldl (fun s x => body x s) s

/-- `for x in literal_unroll(l): body` where the body only changes the object `x`. Models
`flory/mcmp/_finder_impl.py:352-353`. -/
def mapList {α : Type} (l : List α) (body : α → α) : List α := l.map body

/-- `for x in literal_unroll(l): body` where the body changes the object `x` and other variables and
may raise. Models `flory/mcmp/_finder_impl.py:411-414`. -/
def forListUpdM {α σ : Type} : List α → σ → (α → σ → Py (α × σ)) → Py (List α × σ)
  | [], s, _ => .ok ([], s)
  | x :: l, s, body => do
    let r ← body x s
    let q ← forListUpdM l r.2 body
    return (r.1 :: q.1, q.2)

/-- Position in an array of length `n` meant by the integer `i`: negative integers count from the
end.  An index out of range is undefined behaviour in numba, see `PyErr.outOfBounds`. Models
`flory/mcmp/_finder_impl.py:191-192`. -/
def intIndex (n : ℕ) (i : ℤ) : Py (Fin n) :=
  if h : 0 ≤ i ∧ i < n then .ok ⟨i.toNat, by omega⟩
  else if h : i < 0 ∧ 0 ≤ i + n then .ok ⟨(i + n).toNat, by omega⟩
  else .error .outOfBounds

/-- `a[i]` for an integer computed at run time. Models `flory/mcmp/_finder_impl.py:191-192`,
`flory/entropy/ideal_gas_polydispersed.py:76-80`. -/
def readInt {n : ℕ} {α : Type} (a : Fin n → α) (i : ℤ) : Py α := do
  let k ← intIndex n i
  return a k

/-- `a[i] = x` for an integer computed at run time. Models `flory/mcmp/_finder_impl.py:182`,
`flory/entropy/ideal_gas_polydispersed.py:76-80`. -/
def writeInt {n : ℕ} {α : Type} (a : Fin n → α) (i : ℤ) (x : α) : Py (Fin n → α) := do
  let k ← intIndex n i
  return setAt a k x

/-- `a[:, i] = x` for an integer computed at run time. Models `flory/mcmp/_finder_impl.py:193`. -/
def writeCol {r c : ℕ} {α : Type} (a : Mat r c α) (i : ℤ) (x : Fin r → α) : Py (Mat r c α) := do
  let k ← intIndex c i
  return fun p q => if q = k then x p else a p q

/-- `rng.integers(0, hi)`; numpy raises `ValueError` when `hi ≤ 0`. Models
`flory/mcmp/_finder_impl.py:190`. -/
def integersInt {G K : Type} (rng : Rng G K) (g : G) (hi : ℤ) : Py (ℤ × G) :=
  if hi ≤ 0 then .error .valueError
  else .ok (((rng.integers g hi.toNat).1 : ℤ), (rng.integers g hi.toNat).2)

/-- `a[:n]`: a negative `n` counts from the end. Models `flory/mcmp/_finder_impl.py:188`. -/
def takeInt {m : ℕ} {α : Type} (a : Fin m → α) (n : ℤ) : List α :=
  (List.ofFn a).take (if 0 ≤ n then n else n + m).toNat

/-- `for x in l: body` where the body may raise. Models `flory/mcmp/_finder_impl.py:188-205`. -/
def forListM {α σ : Type} : List α → σ → (α → σ → Py σ) → Py σ
  | [], s, _ => .ok s
  | x :: l, s, body => do
    let s ← body x s
    forListM l s body

/-- What `while True: body` has computed after at most `n` rounds, if it has ended by then; the body
returns the variables and whether it reached `break`. Models `flory/mcmp/_finder_impl.py:189-205`. -/
def whileRounds {σ : Type} (body : σ → Py (σ × Bool)) : ℕ → σ → Option (Py σ)
  | 0, _ => none
  | n + 1, s =>
    match body s with
    | .error e => some (.error e)
    | .ok (s, true) => some (.ok s)
    | .ok (s, false) => whileRounds body n s

open Classical in
/-- `while True: body`. A loop that never ends has no result; the value `outOfBounds` stands for that.
Models `flory/mcmp/_finder_impl.py:189-205`. -/
noncomputable def whileTrue {σ : Type} (s : σ) (body : σ → Py (σ × Bool)) : Py σ :=
  if h : ∃ n r, whileRounds body n s = some r then h.choose_spec.choose else .error .outOfBounds

/-- `for _ in range(n): body` where the body may raise or reach `break`; it returns the variables and
whether it reached `break`. Models `flory/mcmp/finder.py:585-648`. -/
def forBreakM {σ : Type} : ℕ → σ → (σ → Py (σ × Bool)) → Py σ
  | 0, s, _ => .ok s
  | n + 1, s, body => do
    let r ← body s
    if r.2 then .ok r.1 else forBreakM n r.1 body

/-- `a // b` for integers. Models `flory/mcmp/finder.py:557`. -/
def pyFloorDiv (a b : ℤ) : Py ℤ :=
  if b = 0 then .error .zeroDivisionError else .ok (Int.fdiv a b)

end Flory
