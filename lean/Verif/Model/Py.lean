import Mathlib.Algebra.BigOperators.Fin
import Mathlib.Algebra.Order.Field.Basic
import Mathlib.Data.Fin.VecNotation
import Mathlib.Order.Fin.Basic
import Mathlib.Data.Fintype.BigOperators
import Mathlib.Data.Finset.Max

/-!
# Python / numpy / numba primitives used by the model of `flory`

This file contains no project code.  It fixes how Python constructs are represented.
-/

namespace Flory

/-- Exceptions raised by the modelled code.

`componentNumberError`, `featureNumberError`, `volumeFractionError` are the project's own
exceptions (`flory/common/exceptions.py:7-16`).  `outOfBounds` is not a Python
exception: numba does not check indices, so an access outside an array is undefined
behaviour; the model makes it visible as an error. -/
inductive PyErr where
  | valueError
  | typeError
  | zeroDivisionError
  | attributeError
  | indexError
  | unboundLocalError
  | notImplementedError
  | componentNumberError
  | featureNumberError
  | volumeFractionError
  | linAlgError
  | outOfBounds
  deriving DecidableEq, Repr

/-- A computation which may raise. Python exceptions as raised at `flory/common/exceptions.py:7-16`,
`flory/common/phases.py:53-62`, `flory/mcmp/finder.py:241-309`. -/
abbrev Py := Except PyErr

/-- One-dimensional array of length `n`. Arrays such as `Js` of
`flory/mcmp/_finder_impl.py:210-213`. -/
abbrev Vec (n : ℕ) (K : Type) := Fin n → K

/-- Two-dimensional array with `r` rows and `c` columns; `a i` is numpy's row `a[i]`. Arrays such as
`omegas` of `flory/mcmp/_finder_impl.py:210-213`. -/
abbrev Mat (r c : ℕ) (K : Type) := Fin r → Fin c → K

/-- `for i in range(n): body` where `s` holds all variables the body assigns. Loops such as
`flory/mcmp/_finder_impl.py:360-361`. -/
def forRange {σ : Type} (n : ℕ) (s : σ) (body : Fin n → σ → σ) : σ :=
  Fin.foldl n (fun s i => body i s) s

/-- `for i in range(n): body` where the body may raise. Loops such as
`flory/mcmp/_finder_impl.py:180-186`. -/
def forRangeM {σ : Type} (n : ℕ) (s : σ) (body : Fin n → σ → Py σ) : Py σ :=
  Fin.foldlM n (fun s i => body i s) s

/-- `a[i] = x` (one-dimensional) or assignment of a whole row `a[i] = row`. Models
`flory/mcmp/_finder_impl.py:120-121`, `126`. -/
def setAt {n : ℕ} {α : Type} (a : Fin n → α) (i : Fin n) (x : α) : Fin n → α :=
  fun j => if j = i then x else a j

/-- `a[r, c] = x`. Models `flory/mcmp/_finder_impl.py:129-131`. -/
def setAt2 {r c : ℕ} {α : Type} (a : Mat r c α) (i : Fin r) (j : Fin c) (x : α) : Mat r c α :=
  fun i' j' => if i' = i ∧ j' = j then x else a i' j'

/-- `a[i]` for an index computed at run time. Models `flory/mcmp/_finder_impl.py:191`. -/
def readAt {n : ℕ} {α : Type} (a : Fin n → α) (i : ℕ) : Py α :=
  if h : i < n then .ok (a ⟨i, h⟩) else .error .outOfBounds

/-- `a[i] = x` for an index computed at run time. Models `flory/mcmp/_finder_impl.py:182`. -/
def writeAt {n : ℕ} {α : Type} (a : Fin n → α) (i : ℕ) (x : α) : Py (Fin n → α) :=
  if h : i < n then .ok (setAt a ⟨i, h⟩ x) else .error .outOfBounds

section Ordered

variable {K : Type}

/-- `v.max()` of a non-empty array (running maximum). Models `flory/mcmp/_finder_impl.py:118`,
`348`, `386`, `403`. -/
def npMax [LinearOrder K] {n : ℕ} [NeZero n] (v : Vec n K) : K :=
  forRange n (v 0) fun i acc => max acc (v i)

/-- `v.min()` of a non-empty array (running minimum). Models `flory/mcmp/_finder_impl.py:119`. -/
def npMin [LinearOrder K] {n : ℕ} [NeZero n] (v : Vec n K) : K :=
  forRange n (v 0) fun i acc => min acc (v i)

/-- `v.max()` of an array that may be empty: numpy and numba raise `ValueError`. Models
`flory/constraint/linear_local.py:122`, `flory/constraint/linear_global.py:128`. -/
def npMaxPy [LinearOrder K] : {n : ℕ} → (v : Vec n K) → Py K
  | 0, _ => .error .valueError
  | _ + 1, v => .ok (npMax v)

/-- `np.sign`. Models `flory/mcmp/_finder_impl.py:69`. -/
def npSign [Zero K] [One K] [Neg K] [LinearOrder K] (x : K) : K :=
  if 0 < x then 1 else if x < 0 then -1 else 0

/-- `x.clip(lo)`. Models `flory/mcmp/_finder_impl.py:69`. -/
def npClipMin [LinearOrder K] (lo x : K) : K := max x lo

/-- Scalar division `a / b` in a numba function with the default (python) error model: raises
`ZeroDivisionError` instead of returning an infinity. Models `flory/mcmp/_finder_impl.py:384`,
`390`, `395`. -/
def pyDiv [Div K] [Zero K] [LinearOrder K] (a b : K) : Py K :=
  if b = 0 then .error .zeroDivisionError else .ok (a / b)

end Ordered

/-- `numpy.random.Generator`, as far as the project uses it: state `G`, a draw from `uniform(-1,
1)`, a draw from the standard normal distribution and a draw from `integers(0, hi)`. Nothing is
assumed about the distributions. Models `flory/mcmp/_finder_impl.py:131`, `190`,
`flory/mcmp/finder.py:449`. -/
structure Rng (G K : Type) where
  uniform : G → K × G
  normal : G → K × G
  integers : G → ℕ → ℕ × G

/-- What is assumed of a generator: the documented ranges of the draws. Models
`flory/mcmp/_finder_impl.py:131`, `190`. -/
structure Rng.Ok {G K : Type} [Field K] [LinearOrder K] (rng : Rng G K) : Prop where
  uniform_mem : ∀ g, -1 ≤ (rng.uniform g).1 ∧ (rng.uniform g).1 ≤ 1
  integers_lt : ∀ g hi, 0 < hi → (rng.integers g hi).1 < hi

/-- `rng.integers(0, hi)`; numpy raises `ValueError` when `hi ≤ 0`. Models
`flory/mcmp/_finder_impl.py:190`. -/
def Rng.integersPy {G K : Type} (rng : Rng G K) (g : G) (hi : ℕ) : Py (ℕ × G) :=
  if hi = 0 then .error .valueError else .ok (rng.integers g hi)

end Flory
