import Verif.Model.Utilities
import Mathlib.Data.List.Lex
import Mathlib.Data.List.Sort
import Mathlib.Data.Finset.Sort
import Mathlib.Algebra.BigOperators.Field

/-!
# Model of `flory/common/phases.py`

`P` phases, `C` components.  Rounding is not modelled.
-/

namespace Flory

variable {K : Type}

/-- State of a `Phases` object (`flory/common/phases.py:36-62`), after the shape checks. -/
structure Phases (P C : ℕ) (K : Type) where
  volumes : Vec P K
  fractions : Mat P C K

/-- `Phases.__init__` (`phases.py:39-62`) on arrays of any shape. -/
def Phases.new (volumes fractions : NDArr K) : Py (Σ P C : ℕ, Phases P C K) :=
  if volumes.shape.length ≠ 1 then .error .valueError
  else if fractions.shape.length ≠ 2 then .error .valueError
  else
    let P := volumes.shape.headD 0
    let P' := fractions.shape.headD 0
    let C := fractions.shape.tail.headD 0
    if P ≠ P' then .error .valueError
    else .ok ⟨P, C, fun p => volumes.get [p.1], fun p i => fractions.get [p.1, i.1]⟩

/-- External: `np.argsort` of one row. Nothing is assumed about ties. Models
`flory/common/phases.py:105`. -/
abbrev ArgSort (K : Type) := {C : ℕ} → Vec C K → Vec C (Fin C)

/-- What is assumed of `np.argsort`: a permutation that sorts. Models `flory/common/phases.py:105`. -/
structure ArgSort.Ok [LinearOrder K] (argsort : ArgSort K) : Prop where
  bijective : ∀ {C : ℕ} (v : Vec C K), Function.Bijective (argsort v)
  sorted : ∀ {C : ℕ} (v : Vec C K) (i j : Fin C), i ≤ j → v (argsort v i) ≤ v (argsort v j)

/-- External: `np.lexsort` — indirect stable sort, the last key (row) is the primary one. Raises
`TypeError` without keys. Models `flory/common/phases.py:106`. -/
def npLexsort {κ : Type} [LinearOrder κ] {C P : ℕ} (keys : Mat C P κ) : Py (List (Fin P)) :=
  if C = 0 then .error .typeError
  else .ok ((List.finRange P).mergeSort fun p q =>
    decide ((List.ofFn fun i => keys i p).reverse ≤ (List.ofFn fun i => keys i q).reverse))

namespace Phases

variable [Field K] {P C : ℕ}

/-- `total_volume` (`phases.py:85-88`). -/
def totalVolume (x : Phases P C K) : K := ∑ p, x.volumes p

/-- `mean_fractions` (`phases.py:90-93`).  Array divided by a number: for zero total volume numpy
returns nan, which the model does not represent. -/
def meanFractions (x : Phases P C K) : Vec C K :=
  fun i => (∑ p, x.volumes p * x.fractions p i) / x.totalVolume

/-- `normalize` (`phases.py:95-97`); same remark. -/
def normalize (x : Phases P C K) : Phases P C K where
  volumes p := x.volumes p / x.totalVolume
  fractions := x.fractions

/-- `a[index]` along the first axis, with a list of indices. Models `flory/common/phases.py:107`. -/
def take {α : Type} (a : Fin P → α) (index : List (Fin P)) : Fin index.length → α :=
  fun k => a (index.get k)

/-- `sort` (`phases.py:99-107`).  The number of phases is that of the index array. -/
def sort (argsort : ArgSort K) (x : Phases P C K) : Py (Σ P' : ℕ, Phases P' C K) := do
  let enrichIndexes : Mat P C (Fin C) := fun p => argsort (x.fractions p)
  let sortingIndex ← npLexsort (C := C) fun i p => enrichIndexes p i
  return ⟨sortingIndex.length, take x.volumes sortingIndex, take x.fractions sortingIndex⟩

variable [DecidableEq K]

/-- `np.average(fractions, weights=volumes, axis=0)` over the phases with label `n`: numpy raises
`ZeroDivisionError` if the weights sum to zero. Models `flory/common/phases.py:138-140`. -/
def average (x : Phases P C K) (labels : Vec P ℤ) (n : ℤ) : Py (Vec C K) :=
  let scl := ∑ p, if labels p = n then x.volumes p else 0
  if scl = 0 then .error .zeroDivisionError
  else .ok fun i => (∑ p, if labels p = n then x.volumes p * x.fractions p i else 0) / scl

/-- The collecting loop of `get_clusters` (`phases.py:136-142`): pairs of cluster volume and cluster
fractions. -/
def collect (x : Phases P C K) (labels : Vec P ℤ) : List ℤ → Py (List (K × Vec C K))
  | [] => .ok []
  | n :: ns => do
    let meanFractions ← x.average labels n
    let rest ← x.collect labels ns
    return (∑ p, if labels p = n then x.volumes p else 0, meanFractions) :: rest

/-- `get_clusters` (`phases.py:109-144`).  `labels` is what scipy's `fcluster` returns for the
fractions and the distance (external, arbitrary); `np.unique` sorts. -/
def getClusters (x : Phases P C K) (labels : Vec P ℤ) : Py (Σ P' : ℕ, Phases P' C K) :=
  if P < 2 then .ok ⟨P, x⟩
  else do
    let groups ← x.collect labels ((Finset.univ.image labels).sort (· ≤ ·))
    return ⟨groups.length, fun k => (groups.get k).1, fun k => (groups.get k).2⟩

end Phases

/-- Heap of `info` dictionaries (`phases.py:150-192`): an address for every dictionary object. -/
structure InfoHeap (V : Type) where
  cell : ℕ → Dict V
  next : ℕ

/-- `PhasesResult` object (`phases.py:147-192`): phases and the address of its `info`.  A plain
`Phases` object has no address. -/
structure PhasesObj (C : ℕ) (K : Type) where
  P : ℕ
  phases : Phases P C K
  info : Option ℕ

/-- `{}` or `d.copy()`: a new dictionary object (`phases.py:167`, `192`). -/
def InfoHeap.alloc {V : Type} (h : InfoHeap V) (d : Dict V) : InfoHeap V × ℕ :=
  (⟨fun a => if a = h.next then d else h.cell a, h.next + 1⟩, h.next)

/-- `obj.info[k] = v` by the user. The dictionary of `flory/common/phases.py:182-184`. -/
def InfoHeap.set {V : Type} (h : InfoHeap V) (a : ℕ) (k : String) (v : V) : InfoHeap V :=
  { h with cell := fun b => if b = a then (h.cell a).insert k v else h.cell b }

namespace PhasesObj

variable {V : Type} {C : ℕ}

/-- `PhasesResult.__init__`, `from_phases` (`phases.py:150-179`): a given dictionary is used as it is,
not copied. -/
def new (h : InfoHeap V) {P : ℕ} (x : Phases P C K) (info : Option ℕ) :
    InfoHeap V × PhasesObj C K :=
  match info with
  | some a => (h, ⟨P, x, some a⟩)
  | none => let (h, a) := h.alloc []; (h, ⟨P, x, some a⟩)

/-- `_copy` of `Phases` (`phases.py:64-70`) and `PhasesResult` (`phases.py:186-192`). -/
def copy (h : InfoHeap V) (o : PhasesObj C K) {P : ℕ} (x : Phases P C K) :
    InfoHeap V × PhasesObj C K :=
  match o.info with
  | none => (h, ⟨P, x, none⟩)
  | some a => let (h, b) := h.alloc (h.cell a); (h, ⟨P, x, some b⟩)

/-- The transformations of a `Phases` object; clustering comes with scipy's labels. Models
`flory/common/phases.py:95-144`. -/
inductive Op where
  | normalize
  | sort
  | getClusters (labels : (P : ℕ) → Vec P ℤ)

/-- Method call on an object (`phases.py:95-144`).  `get_clusters` of fewer than two phases returns the
object itself. -/
def step [Field K] [DecidableEq K] (argsort : ArgSort K) (h : InfoHeap V) (o : PhasesObj C K) :
    Op → Py (InfoHeap V × PhasesObj C K)
  | .normalize => .ok (copy h o o.phases.normalize)
  | .sort => do
    let r ← o.phases.sort argsort
    return copy h o r.2
  | .getClusters labels =>
    if o.P < 2 then .ok (h, o)
    else do
      let r ← o.phases.getClusters (labels o.P)
      return copy h o r.2

/-- A sequence of transformations. User code; the calls are those of
`flory/common/phases.py:95-144`. -/
def steps [Field K] [DecidableEq K] (argsort : ArgSort K) :
    InfoHeap V → PhasesObj C K → List Op → Py (InfoHeap V × PhasesObj C K)
  | h, o, [] => .ok (h, o)
  | h, o, op :: ops => do
    let (h, o) ← o.step argsort h op
    steps argsort h o ops

end PhasesObj

/-- External: `rng.beta(a, b)`. Models `flory/common/phases.py:29`. -/
abbrev Beta (G K : Type) := G → ℕ → ℕ → K × G

/-- `get_uniform_random_composition` (`phases.py:14-33`).  `np.empty` leaves arbitrary content `junk`.
`phis[-1]` of an empty array raises `IndexError`. -/
def uniformRandomComposition {G : Type} [Field K] (beta : Beta G K) (g : G) :
    (n : ℕ) → (junk : Vec n K) → Py (Vec n K × G)
  | 0, _ => .error .indexError
  | n + 1, junk =>
    let s := forRange n (junk, (1 : K), g) fun d s =>
      let (b, g) := beta s.2.2 1 (n + 1 - d.1 - 1)
      let x := b * s.2.1
      (setAt s.1 d.castSucc x, s.2.1 - x, g)
    .ok (setAt s.1 (Fin.last n) (1 - ∑ d : Fin n, s.1 d.castSucc), s.2.2)

end Flory
