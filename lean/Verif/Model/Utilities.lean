import Verif.Model.NDArray

/-! # Model of `flory/common/utilities.py` -/

namespace Flory

/-- A Python dictionary with string keys, in insertion order. Models `kwargs_full` of
`flory/common/utilities.py:12-25`. -/
abbrev Dict (V : Type) := List (String × V)

namespace Dict

variable {V : Type}

/-- `d.get(k)`. Models `flory/common/utilities.py:24-25`. -/
def get? (d : Dict V) (k : String) : Option V := d.lookup k

/-- `d[k] = v`: replace in place or append. Models `flory/common/utilities.py:25`. -/
def insert (d : Dict V) (k : String) (v : V) : Dict V :=
  match d with
  | [] => [(k, v)]
  | (k', v') :: rest => if k' = k then (k, v) :: rest else (k', v') :: insert rest k v

/-- `{**a, **b}`. Models `flory/mcmp/finder.py:328`, `351`, `373`, `410`, `419`. -/
def merge (a b : Dict V) : Dict V := b.foldl (fun d p => d.insert p.1 p.2) a

end Dict

/-- `filter_kwargs` (`flory/common/utilities.py:12-25`); `params` are the parameter names of the
function. -/
def filterKwargs {V : Type} (kwargsFull : Dict V) (params : List String) : Dict V :=
  params.filterMap fun p => (kwargsFull.get? p).map fun v => (p, v)

/-- Calling a function with keyword-only/default parameters `params` as `f(**kwargs)`: Python raises
`TypeError` for an unknown keyword. (All modelled `_compiled_impl` methods have defaults for every
parameter, so missing keywords are allowed.) Models `flory/interaction/base.py:203`. -/
def callKwargs {V α : Type} (params : List String) (kwargs : Dict V)
    (f : (String → Option V) → Py α) : Py α :=
  if kwargs.all (fun p => params.contains p.1) then f kwargs.get? else .error .typeError

/-- The `compiled` methods (`flory/interaction/base.py:182-203`, `flory/entropy/base.py:186-214`,
`flory/ensemble/base.py:85-103`, `flory/constraint/base.py:128-147`): filter, then call. -/
def callCompiled {V α : Type} (params : List String) (kwargsFull : Dict V)
    (f : (String → Option V) → Py α) : Py α :=
  callKwargs params (filterKwargs kwargsFull params) f

/-- `convert_and_broadcast` (`flory/common/utilities.py:28-42`). -/
def convertAndBroadcast {K : Type} (a : NDArr K) (shape : List ℕ) : Py (NDArr K) :=
  a.atleast1d.broadcastTo shape

/-- The loop of `make_square_blocks` over the axes (`flory/common/utilities.py:66-68`). -/
def repeatAxes {K : Type} (blockSizes : List ℕ) : ℕ → NDArr K → Py (NDArr K)
  | 0, a => .ok a
  | n + 1, a => do
    let a ← repeatAxes blockSizes n a
    a.repeatAxis blockSizes n

/-- `make_square_blocks` (`flory/common/utilities.py:45-70`).  `len(set(shape)) != 1` means that
the dimensions are not all equal (or that there are none). -/
def makeSquareBlocks {K : Type} (a : NDArr K) (blockSizes : List ℕ) : Py (NDArr K) :=
  if a.shape.dedup.length ≠ 1 ∨ blockSizes.length ≠ a.shape.headD 0 then .error .valueError
  else repeatAxes blockSizes a.shape.length a

end Flory
