import Mathlib.Algebra.BigOperators.Group.Finset.Basic
import Mathlib.Data.Int.Order.Basic
import Verif.Model.Py

/-!
# Data types and memory layout of the arrays handed to compiled classes

The compiled classes declare their fields, e.g. `("_Cs", float64[:, ::1])`: an array of double precision numbers, with
two axes, contiguous in C order.  Here an array is described by shape, strides and data type, without its entries, and
the constructors and setters are followed up to the call of the compiled class.
-/

namespace Flory

/-- Data types of numpy that occur as arguments (`flory/interaction/flory_huggins.py:100-109`). -/
inductive DType where
  | float64
  | float32
  | int64
  | int32
  | bool
  deriving DecidableEq

/-- Shape, strides (in items) and data type of an array, as handed to `flory/interaction/flory_huggins.py:87-110`.
Entries are left out; strides may be negative or zero. -/
structure Lay where
  shape : List ℕ
  strides : List ℤ
  dtype : DType

namespace Lay

/-- Strides of an array in C order, as made by `np.full` (`flory/interaction/flory_huggins.py:313`). -/
def cStrides : List ℕ → List ℤ
  | [] => []
  | _ :: r => (r.prod : ℤ) :: cStrides r

/-- Strides of an array in Fortran order with `k` items between neighbours on the first axis, as kept by `np.array`
(`flory/interaction/flory_huggins.py:105`). -/
def fStrides : ℤ → List ℕ → List ℤ
  | _, [] => []
  | k, d :: r => k :: fStrides (k * d) r

/-- Every axis that is not of length one has the stride that the axes before it in the list require; numpy's definition
of contiguous arrays, used in `flory/constraint/linear_local.py:21`. -/
def Steps : List (ℕ × ℤ) → ℤ → Prop
  | [], _ => True
  | (d, s) :: r, k => (d = 1 ∨ s = k) ∧ Steps r (k * d)

/-- The flag `C_CONTIGUOUS`, required by `float64[:, ::1]` (`flory/constraint/linear_local.py:21`). -/
def CContig (a : Lay) : Prop := 0 ∈ a.shape ∨ Steps (a.shape.zip a.strides).reverse 1

/-- The flag `F_CONTIGUOUS`, which decides the layout of copies (`flory/interaction/flory_huggins.py:105`). -/
def FContig (a : Lay) : Prop := 0 ∈ a.shape ∨ Steps (a.shape.zip a.strides) 1

/-- Strides of a copy with `order="K"`, the default of `np.array` and `astype`
(`flory/interaction/flory_huggins.py:105`, `flory/constraint/linear_local.py:163`): C or Fortran order if the array is
contiguous in this sense, otherwise the axes are sorted by the size of their strides, the axis with the smallest one
varying fastest and the later one of two with equal strides. -/
noncomputable def keepStrides (a : Lay) : List ℤ :=
  open Classical in
  if a.shape.length ≤ 1 ∨ a.CContig then cStrides a.shape
  else if a.FContig then fStrides 1 a.shape
  else (List.range a.shape.length).map fun i =>
    ∏ j ∈ Finset.range a.shape.length,
      if |a.strides.getD j 0| < |a.strides.getD i 0| ∨ (|a.strides.getD j 0| = |a.strides.getD i 0| ∧ i < j)
      then (a.shape.getD j 1 : ℤ) else 1

/-- `np.array(a)` (`flory/interaction/flory_huggins.py:105`, `flory/ensemble/canonical.py:99`). -/
noncomputable def copy (a : Lay) : Lay := { a with strides := a.keepStrides }

/-- `a.astype(dtype)` (`flory/constraint/linear_local.py:163`, `flory/entropy/ideal_gas.py:259`). -/
noncomputable def astype (dt : DType) (a : Lay) : Lay := { a.copy with dtype := dt }

/-- A new array, e.g. from `np.ones`, `np.full` (`flory/entropy/ideal_gas.py:119`). -/
def fresh (shape : List ℕ) (dt : DType) : Lay := ⟨shape, cStrides shape, dt⟩

/-- `np.atleast_1d` (`flory/constraint/linear_local.py:152`). -/
def atleast1d (a : Lay) : Lay := if a.shape = [] then ⟨[1], [1], a.dtype⟩ else a

/-- Strides of `np.broadcast_to` for reversed shapes (`flory/constraint/linear_local.py:163`); axes of length one get
stride zero, new axes too. -/
def stretch : List (ℕ × ℤ) → List ℕ → Py (List ℤ)
  | [], shape => .ok (shape.map fun _ => 0)
  | _ :: _, [] => .error .valueError
  | (d, s) :: r, t :: shape =>
    if d = 1 then do return 0 :: (← stretch r shape)
    else if d = t then do return s :: (← stretch r shape)
    else .error .valueError

/-- `np.broadcast_to(a, shape)` (`flory/constraint/linear_local.py:163`): a view. -/
def broadcastTo (a : Lay) (shape : List ℕ) : Py Lay := do
  let s ← stretch (a.shape.zip a.strides).reverse shape.reverse
  return ⟨shape, s.reverse, a.dtype⟩

/-- `a.T` (`flory/interaction/flory_huggins.py:110`). -/
def transpose (a : Lay) : Lay := ⟨a.shape.reverse, a.strides.reverse, a.dtype⟩

/-- Whether numpy exchanges two axes of the result of an elementwise function of operands with strides `(s, t)`
(`flory/interaction/flory_huggins.py:110`): the first operand with two nonzero strides decides, but C order wins. The
flag `ambiguous` is true as long as no operand was decisive. -/
def exchanged : List (ℤ × ℤ) → Bool → Bool → Bool
  | [], _, swap => swap
  | (s, t) :: r, ambiguous, swap =>
    if s ≠ 0 ∧ t ≠ 0 then
      if |t| ≤ |s| then exchanged r false false else exchanged r false (if ambiguous then true else swap)
    else exchanged r ambiguous swap

/-- Result of an elementwise function of arrays of shape `(m, n)` (`flory/interaction/flory_huggins.py:110`). -/
def ewise (m n : ℕ) (ops : List Lay) (dt : DType) : Lay :=
  if exchanged (ops.map fun a => (a.strides.getD 0 0, a.strides.getD 1 0)) true false
  then ⟨[m, n], [1, m], dt⟩ else ⟨[m, n], [n, 1], dt⟩

/-- Data type of `0.5 * a` (`flory/interaction/flory_huggins.py:110`). -/
def halfType : DType → DType
  | .float32 => .float32
  | _ => .float64

/-- `0.5 * (a + a.T)` for a square matrix (`flory/interaction/flory_huggins.py:110`). -/
def symmetrized (n : ℕ) (a : Lay) : Lay :=
  ewise n n [ewise n n [a, a.transpose] a.dtype] (halfType a.dtype)

/-- `convert_and_broadcast` (`flory/common/utilities.py:26-42`). -/
noncomputable def convertAndBroadcast (a : Lay) (shape : List ℕ) : Py Lay := do
  return (← a.atleast1d.broadcastTo shape).copy

end Lay

/-! ## Interactions -/

/-- `_chis` after the constructor or the setter of `FloryHugginsInteraction`
(`flory/interaction/flory_huggins.py:87-110,226-233`). -/
noncomputable def fhLay (n : ℕ) (chis : Lay) : Py Lay := do
  return ((← chis.atleast1d.broadcastTo [n, n]).copy).symmetrized n

/-- `_chis` in a sequence of calls: constructor or setter, `set_uniform_chis`, which makes a new matrix with the data
type of its argument, `set_random_chis`, which writes into the matrix (`flory/interaction/flory_huggins.py:226-353`). -/
inductive FHLay (n : ℕ) : Lay → Prop where
  | set {chis a} (h : fhLay n chis = .ok a) : FHLay n a
  | uniform (dt : DType) : FHLay n (.fresh [n, n] dt)
  | random {a} (h : FHLay n a) : FHLay n a

/-- What `FloryHugginsInteraction._compiled_impl` hands over for `_chis`
(`flory/interaction/flory_huggins.py:355-380`). -/
noncomputable def fhHanded (a : Lay) : Lay := a.astype .float64

/-- `_chis_feat` after the constructor of `FloryHugginsBlockInteraction`, which is handed over
(`flory/interaction/flory_huggins_block.py:39-71,104-128`). -/
noncomputable def blockHanded (n : ℕ) (chis : Lay) : Py Lay := do
  return (← chis.convertAndBroadcast [n, n]).symmetrized n

/-! ## Entropies -/

/-- `_sizes` of the ideal gases after constructor or setter (`flory/entropy/ideal_gas.py:102-124,243-246`,
`flory/entropy/ideal_gas_polydispersed.py:150-153`). -/
noncomputable def sizesLay (n : ℕ) : Option Lay → Py Lay
  | none => .ok (.fresh [n] .float64)
  | some sizes => do return (← sizes.atleast1d.broadcastTo [n]).copy

/-- What is handed over for `_sizes` (`flory/entropy/ideal_gas.py:248-259`,
`flory/entropy/ideal_gas_polydispersed.py:155-167`). -/
noncomputable def sizesHanded (n : ℕ) (sizes : Option Lay) : Py Lay := do
  return (← sizesLay n sizes).astype .float64

/-- What is handed over for `_num_comp_per_feat` (`flory/entropy/ideal_gas_polydispersed.py:115-142,155-167`). -/
noncomputable def perFeatHanded (n : ℕ) (perFeat : Lay) : Py Lay := do
  return (← perFeat.convertAndBroadcast [n]).astype .int32

/-! ## Ensembles -/

/-- What `CanonicalEnsemble` hands over for `_phi_means`, after the constructor or the setter
(`flory/ensemble/canonical.py:72-118`): the view that `np.broadcast_to` makes. -/
noncomputable def phiMeansHanded (n : ℕ) : Option Lay → Py Lay
  | none => (Lay.fresh [n] .float64).copy.broadcastTo [n]
  | some phi => phi.atleast1d.copy.broadcastTo [n]

/-- What `GrandCanonicalEnsemble` hands over for `_scaled_activity`, after the constructor or the setter
(`flory/ensemble/grandcanonical.py:68-100,131-142`). -/
noncomputable def activityHanded (n : ℕ) (activity : Lay) : Py Lay := do
  return (← activity.atleast1d.broadcastTo [n]).copy

/-! ## Constraints -/

/-- `num_cons` of a linear constraint (`flory/constraint/linear_local.py:152-160`,
`flory/constraint/linear_global.py:158-166`). -/
def numConsLay (Cs : Lay) : Py ℕ :=
  match Cs.atleast1d.shape with
  | [_] => .ok 1
  | [n, _] => .ok n
  | _ => .error .valueError

/-- `_Cs` after the setter of a linear constraint with `n` rows (`flory/constraint/linear_local.py:173-177`,
`flory/constraint/linear_global.py:180-184`). -/
noncomputable def CsLay (n S : ℕ) (Cs : Lay) : Py Lay := do
  return (← Cs.atleast1d.broadcastTo [n, S]).astype .float64

/-- `_Cs` after the constructor of a linear constraint, handed over by `_compiled_impl`
(`flory/constraint/linear_local.py:135-166,190-215`, `flory/constraint/linear_global.py:141-172,197-223`). -/
noncomputable def CsHanded (S : ℕ) (Cs : Lay) : Py Lay := do
  CsLay (← numConsLay Cs) S Cs

/-- `_Ts` after constructor or setter, handed over by `_compiled_impl` (`flory/constraint/linear_local.py:164-188`,
`flory/constraint/linear_global.py:170-195`). -/
noncomputable def TsHanded (n : ℕ) (Ts : Lay) : Py Lay := do
  return (← Ts.atleast1d.broadcastTo [n]).astype .float64

end Flory
