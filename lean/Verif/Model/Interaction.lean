import Verif.Model.Utilities
import Verif.Model.Interface
import Mathlib.Algebra.Order.Floor.Defs
import Mathlib.Data.Finset.Sort

/-! # Model of `flory/interaction/` -/

namespace Flory

variable {K : Type} [Field K] [LinearOrder K]

/-- `FloryHugginsInteractionCompiled` (`flory/interaction/flory_huggins.py:18-50`). -/
structure FHCompiled (S : ℕ) (K : Type) where
  chis : Mat S S K
  coef : K

namespace FHCompiled

variable {S M : ℕ}

/-- `FloryHugginsInteractionCompiled.__init__` (`flory/interaction/flory_huggins.py:37-50`). -/
def new (chis : Mat S S K) (chisShift : K) : FHCompiled S K where
  chis := chis
  coef := (∑ r, ∑ s, chis r s) + chisShift * (S : K) * (S : K)

/-- `volume_derivative` (`flory/interaction/flory_huggins.py:56-65`). -/
def volumeDerivative (_ : FHCompiled S K) (potential phisFeat : Mat S M K) : Vec M K :=
  let ans : Vec M K := forRange S (fun _ => 0) fun r ans m => ans m + potential r m * phisFeat r m
  fun m => ans m * (1 / 2)

/-- `potential` (`flory/interaction/flory_huggins.py:67-68`): `self._chis @ phis_feat`. -/
def potential (c : FHCompiled S K) (phisFeat : Mat S M K) : Mat S M K :=
  fun r m => ∑ s, c.chis r s * phisFeat s m

/-- `incomp_coef` (`flory/interaction/flory_huggins.py:70-71`). -/
def incompCoef (c : FHCompiled S K) (_phisFeat : Mat S M K) : K := c.coef

/-- The compiled interaction as seen by the core iteration. Models
`flory/interaction/flory_huggins.py:18-71`, used at `flory/mcmp/_finder_impl.py:356-359` and `372`. -/
def toI (c : FHCompiled S K) (M : ℕ) : InteractionI S M K where
  potential := c.potential
  volumeDerivative := c.volumeDerivative
  incompCoef := c.incompCoef

end FHCompiled

/-- `chis.min()` of a square matrix with at least one row. Models
`flory/interaction/flory_huggins.py:135`, `379`. -/
def matMin {S : ℕ} [NeZero S] (chis : Mat S S K) : K := npMin fun r => npMin (chis r)

/-- `0.5 * (chis + chis.T)`. Models `flory/interaction/flory_huggins.py:110`, `233`. -/
def symmetrize {C : ℕ} (chis : Mat C C K) : Mat C C K :=
  fun i j => 1 / 2 * (chis i j + chis j i)

/-- `_energy_impl` for one composition (`flory/interaction/flory_huggins.py:138-155`):
`0.5 * einsum("...i,...j,ij->...", phis, phis, chis)`. -/
def fhEnergy {C : ℕ} (chis : Mat C C K) (phis : Vec C K) : K :=
  1 / 2 * ∑ i, ∑ j, phis i * phis j * chis i j

/-- `_jacobian_impl` for one composition (`flory/interaction/flory_huggins.py:157-174`): `phis @ chis`. -/
def fhJacobian {C : ℕ} (chis : Mat C C K) (phis : Vec C K) : Vec C K :=
  fun j => ∑ i, phis i * chis i j

/-- `_hessian_impl` for one composition (`flory/interaction/flory_huggins.py:176-192`):
`np.zeros_like(phis)[..., None] + chis`. -/
def fhHessian {C : ℕ} (chis : Mat C C K) (_phis : Vec C K) : Mat C C K :=
  fun i j => 0 + chis i j

/-- `FloryHugginsInteraction` object (`flory/interaction/flory_huggins.py:195-219`).  `isInt` records that the stored
array has an integer dtype, which decides how later item assignments behave. -/
structure FHInteraction (C : ℕ) (K : Type) where
  chis : Mat C C K
  isInt : Bool

namespace FHInteraction

variable {C : ℕ}

/-- `FloryHugginsInteraction.__init__` through the base class (`flory/interaction/flory_huggins.py:87-110`, `206-219`).
The warning branch only logs. The product with `0.5` always yields a float array. -/
def new (C : ℕ) (chis : NDArr K) : Py (FHInteraction C K) := do
  let a ← chis.atleast1d.broadcastTo [C, C]
  return ⟨symmetrize (a.toMat C C), false⟩

/-- `chis` setter (`flory/interaction/flory_huggins.py:226-233`). -/
def setChis (_ : FHInteraction C K) (chisNew : NDArr K) : Py (FHInteraction C K) := do
  let a ← chisNew.atleast1d.broadcastTo [C, C]
  return ⟨symmetrize (a.toMat C C), false⟩

/-- `set_uniform_chis` (`flory/interaction/flory_huggins.py:297-315`).  `chiIsInt` says whether the argument is a
Python `int`: `np.full` then creates an integer array. -/
def setUniform (_ : FHInteraction C K) (chi : K) (chiIsInt : Bool) (vanishingDiagonal : Bool) :
    FHInteraction C K :=
  ⟨fun i j => if vanishingDiagonal && decide (i = j) then 0 else chi, chiIsInt⟩

/-- Item assignment into an array: integer arrays truncate towards zero. Models
`flory/interaction/flory_huggins.py:352-353`. -/
def store [FloorRing K] (isInt : Bool) (x : K) : K :=
  if isInt then (if 0 ≤ x then ((⌊x⌋ : ℤ) : K) else ((⌈x⌉ : ℤ) : K)) else x

/-- `np.triu_indices(n, k)` for `k = 1` (strict) or `k = 0`: index pairs in row-major order. Models
`flory/interaction/flory_huggins.py:239`, `351`. -/
def triuIndices (C : ℕ) (strict : Bool) : List (Fin C × Fin C) :=
  (List.finRange C).flatMap fun i =>
    ((List.finRange C).filter fun j => if strict then i < j else i ≤ j).map fun j => (i, j)

/-- `self._chis[i, j] = chi_vals` for index arrays `i, j`: assignments in order. Models
`flory/interaction/flory_huggins.py:352-353`. -/
def assign [FloorRing K] (isInt : Bool) (idx : List (Fin C × Fin C)) (vals : List K)
    (chis : Mat C C K) : Mat C C K :=
  (idx.zip vals).foldl (fun a p => setAt2 a p.1.1 p.1.2 (store isInt p.2)) chis

/-- `set_random_chis` (`flory/interaction/flory_huggins.py:317-353`).  `draws n` are the `n` numbers returned by
`rng.normal(chi_mean, chi_std, n)`. -/
def setRandom [FloorRing K] (o : FHInteraction C K) (draws : ℕ → List K)
    (vanishingDiagonal : Bool) : FHInteraction C K :=
  let chis : Mat C C K := fun _ _ => 0
  let numEntries := if vanishingDiagonal then C * (C - 1) / 2 else C * (C + 1) / 2
  let vals := draws numEntries
  let idx := triuIndices C vanishingDiagonal
  let chis := assign o.isInt idx vals chis
  let chis := assign o.isInt (idx.map Prod.swap) vals chis
  ⟨chis, o.isInt⟩

/-- `_compiled_impl` (`flory/interaction/flory_huggins.py:355-380`): both arguments are copied to float. -/
def compile [NeZero C] (o : FHInteraction C K) (additionalChisShift : K) : FHCompiled C K :=
  FHCompiled.new o.chis (-matMin o.chis + additionalChisShift)

/-- `independent_entries` (`flory/interaction/flory_huggins.py:235-239`). -/
def independentEntries (o : FHInteraction C K) : List K :=
  (triuIndices C false).map fun p => o.chis p.1 p.2

/-- `from_uniform` (`flory/interaction/flory_huggins.py:241-263`). -/
def fromUniform (C : ℕ) (chi : K) (chiIsInt vanishingDiagonal : Bool) : Py (FHInteraction C K) := do
  let o ← new C (NDArr.scalar 0)
  return o.setUniform chi chiIsInt vanishingDiagonal

/-- `from_random_normal` (`flory/interaction/flory_huggins.py:265-295`). -/
def fromRandomNormal [FloorRing K] (C : ℕ) (draws : ℕ → List K) (vanishingDiagonal : Bool) :
    Py (FHInteraction C K) := do
  let o ← new C (NDArr.scalar 0)
  return o.setRandom draws vanishingDiagonal

end FHInteraction

/-- A public modification of a `FloryHugginsInteraction` (`flory/interaction/flory_huggins.py:226-353`). -/
inductive ChiOp (K : Type) where
  | chis (a : NDArr K)
  | uniform (chi : K) (isInt vanishingDiagonal : Bool)
  | random (draws : ℕ → List K) (vanishingDiagonal : Bool)

/-- Effect of a modification; a raising setter leaves the object unchanged. Models
`flory/interaction/flory_huggins.py:226-353`. -/
def FHInteraction.step [FloorRing K] {C : ℕ} (o : FHInteraction C K) : ChiOp K → FHInteraction C K
  | .chis a => match o.setChis a with
    | .ok o' => o'
    | .error _ => o
  | .uniform chi isInt vd => o.setUniform chi isInt vd
  | .random draws vd => o.setRandom draws vd

/-- `FloryHugginsBlockInteraction` object (`flory/interaction/flory_huggins_block.py:20-71`).
The number of components is `perFeat.sum`.  `attrs` are the names of the instance attributes that
have been assigned. -/
structure FHBlock (S : ℕ) (K : Type) where
  perFeat : Vec S ℕ
  chisFeat : Mat S S K
  chis : NDArr K
  attrs : List String

/-- Reading `self.<name>` when the assigned attributes are `attrs`. Attribute access in
`flory/interaction/flory_huggins_block.py:60-128`. -/
def needAttr (attrs : List String) (name : String) : Py Unit :=
  if name ∈ attrs then .ok () else .error .attributeError

namespace FHBlock

variable {S : ℕ} [Inhabited K]

/-- Number of components (`flory_huggins_block.py:68`). -/
def numComp (o : FHBlock S K) : ℕ := ∑ r, o.perFeat r

/-- `not np.allclose(chis, chis.T)` with numpy's default tolerances `rtol=1e-5`, `atol=1e-8`
(`flory_huggins_block.py:62`). -/
def notSymmetric (chis : Mat S S K) : Bool :=
  decide (∃ r s, ¬ |chis r s - chis s r| ≤ 1 / 10 ^ 8 + 1 / 10 ^ 5 * |chis s r|)

/-- `FloryHugginsBlockInteraction.__init__` (`flory_huggins_block.py:39-71`) including the base class
constructors (`flory/interaction/flory_huggins.py:87-110`, `flory/interaction/base.py:100-106`). -/
def new (S : ℕ) (chisFeat : NDArr K) (perFeat : NDArr ℕ) : Py (FHBlock S K) := do
  let attrs := ["num_feat"]
  let per ← convertAndBroadcast perFeat [S]
  let per := per.toVec S
  let attrs := attrs ++ ["_num_comp_per_feat"]
  let cf ← convertAndBroadcast chisFeat [S, S]
  let cf := cf.toMat S S
  -- lines 62-63
  if notSymmetric cf then needAttr attrs "_logger"
  let cf := symmetrize cf
  let attrs := attrs ++ ["_chis_feat"]
  -- super().__init__(num_comp=sum, chis=make_square_blocks(chis_feat, num_comp_per_feat))
  let blocks ← makeSquareBlocks (NDArr.ofMat cf) (List.ofFn per)
  let n := ∑ r, per r
  let attrs := attrs ++ ["num_comp", "_logger"]
  let a ← blocks.atleast1d.broadcastTo [n, n]
  return ⟨per, cf, NDArr.ofMat (symmetrize (a.toMat n n)), attrs ++ ["_chis"]⟩

/-- `chis_feat` setter (`flory_huggins_block.py:92-102`). -/
def setChisFeat (o : FHBlock S K) (chisFeatNew : NDArr K) : Py (FHBlock S K) := do
  -- (self._num_feat, self._num_feat)
  needAttr o.attrs "_num_feat"
  let cf ← convertAndBroadcast chisFeatNew [S, S]
  let cf := cf.toMat S S
  if notSymmetric cf then needAttr o.attrs "_logger"
  let cf := symmetrize cf
  let blocks ← makeSquareBlocks (NDArr.ofMat cf) (List.ofFn o.perFeat)
  return { o with chisFeat := cf, chis := blocks }

/-- `_compiled_impl` (`flory_huggins_block.py:104-128`). -/
def compile [NeZero S] (o : FHBlock S K) (additionalChisShift : K) : FHCompiled S K :=
  FHCompiled.new o.chisFeat (-matMin o.chisFeat + additionalChisShift)

end FHBlock

end Flory
