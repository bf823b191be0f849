import Verif.Model.EntropyObj
import Verif.Model.Ensemble
import Verif.Model.Interaction
import Verif.Model.Constraint

/-!
# Objects given to a finder and the instances they compile to

Compiled instances carry their own sizes, so they are dependent pairs.  Keyword arguments of
`compiled` are numbers (`additional_chis_shift`, `constraint_acceptance_ratio`,
`constraint_elasticity` are the only ones in the project).
-/

namespace Flory

/-- Compiled interaction of any size; the only class is `FloryHugginsInteractionCompiled`
(`flory/interaction/flory_huggins.py:17-71`).  Attribute `num_feat` (line 53), no `num_comp`. -/
abbrev AnyInteraction := Σ S : ℕ, FHCompiled S ℝ

/-- Compiled entropies with `C` components and `S` features (`flory/entropy/ideal_gas.py:18-82`,
`flory/entropy/ideal_gas_polydispersed.py:19-97`). -/
inductive EntropyInst : ℕ → ℕ → Type where
  | ideal {C : ℕ} (e : IdealC C) : EntropyInst C C
  | poly {C S : ℕ} (e : PolyC C S) : EntropyInst C S

/-- Method dispatch (`flory/entropy/base.py:11-113`). -/
noncomputable def EntropyInst.toI {C S : ℕ} (M : ℕ) : EntropyInst C S → EntropyI C S M ℝ
  | .ideal e => e.toI M
  | .poly e => e.toI M

/-- Compiled entropy of any size.  Attributes `num_comp` and `num_feat`
(`flory/entropy/base.py:31-41`). -/
structure AnyEntropy where
  numComp : ℕ
  numFeat : ℕ
  inst : EntropyInst numComp numFeat

/-- Compiled ensembles (`flory/ensemble/canonical.py:17-63`,
`flory/ensemble/grandcanonical.py:17-64`). -/
inductive EnsembleInst (C : ℕ) : Type where
  | canonical (e : CanonicalC C ℝ)
  | grand (e : GrandC C ℝ)

/-- Method dispatch (`flory/ensemble/base.py:11-56`). -/
noncomputable def EnsembleInst.toI {C : ℕ} (M : ℕ) : EnsembleInst C → EnsembleI C M ℝ
  | .canonical e => e.toI M
  | .grand e => e.toI M

/-- Compiled ensemble of any size.  Attribute `num_comp` (`flory/ensemble/canonical.py:50-52`,
`grandcanonical.py:50-52`), no `num_feat`. -/
abbrev AnyEnsemble := Σ C : ℕ, EnsembleInst C

/-- A constraint as returned by `compiled`, before `initialize` gives its arrays their number of
columns (`flory/constraint/no.py:25-33`, `linear_local.py:57-85`, `linear_global.py:58-86`). -/
inductive ConsNew (S : ℕ) : Type where
  | no
  | loc (A : ℕ) (Cs : Mat A S ℝ) (Ts : Vec A ℝ) (acceptanceRatio elasticity : ℝ)
  | glob (A : ℕ) (Cs : Mat A S ℝ) (Ts : Vec A ℝ) (acceptanceRatio elasticity : ℝ)

/-- The same instance with arrays for `M` compartments (see the simplification at `LocalC`). Models
`flory/mcmp/finder.py:438-442`. -/
noncomputable def ConsNew.start {S : ℕ} (M : ℕ) : ConsNew S → Cons S M ℝ
  | .no => .no NoC.new
  | .loc A Cs Ts a e => .loc A (LocalC.new Cs Ts a e)
  | .glob A Cs Ts a e => .glob A (GlobalC.new Cs Ts a e)

/-- Compiled constraint of any size.  Attribute `num_feat` (`no.py:35-37`, `linear_local.py:87-89`,
`linear_global.py:88-90`), no `num_comp`. -/
abbrev AnyConsNew := Σ S : ℕ, ConsNew S

/-- An object with a `compiled` method: `InteractionBase`, `EntropyBase`, `EnsembleBase` or
`ConstraintBase` (`flory/interaction/base.py:97-203`, `flory/entropy/base.py:116-214`,
`flory/ensemble/base.py:59-103`, `flory/constraint/base.py:102-147`).  `params` are the parameters of
`_compiled_impl`, `impl` is that method; it is arbitrary, so user-defined classes are included as
long as they compile to one of the project's compiled classes. -/
structure InstObj (α : Type) where
  params : List String
  impl : (String → Option ℝ) → Py α

/-- `compiled(**kwargs_full)` (same lines). Models `flory/interaction/base.py:182-203`,
`flory/ensemble/base.py:85-103`. -/
def InstObj.compiled {α : Type} (o : InstObj α) (kwargsFull : Dict ℝ) : Py α :=
  callCompiled o.params kwargsFull o.impl

/-- `FloryHugginsInteraction` as an object for the finder
(`flory/interaction/flory_huggins.py:355-380`); `.min()` of an empty matrix raises `ValueError`. -/
noncomputable def FHInteraction.obj {C : ℕ} (o : FHInteraction C ℝ) : InstObj AnyInteraction where
  params := ["additional_chis_shift"]
  impl := fun kw =>
    if h : C = 0 then .error .valueError
    else
      haveI : NeZero C := ⟨h⟩
      .ok ⟨C, o.compile ((kw "additional_chis_shift").getD 1)⟩

/-- `FloryHugginsBlockInteraction` as an object for the finder
(`flory/interaction/flory_huggins_block.py:104-128`). -/
noncomputable def FHBlock.obj {S : ℕ} (o : FHBlock S ℝ) : InstObj AnyInteraction where
  params := ["additional_chis_shift"]
  impl := fun kw =>
    if h : S = 0 then .error .valueError
    else
      haveI : NeZero S := ⟨h⟩
      .ok ⟨S, o.compile ((kw "additional_chis_shift").getD 1)⟩

/-- `IdealGasEntropy` as an object for the finder (`flory/entropy/ideal_gas.py:248-259`). -/
def GasEntropy.obj {C : ℕ} (o : GasEntropy C) : InstObj AnyEntropy where
  params := []
  impl := fun _ => .ok ⟨C, C, .ideal o.compile⟩

/-- `IdealGasPolydispersedEntropy` as an object for the finder
(`flory/entropy/ideal_gas_polydispersed.py:155-167`). -/
def PolyEntropy.obj {S : ℕ} (o : PolyEntropy S) : InstObj AnyEntropy where
  params := []
  impl := fun _ => .ok ⟨_, S, .poly o.compile⟩

/-- `CanonicalEnsemble` (`flory/ensemble/canonical.py:66-117`). -/
structure CanonicalEnsemble (C : ℕ) where
  phiMeans : Vec C ℝ

namespace CanonicalEnsemble

variable {C : ℕ}

/-- `phi_means` setter (`canonical.py:97-105`). -/
def setPhiMeans (_ : CanonicalEnsemble C) (a : NDArr ℝ) : Py (CanonicalEnsemble C) := do
  let a ← a.broadcastTo [C]
  return ⟨a.toVec C⟩

/-- `__init__` (`canonical.py:75-90`, `flory/ensemble/base.py:62-70`). -/
noncomputable def new (C : ℕ) (phiMeans : Option (NDArr ℝ)) : Py (CanonicalEnsemble C) :=
  if C < 1 then .error .valueError
  else
    match phiMeans with
    | none => .ok ⟨fun _ => 1 / (C : ℝ)⟩
    | some a => do
      let a ← a.atleast1d.broadcastTo [C]
      return ⟨a.toVec C⟩

/-- `_compiled_impl` (`canonical.py:107-117`). -/
def obj (o : CanonicalEnsemble C) : InstObj AnyEnsemble where
  params := []
  impl := fun _ => .ok ⟨C, .canonical ⟨o.phiMeans⟩⟩

end CanonicalEnsemble

/-- `GrandCanonicalEnsemble` (`flory/ensemble/grandcanonical.py:67-142`). -/
structure GrandCanonicalEnsemble (C : ℕ) where
  scaledActivity : Vec C ℝ

namespace GrandCanonicalEnsemble

variable {C : ℕ}

/-- `scaled_activity` setter (`grandcanonical.py:95-99`). -/
def setScaledActivity (_ : GrandCanonicalEnsemble C) (a : NDArr ℝ) :
    Py (GrandCanonicalEnsemble C) := do
  let a ← a.atleast1d.broadcastTo [C]
  return ⟨a.toVec C⟩

/-- `__init__` (`grandcanonical.py:70-88`, `flory/ensemble/base.py:62-70`). -/
def new (C : ℕ) (scaledActivity : NDArr ℝ) : Py (GrandCanonicalEnsemble C) :=
  if C < 1 then .error .valueError
  else do
    let a ← scaledActivity.atleast1d.broadcastTo [C]
    return ⟨a.toVec C⟩

/-- `_compiled_impl` (`grandcanonical.py:131-142`). -/
def obj (o : GrandCanonicalEnsemble C) : InstObj AnyEnsemble where
  params := []
  impl := fun _ => .ok ⟨C, .grand ⟨o.scaledActivity⟩⟩

end GrandCanonicalEnsemble

/-- `LinearLocalConstraint` (`flory/constraint/linear_local.py:125-214`) or, if `isGlobal`,
`LinearGlobalConstraint` (`flory/constraint/linear_global.py:131-221`); the two classes differ only in
the class they compile to. -/
structure LinearConstraint (S : ℕ) where
  isGlobal : Bool
  numCons : ℕ
  Cs : Mat numCons S ℝ
  Ts : Vec numCons ℝ

namespace LinearConstraint

variable {S : ℕ}

/-- `__init__` (`linear_local.py:136-166`, `linear_global.py:142-172`). -/
def new (isGlobal : Bool) (S : ℕ) (Cs Ts : NDArr ℝ) : Py (LinearConstraint S) :=
  let Cs := Cs.atleast1d
  match Cs.shape with
  | [_] => fill isGlobal 1 Cs Ts
  | [A, _] => fill isGlobal A Cs Ts
  | _ => .error .valueError
where
  /-- Lines 162-166 (168-172). -/
  fill (isGlobal : Bool) (A : ℕ) (Cs Ts : NDArr ℝ) : Py (LinearConstraint S) := do
    let Cs ← Cs.broadcastTo [A, S]
    let Ts ← Ts.atleast1d.broadcastTo [A]
    return ⟨isGlobal, A, Cs.toMat A S, Ts.toVec A⟩

/-- `Cs` setter (`linear_local.py:173-177`, `linear_global.py:180-184`). -/
def setCs (o : LinearConstraint S) (a : NDArr ℝ) : Py (LinearConstraint S) := do
  let a ← a.atleast1d.broadcastTo [o.numCons, S]
  return { o with Cs := a.toMat o.numCons S }

/-- `Ts` setter (`linear_local.py:184-188`, `linear_global.py:191-195`). -/
def setTs (o : LinearConstraint S) (a : NDArr ℝ) : Py (LinearConstraint S) := do
  let a ← a.atleast1d.broadcastTo [o.numCons]
  return { o with Ts := a.toVec o.numCons }

/-- `_compiled_impl` (`linear_local.py:190-214`, `linear_global.py:197-221`). -/
noncomputable def obj (o : LinearConstraint S) : InstObj AnyConsNew where
  params := ["constraint_acceptance_ratio", "constraint_elasticity"]
  impl := fun kw =>
    let ratio := (kw "constraint_acceptance_ratio").getD 1
    let elasticity := (kw "constraint_elasticity").getD 1
    .ok ⟨S, if o.isGlobal then .glob o.numCons o.Cs o.Ts ratio elasticity
      else .loc o.numCons o.Cs o.Ts ratio elasticity⟩

end LinearConstraint

/-- `NoConstraint(num_feat)` (`flory/constraint/no.py:58-75`). -/
def noConstraintObj (S : ℕ) : InstObj AnyConsNew where
  params := []
  impl := fun _ => .ok ⟨S, .no⟩

end Flory
