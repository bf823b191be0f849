import Verif.Gen.Objects
import Verif.Model.Objects
import Verif.Model.FHObject
import Verif.Model.Phases

/-!
# When a transcribed object and an object of the model describe the same Python object

A transcribed object is the record of its attributes, with arrays of any shape.  The relations below say
that the numbers agree, that the arrays have the shapes the model has in its types, and that every entry
inside these shapes agrees.
-/

namespace Flory

/-- Two results agree: both raise the same exception, or both return and the values are related. -/
def Agrees {α β : Type} (R : α → β → Prop) : Py α → Py β → Prop
  | .ok a, .ok b => R a b
  | .error e, .error e' => e = e'
  | _, _ => False

namespace Spec

/-- An array has shape `(n,)` and the entries of a vector. -/
structure SameVec {K : Type} {n : ℕ} (a : NDArr K) (v : Vec n K) : Prop where
  shape : a.shape = [n]
  get : ∀ i, a.get [(i : Fin n).1] = v i

/-- An array has shape `(r, c)` and the entries of a matrix. -/
structure SameMat {K : Type} {r c : ℕ} (a : NDArr K) (m : Mat r c K) : Prop where
  shape : a.shape = [r, c]
  get : ∀ i j, a.get [(i : Fin r).1, (j : Fin c).1] = m i j

/-- `FloryHugginsInteraction` holding floats. -/
structure SameFH {C : ℕ} (a : Gen.FloryHugginsInteractionAttrs) (o : FHInteraction C ℝ) : Prop where
  num_comp : a.num_comp = C
  chis : SameMat a._chis o.chis
  float : o.isInt = false

/-- Transcribed interactions that a user can get: from the constructor, followed by any sequence of the setter
and the two methods that change the matrix. -/
inductive ReachedFH (C : ℕ) : Gen.FloryHugginsInteractionAttrs → Prop where
  | init {a chis} (h : Gen.FloryHugginsInteraction.init C chis = .ok a) : ReachedFH C a
  | setChis {a b chis} (ha : ReachedFH C a) (h : Gen.FloryHugginsInteraction.set_chis a chis = .ok b) :
    ReachedFH C b
  | uniform {a b chi vd} (ha : ReachedFH C a)
    (h : Gen.FloryHugginsInteraction.set_uniform_chis a chi vd = .ok b) : ReachedFH C b
  | random {a b mean std vd rng} (ha : ReachedFH C a) (hr : ∀ n, (rng mean std n).length = n)
    (h : Gen.FloryHugginsInteraction.set_random_chis a mean std vd rng = .ok b) : ReachedFH C b

/-- `FloryHugginsBlockInteraction`. -/
structure SameBlock {S : ℕ} (a : Gen.FloryHugginsBlockInteractionAttrs) (o : FHBlock S ℝ) : Prop where
  num_feat : a.num_feat = S
  perFeat : SameVec a._num_comp_per_feat o.perFeat
  chisFeat : SameMat a._chis_feat o.chisFeat
  num_comp : a.num_comp = ∑ r, o.perFeat r
  chis : SameMat a._chis (o.chis.toMat (∑ r, o.perFeat r) (∑ r, o.perFeat r))
  shape : o.chis.shape = [∑ r, o.perFeat r, ∑ r, o.perFeat r]
  /-- the attributes are those the model lists -/
  attrs : ∀ x, x ∈ o.attrs ↔ x ∈ ["num_feat", "_num_comp_per_feat", "_chis_feat", "num_comp", "_logger",
    "_chis"]

/-- `IdealGasEntropy`. -/
structure SameGas {C : ℕ} (a : Gen.IdealGasEntropyAttrs) (o : GasEntropy C) : Prop where
  num_comp : a.num_comp = C
  sizes : SameVec a._sizes o.sizes

/-- `IdealGasPolydispersedEntropy`. -/
structure SamePoly {S : ℕ} (a : Gen.IdealGasPolydispersedEntropyAttrs) (o : PolyEntropy S) : Prop where
  num_feat : a.num_feat = S
  perFeat : SameVec a._num_comp_per_feat o.perFeat
  num_comp : a.num_comp = ∑ r, o.perFeat r
  sizes : SameVec a._sizes o.gas.sizes

/-- `CanonicalEnsemble`. -/
structure SameCanonical {C : ℕ} (a : Gen.CanonicalEnsembleAttrs) (o : CanonicalEnsemble C) : Prop where
  num_comp : a._num_comp = C
  phiMeans : SameVec a._phi_means o.phiMeans

/-- `GrandCanonicalEnsemble`. -/
structure SameGrand {C : ℕ} (a : Gen.GrandCanonicalEnsembleAttrs) (o : GrandCanonicalEnsemble C) :
    Prop where
  num_comp : a._num_comp = C
  scaledActivity : SameVec a._scaled_activity o.scaledActivity

/-- `LinearLocalConstraint`. -/
structure SameLocal {S : ℕ} (a : Gen.LinearLocalConstraintAttrs) (o : LinearConstraint S) : Prop where
  num_feat : a.num_feat = S
  num_cons : a.num_cons = o.numCons
  Cs : SameMat a._Cs o.Cs
  Ts : SameVec a._Ts o.Ts
  isLocal : o.isGlobal = false

/-- `LinearGlobalConstraint`. -/
structure SameGlobal {S : ℕ} (a : Gen.LinearGlobalConstraintAttrs) (o : LinearConstraint S) : Prop where
  num_feat : a.num_feat = S
  num_cons : a.num_cons = o.numCons
  Cs : SameMat a._Cs o.Cs
  Ts : SameVec a._Ts o.Ts
  isGlobal : o.isGlobal = true

/-- `Phases`. -/
structure SamePhases (a : Gen.PhasesAttrs) (o : Σ P C : ℕ, Phases P C ℝ) : Prop where
  volumes : SameVec a.volumes o.2.2.volumes
  fractions : SameMat a.fractions o.2.2.fractions

end Spec

end Flory
