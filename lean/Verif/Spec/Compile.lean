import Verif.Gen.Compile
import Verif.Spec.TranscriptObjects

/-!
# When a transcribed compiled instance and one of the model describe the same instance

Instances of the model carry their sizes in their types; transcribed ones are records of attributes with arrays
of any shape.
-/

namespace Flory.Spec

/-- `FloryHugginsInteractionCompiled`. -/
structure SameFHC (a : Gen.FloryHugginsInteractionCompiledAttrs) (x : AnyInteraction) : Prop where
  num_feat : a._num_feat = x.1
  chis : SameMat a._chis x.2.chis
  coef : a._incomp_coef = x.2.coef

/-- `IdealGasEntropyCompiled`. -/
def SameIdealC (a : Gen.IdealGasEntropyCompiledAttrs) (x : AnyEntropy) : Prop :=
  ∃ (C : ℕ) (e : IdealC C), x = ⟨C, C, .ideal e⟩ ∧ a._num_comp = C ∧ a._num_feat = C ∧ SameVec a._sizes e.sizes

/-- `IdealGasPolydispersedEntropyCompiled`. -/
def SamePolyC (a : Gen.IdealGasPolydispersedEntropyCompiledAttrs) (x : AnyEntropy) : Prop :=
  ∃ (C S : ℕ) (e : PolyC C S), x = ⟨C, S, .poly e⟩ ∧ a._num_comp = C ∧ a._num_feat = S ∧
    SameVec a._sizes e.sizes ∧ SameVec a._num_comp_per_feat e.perFeat

/-- `CanonicalEnsembleCompiled`. -/
def SameCanonicalC (a : Gen.CanonicalEnsembleCompiledAttrs) (x : AnyEnsemble) : Prop :=
  ∃ (C : ℕ) (e : CanonicalC C ℝ), x = ⟨C, .canonical e⟩ ∧ a._num_comp = C ∧ SameVec a._phi_means e.phiMeans

/-- `GrandCanonicalEnsembleCompiled`. -/
def SameGrandC (a : Gen.GrandCanonicalEnsembleCompiledAttrs) (x : AnyEnsemble) : Prop :=
  ∃ (C : ℕ) (e : GrandC C ℝ), x = ⟨C, .grand e⟩ ∧ a._num_comp = C ∧
    SameVec a._scaled_activity e.scaledActivity

/-- `NoConstraintCompiled` before `initialize`: the arrays have one column. -/
def SameNoC (a : Gen.NoConstraintCompiledAttrs) (x : AnyConsNew) : Prop :=
  ∃ S : ℕ, x = ⟨S, .no⟩ ∧ a._num_feat = S ∧ SameMat a._potential (fun (_ : Fin S) (_ : Fin 1) => (0 : ℝ)) ∧
    SameVec a._volume_derivative (fun _ : Fin 1 => (0 : ℝ))

/-- `LinearLocalConstraintCompiled` before `initialize`. -/
def SameLocalC (a : Gen.LinearLocalConstraintCompiledAttrs) (x : AnyConsNew) : Prop :=
  ∃ (S A : ℕ) (Cs : Mat A S ℝ) (Ts : Vec A ℝ) (r e : ℝ), x = ⟨S, .loc A Cs Ts r e⟩ ∧
    a._num_cons = A ∧ a._num_feat = S ∧ SameMat a._Cs Cs ∧ SameVec a._Ts Ts ∧
    a._acceptance_ratio = r ∧ a._elasticity = e ∧
    SameMat a._multiplier (fun (_ : Fin A) (_ : Fin 1) => (0 : ℝ)) ∧
    SameMat a._potential (fun (_ : Fin S) (_ : Fin 1) => (0 : ℝ)) ∧
    SameMat a._residue (fun (_ : Fin A) (_ : Fin 1) => (0 : ℝ)) ∧
    SameVec a._volume_derivative (fun _ : Fin 1 => (0 : ℝ))

/-- `LinearGlobalConstraintCompiled` before `initialize`: multiplier and residue have no columns. -/
def SameGlobalC (a : Gen.LinearGlobalConstraintCompiledAttrs) (x : AnyConsNew) : Prop :=
  ∃ (S A : ℕ) (Cs : Mat A S ℝ) (Ts : Vec A ℝ) (r e : ℝ), x = ⟨S, .glob A Cs Ts r e⟩ ∧
    a._num_cons = A ∧ a._num_feat = S ∧ SameMat a._Cs Cs ∧ SameVec a._Ts Ts ∧
    a._acceptance_ratio = r ∧ a._elasticity = e ∧
    SameVec a._multiplier (fun _ : Fin A => (0 : ℝ)) ∧
    SameMat a._potential (fun (_ : Fin S) (_ : Fin 1) => (0 : ℝ)) ∧
    SameVec a._residue (fun _ : Fin A => (0 : ℝ)) ∧
    SameVec a._volume_derivative (fun _ : Fin 1 => (0 : ℝ))

/-- A transcribed object and one of the model accept the same keyword arguments and compile to the same
instances, or raise the same exceptions. -/
structure SameObject {α β : Type} (R : α → β → Prop) (a : InstObj α) (o : InstObj β) : Prop where
  params : a.params = o.params
  impl : ∀ kw, Agrees R (a.impl kw) (o.impl kw)

/-- `FloryHuggins`. -/
structure SameFree {C : ℕ} (a : Gen.FloryHugginsAttrs) (o : FHObject C) : Prop where
  num_comp : a.num_comp = C
  interaction : SameFH a.interaction o.interaction
  entropy : SameGas a.entropy o.entropy

/-- Transcribed `FloryHuggins` objects that a user can get: from a constructor, followed by any sequence of
assignments that do not raise. -/
inductive ReachedFree (C : ℕ) : Gen.FloryHugginsAttrs → Prop where
  | init {a chis sizes} (h : Gen.FloryHuggins.init C chis sizes = .ok a) : ReachedFree C a
  | uniform {a chi sizes vd} (h : Gen.FloryHuggins.from_uniform C chi sizes vd = .ok a) : ReachedFree C a
  | random {a mean std sizes vd rng} (hr : ∀ n, (rng mean std n).length = n)
    (h : Gen.FloryHuggins.from_random_normal C mean std sizes vd rng = .ok a) : ReachedFree C a
  | chis {a b chis} (ha : ReachedFree C a) (h : Gen.FloryHuggins.set_chis a chis = .ok b) : ReachedFree C b
  | sizes {a b sizes} (ha : ReachedFree C a) (h : Gen.FloryHuggins.set_sizes a sizes = .ok b) : ReachedFree C b

end Flory.Spec
