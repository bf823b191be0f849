import Verif.Model.Compile
import Verif.Gen.Objects
import Verif.Gen.FinderObject

/-!
# Transcription of compilation, reading of attributes and `FloryHuggins`

Written by `tools/transcribe_compile.py`; do not edit.
-/

set_option linter.unusedVariables false

namespace Flory.Gen

/-- Attributes of a `FloryHugginsInteractionCompiled` object after its constructor (`flory/interaction/flory_huggins.py:37-50`). -/
structure FloryHugginsInteractionCompiledAttrs where
  _num_feat : ℕ
  _chis : NDArr ℝ
  _incomp_coef : ℝ

/-- `FloryHugginsInteractionCompiled.__init__` (`flory/interaction/flory_huggins.py:37-50`). -/
noncomputable def FloryHugginsInteractionCompiled.init (chis : NDArr ℝ) (chis_shift : ℝ) :
    Py (FloryHugginsInteractionCompiledAttrs) := do
  let t1 : ℕ ← shapeAt chis.shape 0
  let self_num_feat : ℕ := t1
  let self_chis : NDArr ℝ := chis
  let t2 : ℝ := NDArr.sum chis
  let self_incomp_coef : ℝ := (t2 + ((chis_shift * (self_num_feat : ℝ)) * (self_num_feat : ℝ)))
  pure { _num_feat := self_num_feat, _chis := self_chis, _incomp_coef := self_incomp_coef }

/-- Attributes of a `IdealGasEntropyCompiled` object after its constructor (`flory/entropy/ideal_gas.py:41-52`). -/
structure IdealGasEntropyCompiledAttrs where
  _num_comp : ℕ
  _num_feat : ℕ
  _sizes : NDArr ℝ

/-- `IdealGasEntropyCompiled.__init__` (`flory/entropy/ideal_gas.py:41-52`). -/
noncomputable def IdealGasEntropyCompiled.init (sizes : NDArr ℝ) :
    Py (IdealGasEntropyCompiledAttrs) := do
  let t1 : ℕ ← shapeAt sizes.shape 0
  let self_num_comp : ℕ := t1
  let t2 : ℕ ← shapeAt sizes.shape 0
  let self_num_feat : ℕ := t2
  let self_sizes : NDArr ℝ := sizes
  pure { _num_comp := self_num_comp, _num_feat := self_num_feat, _sizes := self_sizes }

/-- Attributes of a `IdealGasPolydispersedEntropyCompiled` object after its constructor (`flory/entropy/ideal_gas_polydispersed.py:43-59`). -/
structure IdealGasPolydispersedEntropyCompiledAttrs where
  _num_comp : ℕ
  _num_feat : ℕ
  _sizes : NDArr ℝ
  _num_comp_per_feat : NDArr ℕ

/-- `IdealGasPolydispersedEntropyCompiled.__init__` (`flory/entropy/ideal_gas_polydispersed.py:43-59`). -/
noncomputable def IdealGasPolydispersedEntropyCompiled.init (sizes : NDArr ℝ) (num_comp_per_feat : NDArr ℕ) :
    Py (IdealGasPolydispersedEntropyCompiledAttrs) := do
  let t1 : ℕ ← shapeAt sizes.shape 0
  let self_num_comp : ℕ := t1
  let t2 : ℕ ← shapeAt num_comp_per_feat.shape 0
  let self_num_feat : ℕ := t2
  let self_sizes : NDArr ℝ := sizes
  let self_num_comp_per_feat : NDArr ℕ := num_comp_per_feat
  pure { _num_comp := self_num_comp, _num_feat := self_num_feat, _sizes := self_sizes, _num_comp_per_feat := self_num_comp_per_feat }

/-- Attributes of a `CanonicalEnsembleCompiled` object after its constructor (`flory/ensemble/canonical.py:39-48`). -/
structure CanonicalEnsembleCompiledAttrs where
  _num_comp : ℕ
  _phi_means : NDArr ℝ

/-- `CanonicalEnsembleCompiled.__init__` (`flory/ensemble/canonical.py:39-48`). -/
noncomputable def CanonicalEnsembleCompiled.init (phi_means : NDArr ℝ) :
    Py (CanonicalEnsembleCompiledAttrs) := do
  let t1 : ℕ ← shapeAt phi_means.shape 0
  let self_num_comp : ℕ := t1
  let self_phi_means : NDArr ℝ := phi_means
  pure { _num_comp := self_num_comp, _phi_means := self_phi_means }

/-- Attributes of a `GrandCanonicalEnsembleCompiled` object after its constructor (`flory/ensemble/grandcanonical.py:39-48`). -/
structure GrandCanonicalEnsembleCompiledAttrs where
  _num_comp : ℕ
  _scaled_activity : NDArr ℝ

/-- `GrandCanonicalEnsembleCompiled.__init__` (`flory/ensemble/grandcanonical.py:39-48`). -/
noncomputable def GrandCanonicalEnsembleCompiled.init (scaled_activity : NDArr ℝ) :
    Py (GrandCanonicalEnsembleCompiledAttrs) := do
  let t1 : ℕ ← shapeAt scaled_activity.shape 0
  let self_num_comp : ℕ := t1
  let self_scaled_activity : NDArr ℝ := scaled_activity
  pure { _num_comp := self_num_comp, _scaled_activity := self_scaled_activity }

/-- Attributes of a `NoConstraintCompiled` object after its constructor (`flory/constraint/no.py:25-33`). -/
structure NoConstraintCompiledAttrs where
  _num_feat : ℕ
  _potential : NDArr ℝ
  _volume_derivative : NDArr ℝ

/-- `NoConstraintCompiled.__init__` (`flory/constraint/no.py:25-33`). -/
noncomputable def NoConstraintCompiled.init (num_feat : ℕ) :
    Py (NoConstraintCompiledAttrs) := do
  let self_num_feat : ℕ := num_feat
  let t1 : NDArr ℝ := NDArr.full [self_num_feat, 1] 0
  let self_potential : NDArr ℝ := t1
  let t2 : NDArr ℝ := NDArr.full [1] 0
  let self_volume_derivative : NDArr ℝ := t2
  pure { _num_feat := self_num_feat, _potential := self_potential, _volume_derivative := self_volume_derivative }

/-- Attributes of a `LinearLocalConstraintCompiled` object after its constructor (`flory/constraint/linear_local.py:57-85`). -/
structure LinearLocalConstraintCompiledAttrs where
  _num_cons : ℕ
  _num_feat : ℕ
  _Cs : NDArr ℝ
  _Ts : NDArr ℝ
  _acceptance_ratio : ℝ
  _elasticity : ℝ
  _multiplier : NDArr ℝ
  _potential : NDArr ℝ
  _residue : NDArr ℝ
  _volume_derivative : NDArr ℝ

/-- `LinearLocalConstraintCompiled.__init__` (`flory/constraint/linear_local.py:57-85`). -/
noncomputable def LinearLocalConstraintCompiled.init (Cs : NDArr ℝ) (Ts : NDArr ℝ) (acceptance_ratio : ℝ) (elasticity : ℝ) :
    Py (LinearLocalConstraintCompiledAttrs) := do
  let t1 : ℕ ← shapeAt Cs.shape 0
  let self_num_cons : ℕ := t1
  let t2 : ℕ ← shapeAt Cs.shape 1
  let self_num_feat : ℕ := t2
  let self_Cs : NDArr ℝ := Cs
  let self_Ts : NDArr ℝ := Ts
  let self_acceptance_ratio : ℝ := acceptance_ratio
  let self_elasticity : ℝ := elasticity
  let t3 : NDArr ℝ := NDArr.full [self_num_cons, 1] 0
  let self_multiplier : NDArr ℝ := t3
  let t4 : NDArr ℝ := NDArr.full [self_num_feat, 1] 0
  let self_potential : NDArr ℝ := t4
  let t5 : NDArr ℝ := NDArr.full [self_num_cons, 1] 0
  let self_residue : NDArr ℝ := t5
  let t6 : NDArr ℝ := NDArr.full [1] 0
  let self_volume_derivative : NDArr ℝ := t6
  pure { _num_cons := self_num_cons, _num_feat := self_num_feat, _Cs := self_Cs, _Ts := self_Ts, _acceptance_ratio := self_acceptance_ratio, _elasticity := self_elasticity, _multiplier := self_multiplier, _potential := self_potential, _residue := self_residue, _volume_derivative := self_volume_derivative }

/-- Attributes of a `LinearGlobalConstraintCompiled` object after its constructor (`flory/constraint/linear_global.py:58-86`). -/
structure LinearGlobalConstraintCompiledAttrs where
  _num_cons : ℕ
  _num_feat : ℕ
  _Cs : NDArr ℝ
  _Ts : NDArr ℝ
  _acceptance_ratio : ℝ
  _elasticity : ℝ
  _multiplier : NDArr ℝ
  _potential : NDArr ℝ
  _residue : NDArr ℝ
  _volume_derivative : NDArr ℝ

/-- `LinearGlobalConstraintCompiled.__init__` (`flory/constraint/linear_global.py:58-86`). -/
noncomputable def LinearGlobalConstraintCompiled.init (Cs : NDArr ℝ) (Ts : NDArr ℝ) (acceptance_ratio : ℝ) (elasticity : ℝ) :
    Py (LinearGlobalConstraintCompiledAttrs) := do
  let t1 : ℕ ← shapeAt Cs.shape 0
  let self_num_cons : ℕ := t1
  let t2 : ℕ ← shapeAt Cs.shape 1
  let self_num_feat : ℕ := t2
  let self_Cs : NDArr ℝ := Cs
  let self_Ts : NDArr ℝ := Ts
  let self_acceptance_ratio : ℝ := acceptance_ratio
  let self_elasticity : ℝ := elasticity
  let t3 : NDArr ℝ := NDArr.full [self_num_cons] 0
  let self_multiplier : NDArr ℝ := t3
  let t4 : NDArr ℝ := NDArr.full [self_num_feat, 1] 0
  let self_potential : NDArr ℝ := t4
  let t5 : NDArr ℝ := NDArr.full [self_num_cons] 0
  let self_residue : NDArr ℝ := t5
  let t6 : NDArr ℝ := NDArr.full [1] 0
  let self_volume_derivative : NDArr ℝ := t6
  pure { _num_cons := self_num_cons, _num_feat := self_num_feat, _Cs := self_Cs, _Ts := self_Ts, _acceptance_ratio := self_acceptance_ratio, _elasticity := self_elasticity, _multiplier := self_multiplier, _potential := self_potential, _residue := self_residue, _volume_derivative := self_volume_derivative }

/-- Attributes of a `NoConstraint` object after its constructor (`flory/constraint/no.py:61-67`). -/
structure NoConstraintAttrs where
  num_feat : ℕ

/-- `NoConstraint.__init__` (`flory/constraint/no.py:61-67`). -/
noncomputable def NoConstraint.init (num_feat : ℕ) :
    Py (NoConstraintAttrs) := do
  let self_num_feat : ℕ := num_feat
  pure { num_feat := self_num_feat }

/-- `FloryHugginsInteractionBase._compiled_impl` (`flory/interaction/flory_huggins.py:112-136`). -/
noncomputable def FloryHugginsInteractionBase.compiled_impl (self : FloryHugginsInteractionAttrs) (additional_chis_shift : ℝ) :
    Py (FloryHugginsInteractionCompiledAttrs) := do
  let self_num_comp : ℕ := self.num_comp
  let self_chis : NDArr ℝ := self._chis
  let t1 : ℝ ← NDArr.min self_chis
  let t2 : FloryHugginsInteractionCompiledAttrs ← FloryHugginsInteractionCompiled.init self_chis (((-t1) + additional_chis_shift))
  pure t2

/-- Defaults of the parameters of `FloryHugginsInteractionBase._compiled_impl` (`flory/interaction/flory_huggins.py:112-136`). -/
noncomputable def FloryHugginsInteractionBase.compiled_impl_default : ℝ := (1 : ℝ)

/-- `FloryHugginsInteraction._compiled_impl` (`flory/interaction/flory_huggins.py:355-380`). -/
noncomputable def FloryHugginsInteraction.compiled_impl (self : FloryHugginsInteractionAttrs) (additional_chis_shift : ℝ) :
    Py (FloryHugginsInteractionCompiledAttrs) := do
  let self_num_comp : ℕ := self.num_comp
  let self_chis : NDArr ℝ := self._chis
  let t1 : ℝ ← NDArr.min self_chis
  let t2 : FloryHugginsInteractionCompiledAttrs ← FloryHugginsInteractionCompiled.init self_chis (((-t1) + additional_chis_shift))
  pure t2

/-- A `FloryHugginsInteraction` as an object that can be compiled: names and defaults of the parameters of
`_compiled_impl` (`flory/interaction/flory_huggins.py:355-380`). -/
noncomputable def FloryHugginsInteraction.object (self : FloryHugginsInteractionAttrs) : InstObj (FloryHugginsInteractionCompiledAttrs) where
  params := ["additional_chis_shift"]
  impl kw := FloryHugginsInteraction.compiled_impl self ((kw "additional_chis_shift").getD (1 : ℝ))

/-- `FloryHugginsBlockInteraction._compiled_impl` (`flory/interaction/flory_huggins_block.py:104-128`). -/
noncomputable def FloryHugginsBlockInteraction.compiled_impl (self : FloryHugginsBlockInteractionAttrs) (additional_chis_shift : ℝ) :
    Py (FloryHugginsInteractionCompiledAttrs) := do
  let self_num_feat : ℕ := self.num_feat
  let self_num_comp_per_feat : NDArr ℕ := self._num_comp_per_feat
  let self_chis_feat : NDArr ℝ := self._chis_feat
  let self_num_comp : ℕ := self.num_comp
  let self_chis : NDArr ℝ := self._chis
  let t1 : ℝ ← NDArr.min self_chis_feat
  let t2 : FloryHugginsInteractionCompiledAttrs ← FloryHugginsInteractionCompiled.init self_chis_feat (((-t1) + additional_chis_shift))
  pure t2

/-- A `FloryHugginsBlockInteraction` as an object that can be compiled: names and defaults of the parameters of
`_compiled_impl` (`flory/interaction/flory_huggins_block.py:104-128`). -/
noncomputable def FloryHugginsBlockInteraction.object (self : FloryHugginsBlockInteractionAttrs) : InstObj (FloryHugginsInteractionCompiledAttrs) where
  params := ["additional_chis_shift"]
  impl kw := FloryHugginsBlockInteraction.compiled_impl self ((kw "additional_chis_shift").getD (1 : ℝ))

/-- `IdealGasEntropy._compiled_impl` (`flory/entropy/ideal_gas.py:248-259`). -/
noncomputable def IdealGasEntropy.compiled_impl (self : IdealGasEntropyAttrs) :
    Py (IdealGasEntropyCompiledAttrs) := do
  let self_num_comp : ℕ := self.num_comp
  let self_sizes : NDArr ℝ := self._sizes
  let t1 : IdealGasEntropyCompiledAttrs ← IdealGasEntropyCompiled.init self_sizes
  pure t1

/-- A `IdealGasEntropy` as an object that can be compiled: names and defaults of the parameters of
`_compiled_impl` (`flory/entropy/ideal_gas.py:248-259`). -/
noncomputable def IdealGasEntropy.object (self : IdealGasEntropyAttrs) : InstObj (IdealGasEntropyCompiledAttrs) where
  params := []
  impl kw := IdealGasEntropy.compiled_impl self

/-- `IdealGasPolydispersedEntropy._compiled_impl` (`flory/entropy/ideal_gas_polydispersed.py:155-167`). -/
noncomputable def IdealGasPolydispersedEntropy.compiled_impl (self : IdealGasPolydispersedEntropyAttrs) :
    Py (IdealGasPolydispersedEntropyCompiledAttrs) := do
  let self_num_feat : ℕ := self.num_feat
  let self_num_comp_per_feat : NDArr ℕ := self._num_comp_per_feat
  let self_num_comp : ℕ := self.num_comp
  let self_sizes : NDArr ℝ := self._sizes
  let t1 : IdealGasPolydispersedEntropyCompiledAttrs ← IdealGasPolydispersedEntropyCompiled.init self_sizes self_num_comp_per_feat
  pure t1

/-- A `IdealGasPolydispersedEntropy` as an object that can be compiled: names and defaults of the parameters of
`_compiled_impl` (`flory/entropy/ideal_gas_polydispersed.py:155-167`). -/
noncomputable def IdealGasPolydispersedEntropy.object (self : IdealGasPolydispersedEntropyAttrs) : InstObj (IdealGasPolydispersedEntropyCompiledAttrs) where
  params := []
  impl kw := IdealGasPolydispersedEntropy.compiled_impl self

/-- `CanonicalEnsemble._compiled_impl` (`flory/ensemble/canonical.py:107-117`). -/
noncomputable def CanonicalEnsemble.compiled_impl (self : CanonicalEnsembleAttrs) :
    Py (CanonicalEnsembleCompiledAttrs) := do
  let self_num_comp : ℕ := self._num_comp
  let self_phi_means : NDArr ℝ := self._phi_means
  let t1 : CanonicalEnsembleCompiledAttrs ← CanonicalEnsembleCompiled.init self_phi_means
  pure t1

/-- A `CanonicalEnsemble` as an object that can be compiled: names and defaults of the parameters of
`_compiled_impl` (`flory/ensemble/canonical.py:107-117`). -/
noncomputable def CanonicalEnsemble.object (self : CanonicalEnsembleAttrs) : InstObj (CanonicalEnsembleCompiledAttrs) where
  params := []
  impl kw := CanonicalEnsemble.compiled_impl self

/-- `GrandCanonicalEnsemble._compiled_impl` (`flory/ensemble/grandcanonical.py:131-142`). -/
noncomputable def GrandCanonicalEnsemble.compiled_impl (self : GrandCanonicalEnsembleAttrs) :
    Py (GrandCanonicalEnsembleCompiledAttrs) := do
  let self_num_comp : ℕ := self._num_comp
  let self_scaled_activity : NDArr ℝ := self._scaled_activity
  let t1 : GrandCanonicalEnsembleCompiledAttrs ← GrandCanonicalEnsembleCompiled.init self_scaled_activity
  pure t1

/-- A `GrandCanonicalEnsemble` as an object that can be compiled: names and defaults of the parameters of
`_compiled_impl` (`flory/ensemble/grandcanonical.py:131-142`). -/
noncomputable def GrandCanonicalEnsemble.object (self : GrandCanonicalEnsembleAttrs) : InstObj (GrandCanonicalEnsembleCompiledAttrs) where
  params := []
  impl kw := GrandCanonicalEnsemble.compiled_impl self

/-- `NoConstraint._compiled_impl` (`flory/constraint/no.py:69-75`). -/
noncomputable def NoConstraint.compiled_impl (self : NoConstraintAttrs) :
    Py (NoConstraintCompiledAttrs) := do
  let self_num_feat : ℕ := self.num_feat
  let t1 : NoConstraintCompiledAttrs ← NoConstraintCompiled.init self_num_feat
  pure t1

/-- A `NoConstraint` as an object that can be compiled: names and defaults of the parameters of
`_compiled_impl` (`flory/constraint/no.py:69-75`). -/
noncomputable def NoConstraint.object (self : NoConstraintAttrs) : InstObj (NoConstraintCompiledAttrs) where
  params := []
  impl kw := NoConstraint.compiled_impl self

/-- `LinearLocalConstraint._compiled_impl` (`flory/constraint/linear_local.py:190-214`). -/
noncomputable def LinearLocalConstraint.compiled_impl (self : LinearLocalConstraintAttrs) (constraint_acceptance_ratio : ℝ) (constraint_elasticity : ℝ) :
    Py (LinearLocalConstraintCompiledAttrs) := do
  let self_num_feat : ℕ := self.num_feat
  let self_num_cons : ℕ := self.num_cons
  let self_Cs : NDArr ℝ := self._Cs
  let self_Ts : NDArr ℝ := self._Ts
  let t1 : LinearLocalConstraintCompiledAttrs ← LinearLocalConstraintCompiled.init self_Cs self_Ts constraint_acceptance_ratio constraint_elasticity
  pure t1

/-- A `LinearLocalConstraint` as an object that can be compiled: names and defaults of the parameters of
`_compiled_impl` (`flory/constraint/linear_local.py:190-214`). -/
noncomputable def LinearLocalConstraint.object (self : LinearLocalConstraintAttrs) : InstObj (LinearLocalConstraintCompiledAttrs) where
  params := ["constraint_acceptance_ratio", "constraint_elasticity"]
  impl kw := LinearLocalConstraint.compiled_impl self ((kw "constraint_acceptance_ratio").getD (1 : ℝ)) ((kw "constraint_elasticity").getD (1 : ℝ))

/-- `LinearGlobalConstraint._compiled_impl` (`flory/constraint/linear_global.py:197-221`). -/
noncomputable def LinearGlobalConstraint.compiled_impl (self : LinearGlobalConstraintAttrs) (constraint_acceptance_ratio : ℝ) (constraint_elasticity : ℝ) :
    Py (LinearGlobalConstraintCompiledAttrs) := do
  let self_num_feat : ℕ := self.num_feat
  let self_num_cons : ℕ := self.num_cons
  let self_Cs : NDArr ℝ := self._Cs
  let self_Ts : NDArr ℝ := self._Ts
  let t1 : LinearGlobalConstraintCompiledAttrs ← LinearGlobalConstraintCompiled.init self_Cs self_Ts constraint_acceptance_ratio constraint_elasticity
  pure t1

/-- A `LinearGlobalConstraint` as an object that can be compiled: names and defaults of the parameters of
`_compiled_impl` (`flory/constraint/linear_global.py:197-221`). -/
noncomputable def LinearGlobalConstraint.object (self : LinearGlobalConstraintAttrs) : InstObj (LinearGlobalConstraintCompiledAttrs) where
  params := ["constraint_acceptance_ratio", "constraint_elasticity"]
  impl kw := LinearGlobalConstraint.compiled_impl self ((kw "constraint_acceptance_ratio").getD (1 : ℝ)) ((kw "constraint_elasticity").getD (1 : ℝ))

/-- `FloryHugginsInteraction.chis` (`flory/interaction/flory_huggins.py:221-224`). -/
noncomputable def FloryHugginsInteraction.get_chis (self : FloryHugginsInteractionAttrs) :
    Py (NDArr ℝ) := do
  let self_num_comp : ℕ := self.num_comp
  let self_chis : NDArr ℝ := self._chis
  pure self_chis

/-- `FloryHugginsInteraction.independent_entries` (`flory/interaction/flory_huggins.py:235-239`). -/
noncomputable def FloryHugginsInteraction.get_independent_entries (self : FloryHugginsInteractionAttrs) :
    Py (List ℝ) := do
  let self_num_comp : ℕ := self.num_comp
  let self_chis : NDArr ℝ := self._chis
  let t1 : List ℝ ← NDArr.upper self_chis 0
  pure t1

/-- `FloryHugginsBlockInteraction.chis` (`flory/interaction/flory_huggins_block.py:78-85`). -/
noncomputable def FloryHugginsBlockInteraction.get_chis (self : FloryHugginsBlockInteractionAttrs) :
    Py (NDArr ℝ) := do
  let self_num_feat : ℕ := self.num_feat
  let self_num_comp_per_feat : NDArr ℕ := self._num_comp_per_feat
  let self_chis_feat : NDArr ℝ := self._chis_feat
  let self_num_comp : ℕ := self.num_comp
  let self_chis : NDArr ℝ := self._chis
  pure self_chis

/-- `FloryHugginsBlockInteraction.chis_feat` (`flory/interaction/flory_huggins_block.py:87-90`). -/
noncomputable def FloryHugginsBlockInteraction.get_chis_feat (self : FloryHugginsBlockInteractionAttrs) :
    Py (NDArr ℝ) := do
  let self_num_feat : ℕ := self.num_feat
  let self_num_comp_per_feat : NDArr ℕ := self._num_comp_per_feat
  let self_chis_feat : NDArr ℝ := self._chis_feat
  let self_num_comp : ℕ := self.num_comp
  let self_chis : NDArr ℝ := self._chis
  pure self_chis_feat

/-- `FloryHugginsBlockInteraction.num_comp_per_feat` (`flory/interaction/flory_huggins_block.py:73-76`). -/
noncomputable def FloryHugginsBlockInteraction.get_num_comp_per_feat (self : FloryHugginsBlockInteractionAttrs) :
    Py (NDArr ℕ) := do
  let self_num_feat : ℕ := self.num_feat
  let self_num_comp_per_feat : NDArr ℕ := self._num_comp_per_feat
  let self_chis_feat : NDArr ℝ := self._chis_feat
  let self_num_comp : ℕ := self.num_comp
  let self_chis : NDArr ℝ := self._chis
  pure self_num_comp_per_feat

/-- `IdealGasEntropy.sizes` (`flory/entropy/ideal_gas.py:237-240`). -/
noncomputable def IdealGasEntropy.get_sizes (self : IdealGasEntropyAttrs) :
    Py (NDArr ℝ) := do
  let self_num_comp : ℕ := self.num_comp
  let self_sizes : NDArr ℝ := self._sizes
  pure self_sizes

/-- `IdealGasPolydispersedEntropy.sizes` (`flory/entropy/ideal_gas_polydispersed.py:144-147`). -/
noncomputable def IdealGasPolydispersedEntropy.get_sizes (self : IdealGasPolydispersedEntropyAttrs) :
    Py (NDArr ℝ) := do
  let self_num_feat : ℕ := self.num_feat
  let self_num_comp_per_feat : NDArr ℕ := self._num_comp_per_feat
  let self_num_comp : ℕ := self.num_comp
  let self_sizes : NDArr ℝ := self._sizes
  pure self_sizes

/-- `CanonicalEnsemble.num_comp` (`flory/ensemble/base.py:72-75`). -/
noncomputable def CanonicalEnsemble.get_num_comp (self : CanonicalEnsembleAttrs) :
    Py (ℕ) := do
  let self_num_comp : ℕ := self._num_comp
  let self_phi_means : NDArr ℝ := self._phi_means
  pure self_num_comp

/-- `CanonicalEnsemble.phi_means` (`flory/ensemble/canonical.py:92-95`). -/
noncomputable def CanonicalEnsemble.get_phi_means (self : CanonicalEnsembleAttrs) :
    Py (NDArr ℝ) := do
  let self_num_comp : ℕ := self._num_comp
  let self_phi_means : NDArr ℝ := self._phi_means
  pure self_phi_means

/-- `GrandCanonicalEnsemble.num_comp` (`flory/ensemble/base.py:72-75`). -/
noncomputable def GrandCanonicalEnsemble.get_num_comp (self : GrandCanonicalEnsembleAttrs) :
    Py (ℕ) := do
  let self_num_comp : ℕ := self._num_comp
  let self_scaled_activity : NDArr ℝ := self._scaled_activity
  pure self_num_comp

/-- `GrandCanonicalEnsemble.scaled_activity` (`flory/ensemble/grandcanonical.py:90-93`). -/
noncomputable def GrandCanonicalEnsemble.get_scaled_activity (self : GrandCanonicalEnsembleAttrs) :
    Py (NDArr ℝ) := do
  let self_num_comp : ℕ := self._num_comp
  let self_scaled_activity : NDArr ℝ := self._scaled_activity
  pure self_scaled_activity

/-- `LinearLocalConstraint.Cs` (`flory/constraint/linear_local.py:168-171`). -/
noncomputable def LinearLocalConstraint.get_Cs (self : LinearLocalConstraintAttrs) :
    Py (NDArr ℝ) := do
  let self_num_feat : ℕ := self.num_feat
  let self_num_cons : ℕ := self.num_cons
  let self_Cs : NDArr ℝ := self._Cs
  let self_Ts : NDArr ℝ := self._Ts
  pure self_Cs

/-- `LinearLocalConstraint.Ts` (`flory/constraint/linear_local.py:179-182`). -/
noncomputable def LinearLocalConstraint.get_Ts (self : LinearLocalConstraintAttrs) :
    Py (NDArr ℝ) := do
  let self_num_feat : ℕ := self.num_feat
  let self_num_cons : ℕ := self.num_cons
  let self_Cs : NDArr ℝ := self._Cs
  let self_Ts : NDArr ℝ := self._Ts
  pure self_Ts

/-- `LinearGlobalConstraint.Cs` (`flory/constraint/linear_global.py:174-178`). -/
noncomputable def LinearGlobalConstraint.get_Cs (self : LinearGlobalConstraintAttrs) :
    Py (NDArr ℝ) := do
  let self_num_feat : ℕ := self.num_feat
  let self_num_cons : ℕ := self.num_cons
  let self_Cs : NDArr ℝ := self._Cs
  let self_Ts : NDArr ℝ := self._Ts
  pure self_Cs

/-- `LinearGlobalConstraint.Ts` (`flory/constraint/linear_global.py:186-189`). -/
noncomputable def LinearGlobalConstraint.get_Ts (self : LinearGlobalConstraintAttrs) :
    Py (NDArr ℝ) := do
  let self_num_feat : ℕ := self.num_feat
  let self_num_cons : ℕ := self.num_cons
  let self_Cs : NDArr ℝ := self._Cs
  let self_Ts : NDArr ℝ := self._Ts
  pure self_Ts

/-- Attributes of a `FloryHuggins` object after its constructor (`flory/free_energy/flory_huggins.py:35-54`). -/
structure FloryHugginsAttrs where
  interaction : FloryHugginsInteractionAttrs
  entropy : IdealGasEntropyAttrs
  num_comp : ℕ

/-- `FloryHuggins.__init__` (`flory/free_energy/flory_huggins.py:35-54`). -/
noncomputable def FloryHuggins.init (num_comp : ℕ) (chis : NDArr ℝ) (sizes : Option (NDArr ℝ)) :
    Py (FloryHugginsAttrs) := do
  let t1 : FloryHugginsInteractionAttrs ← FloryHugginsInteraction.init num_comp chis
  let interaction : FloryHugginsInteractionAttrs := t1
  let t2 : IdealGasEntropyAttrs ← IdealGasEntropy.init num_comp sizes
  let entropy : IdealGasEntropyAttrs := t2
  let interaction' : FloryHugginsInteractionAttrs := interaction
  let entropy' : IdealGasEntropyAttrs := entropy
  let t3 : Unit ←
    if interaction'.num_comp ≠ entropy'.num_comp then do
      .error .componentNumberError
    else do
      pure ()
  let self_interaction : FloryHugginsInteractionAttrs := interaction'
  let self_entropy : IdealGasEntropyAttrs := entropy'
  let self_num_comp : ℕ := interaction'.num_comp
  pure { interaction := self_interaction, entropy := self_entropy, num_comp := self_num_comp }

/-- Defaults of the parameters of `FloryHuggins.__init__` (`flory/free_energy/flory_huggins.py:35-54`). -/
noncomputable def FloryHuggins.init_defaults : Option (NDArr ℝ) := none

/-- `FloryHuggins.chis` (`flory/free_energy/flory_huggins.py:56-59`). -/
noncomputable def FloryHuggins.get_chis (self : FloryHugginsAttrs) :
    Py (NDArr ℝ) := do
  let self_interaction : FloryHugginsInteractionAttrs := self.interaction
  let self_entropy : IdealGasEntropyAttrs := self.entropy
  let self_num_comp : ℕ := self.num_comp
  let t1 : NDArr ℝ ← FloryHugginsInteraction.get_chis self_interaction
  pure t1

/-- `FloryHuggins.chis` setter (`flory/free_energy/flory_huggins.py:61-63`). -/
noncomputable def FloryHuggins.set_chis (self : FloryHugginsAttrs) (chis_new : NDArr ℝ) :
    Py (FloryHugginsAttrs) := do
  let self_interaction : FloryHugginsInteractionAttrs := self.interaction
  let self_entropy : IdealGasEntropyAttrs := self.entropy
  let self_num_comp : ℕ := self.num_comp
  let self_interaction : FloryHugginsInteractionAttrs ← FloryHugginsInteraction.set_chis self_interaction chis_new
  pure { interaction := self_interaction, entropy := self_entropy, num_comp := self_num_comp }

/-- `FloryHuggins.sizes` (`flory/free_energy/flory_huggins.py:65-68`). -/
noncomputable def FloryHuggins.get_sizes (self : FloryHugginsAttrs) :
    Py (NDArr ℝ) := do
  let self_interaction : FloryHugginsInteractionAttrs := self.interaction
  let self_entropy : IdealGasEntropyAttrs := self.entropy
  let self_num_comp : ℕ := self.num_comp
  let t1 : NDArr ℝ ← IdealGasEntropy.get_sizes self_entropy
  pure t1

/-- `FloryHuggins.sizes` setter (`flory/free_energy/flory_huggins.py:70-72`). -/
noncomputable def FloryHuggins.set_sizes (self : FloryHugginsAttrs) (sizes_new : NDArr ℝ) :
    Py (FloryHugginsAttrs) := do
  let self_interaction : FloryHugginsInteractionAttrs := self.interaction
  let self_entropy : IdealGasEntropyAttrs := self.entropy
  let self_num_comp : ℕ := self.num_comp
  let self_entropy : IdealGasEntropyAttrs ← IdealGasEntropy.set_sizes self_entropy sizes_new
  pure { interaction := self_interaction, entropy := self_entropy, num_comp := self_num_comp }

/-- `FloryHuggins.from_uniform` (`flory/free_energy/flory_huggins.py:74-90`). -/
noncomputable def FloryHuggins.from_uniform (num_comp : ℕ) (chi : ℝ) (sizes : Option (NDArr ℝ)) (vanishing_diagonal : Bool) :
    Py (FloryHugginsAttrs) := do
  let t1 : FloryHugginsAttrs ← FloryHuggins.init num_comp (NDArr.scalar (0 : ℝ)) sizes
  let obj : FloryHugginsAttrs := t1
  let t2 : FloryHugginsInteractionAttrs ← FloryHugginsInteraction.set_uniform_chis obj.interaction chi vanishing_diagonal
  let obj : FloryHugginsAttrs := { obj with interaction := t2 }
  pure obj

/-- Defaults of the parameters of `FloryHuggins.from_uniform` (`flory/free_energy/flory_huggins.py:74-90`). -/
noncomputable def FloryHuggins.from_uniform_defaults : Option (NDArr ℝ) × Bool := (none, true)

/-- `FloryHuggins.from_random_normal` (`flory/free_energy/flory_huggins.py:92-112`). -/
noncomputable def FloryHuggins.from_random_normal (num_comp : ℕ) (chi_mean : ℝ) (chi_std : ℝ) (sizes : Option (NDArr ℝ)) (vanishing_diagonal : Bool) (rng : ℝ → ℝ → ℕ → List ℝ) :
    Py (FloryHugginsAttrs) := do
  let t1 : FloryHugginsAttrs ← FloryHuggins.init num_comp (NDArr.scalar (0 : ℝ)) sizes
  let obj : FloryHugginsAttrs := t1
  let t2 : FloryHugginsInteractionAttrs ← FloryHugginsInteraction.set_random_chis obj.interaction chi_mean chi_std vanishing_diagonal rng
  let obj : FloryHugginsAttrs := { obj with interaction := t2 }
  pure obj

/-- Defaults of the parameters of `FloryHuggins.from_random_normal` (`flory/free_energy/flory_huggins.py:92-112`). -/
noncomputable def FloryHuggins.from_random_normal_defaults : ℝ × ℝ × Option (NDArr ℝ) × Bool := ((0 : ℝ), (1 : ℝ), none, true)

/-- `FreeEnergyBase.interaction_compiled` for a `FloryHuggins` object (`flory/free_energy/base.py:49-59`). -/
noncomputable def FloryHuggins.interaction_compiled (self : FloryHugginsAttrs) (kwargs_full : Dict ℝ) :
    Py (FloryHugginsInteractionCompiledAttrs) := do
  let self_interaction : FloryHugginsInteractionAttrs := self.interaction
  let self_entropy : IdealGasEntropyAttrs := self.entropy
  let self_num_comp : ℕ := self.num_comp
  let t1 : FloryHugginsInteractionCompiledAttrs ← InteractionBase.compiled (FloryHugginsInteraction.object self_interaction) kwargs_full
  pure t1

/-- `FreeEnergyBase.entropy_compiled` for a `FloryHuggins` object (`flory/free_energy/base.py:61-72`). -/
noncomputable def FloryHuggins.entropy_compiled (self : FloryHugginsAttrs) (kwargs_full : Dict ℝ) :
    Py (IdealGasEntropyCompiledAttrs) := do
  let self_interaction : FloryHugginsInteractionAttrs := self.interaction
  let self_entropy : IdealGasEntropyAttrs := self.entropy
  let self_num_comp : ℕ := self.num_comp
  let t1 : IdealGasEntropyCompiledAttrs ← EntropyBase.compiled (IdealGasEntropy.object self_entropy) kwargs_full
  pure t1

end Flory.Gen
