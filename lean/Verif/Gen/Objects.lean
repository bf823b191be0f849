import Verif.Model.TranscriptObjects

/-!
# Transcription of constructors, setters and array utilities

Written by `tools/transcribe_objects.py`; do not edit.
-/

set_option linter.unusedVariables false

namespace Flory.Gen

/-- `convert_and_broadcast` (`flory/common/utilities.py:28-42`). -/
noncomputable def convert_and_broadcast (arr : NDArr ℝ) (shape : List ℕ) :
    Py (NDArr ℝ) := do
  let t1 : NDArr ℝ := NDArr.atleast1d arr
  let ans : NDArr ℝ := t1
  let t2 : NDArr ℝ ← NDArr.broadcastTo ans shape
  let ans : NDArr ℝ := t2
  pure ans

/-- `convert_and_broadcast` (`flory/common/utilities.py:28-42`). -/
noncomputable def convert_and_broadcast_nat (arr : NDArr ℕ) (shape : List ℕ) :
    Py (NDArr ℕ) := do
  let t1 : NDArr ℕ := NDArr.atleast1d arr
  let ans : NDArr ℕ := t1
  let t2 : NDArr ℕ ← NDArr.broadcastTo ans shape
  let ans : NDArr ℕ := t2
  pure ans

/-- `make_square_blocks` (`flory/common/utilities.py:45-70`). -/
noncomputable def make_square_blocks (arr : NDArr ℝ) (block_sizes : NDArr ℕ) :
    Py (NDArr ℝ) := do
  let arr_shape : List ℕ := arr.shape
  let t1 : ℕ ← shapeAt block_sizes.shape 0
  let n_block : ℕ := t1
  let t2 : Unit ←
    if arr_shape.dedup.length ≠ 1 then do
      .error .valueError
    else do
      pure ()
  let t3 : ℕ ← shapeAt arr_shape 0
  let t4 : Unit ←
    if n_block ≠ t3 then do
      .error .valueError
    else do
      pure ()
  let ans : NDArr ℝ := arr
  let t5 : NDArr ℝ ← forListM (List.range arr_shape.length) ans fun i ans => do
    let t6 : NDArr ℝ ← NDArr.repeatBy ans block_sizes i
    let ans : NDArr ℝ := t6
    pure ans
  let ans : NDArr ℝ := t5
  pure ans

/-- Attributes of a `FloryHugginsInteraction` object after its constructor (`flory/interaction/flory_huggins.py:206-219`). -/
structure FloryHugginsInteractionAttrs where
  num_comp : ℕ
  _chis : NDArr ℝ

/-- `FloryHugginsInteraction.__init__` (`flory/interaction/flory_huggins.py:206-219`). -/
noncomputable def FloryHugginsInteraction.init (num_comp : ℕ) (chis : NDArr ℝ) :
    Py (FloryHugginsInteractionAttrs) := do
  let num_comp' : ℕ := num_comp
  let chis' : NDArr ℝ := chis
  let num_comp'' : ℕ := num_comp'
  let self_num_comp : ℕ := num_comp''
  let t1 : NDArr ℝ := NDArr.atleast1d chis'
  let chis' : NDArr ℝ := t1
  let shape' : List ℕ := [num_comp', num_comp']
  let t2 : NDArr ℝ ← NDArr.broadcastTo chis' shape'
  let chis' : NDArr ℝ := t2
  let t3 : NDArr ℝ := NDArr.transpose chis'
  let t4 : NDArr ℝ := NDArr.transpose chis'
  let t5 : NDArr ℝ ← NDArr.zip2 (fun x y => x + y) chis' t4
  let t6 : NDArr ℝ := NDArr.map (fun x => (1 / 2 : ℝ) * x) t5
  let self_chis : NDArr ℝ := t6
  pure { num_comp := self_num_comp, _chis := self_chis }

/-- `FloryHugginsInteraction.chis` setter (`flory/interaction/flory_huggins.py:226-233`). -/
noncomputable def FloryHugginsInteraction.set_chis (self : FloryHugginsInteractionAttrs) (chis_new : NDArr ℝ) :
    Py (FloryHugginsInteractionAttrs) := do
  let self_num_comp : ℕ := self.num_comp
  let self_chis : NDArr ℝ := self._chis
  let t1 : NDArr ℝ := NDArr.atleast1d chis_new
  let chis_new : NDArr ℝ := t1
  let shape : List ℕ := [self_num_comp, self_num_comp]
  let t2 : NDArr ℝ ← NDArr.broadcastTo chis_new shape
  let chis_new : NDArr ℝ := t2
  let t3 : NDArr ℝ := NDArr.transpose chis_new
  let t4 : NDArr ℝ := NDArr.transpose chis_new
  let t5 : NDArr ℝ ← NDArr.zip2 (fun x y => x + y) chis_new t4
  let t6 : NDArr ℝ := NDArr.map (fun x => (1 / 2 : ℝ) * x) t5
  let self_chis : NDArr ℝ := t6
  pure { num_comp := self_num_comp, _chis := self_chis }

/-- `FloryHugginsInteraction.set_uniform_chis` (`flory/interaction/flory_huggins.py:297-315`). -/
noncomputable def FloryHugginsInteraction.set_uniform_chis (self : FloryHugginsInteractionAttrs) (chi : ℝ) (vanishing_diagonal : Bool) :
    Py (FloryHugginsInteractionAttrs) := do
  let self_num_comp : ℕ := self.num_comp
  let self_chis : NDArr ℝ := self._chis
  let t1 : NDArr ℝ := NDArr.full [self_num_comp, self_num_comp] chi
  let self_chis : NDArr ℝ := t1
  let t2 : NDArr ℝ ←
    if vanishing_diagonal = true then do
      let self_chis : NDArr ℝ := NDArr.setDiag self_chis (0 : ℝ)
      pure self_chis
    else do
      pure self_chis
  let self_chis : NDArr ℝ := t2
  pure { num_comp := self_num_comp, _chis := self_chis }

/-- `FloryHugginsInteraction.set_random_chis` (`flory/interaction/flory_huggins.py:317-353`). -/
noncomputable def FloryHugginsInteraction.set_random_chis (self : FloryHugginsInteractionAttrs) (chi_mean : ℝ) (chi_std : ℝ) (vanishing_diagonal : Bool) (rng : ℝ → ℝ → ℕ → List ℝ) :
    Py (FloryHugginsInteractionAttrs) := do
  let self_num_comp : ℕ := self.num_comp
  let self_chis : NDArr ℝ := self._chis
  let self_chis : NDArr ℝ := NDArr.full self_chis.shape (0 : ℝ)
  let t1 : ℕ ←
    if vanishing_diagonal = true then do
      let num_entries : ℕ := ((self_num_comp * (self_num_comp - 1)) / 2)
      pure num_entries
    else do
      let num_entries : ℕ := ((self_num_comp * (self_num_comp + 1)) / 2)
      pure num_entries
  let num_entries : ℕ := t1
  let t2 : List ℝ := rng chi_mean chi_std num_entries
  let chi_vals : List ℝ := t2
  let t3 : List ℕ × List ℕ := triu self_num_comp (if vanishing_diagonal = true then 1 else 0)
  let self_chis : NDArr ℝ ← NDArr.assignAt self_chis t3.1 t3.2 chi_vals
  let self_chis : NDArr ℝ ← NDArr.assignAt self_chis t3.2 t3.1 chi_vals
  pure { num_comp := self_num_comp, _chis := self_chis }

/-- `FloryHugginsInteraction.from_uniform` (`flory/interaction/flory_huggins.py:241-263`). -/
noncomputable def FloryHugginsInteraction.from_uniform (num_comp : ℕ) (chi : ℝ) (vanishing_diagonal : Bool) :
    Py (FloryHugginsInteractionAttrs) := do
  let t1 : FloryHugginsInteractionAttrs ← FloryHugginsInteraction.init num_comp (NDArr.scalar (0 : ℝ))
  let obj : FloryHugginsInteractionAttrs := t1
  let obj : FloryHugginsInteractionAttrs ← FloryHugginsInteraction.set_uniform_chis obj chi vanishing_diagonal
  pure obj

/-- `FloryHugginsInteraction.from_random_normal` (`flory/interaction/flory_huggins.py:265-295`). -/
noncomputable def FloryHugginsInteraction.from_random_normal (num_comp : ℕ) (chi_mean : ℝ) (chi_std : ℝ) (vanishing_diagonal : Bool) (rng : ℝ → ℝ → ℕ → List ℝ) :
    Py (FloryHugginsInteractionAttrs) := do
  let t1 : FloryHugginsInteractionAttrs ← FloryHugginsInteraction.init num_comp (NDArr.scalar (0 : ℝ))
  let obj : FloryHugginsInteractionAttrs := t1
  let obj : FloryHugginsInteractionAttrs ← FloryHugginsInteraction.set_random_chis obj chi_mean chi_std vanishing_diagonal rng
  pure obj

/-- Attributes of a `FloryHugginsBlockInteraction` object after its constructor (`flory/interaction/flory_huggins_block.py:39-71`). -/
structure FloryHugginsBlockInteractionAttrs where
  num_feat : ℕ
  _num_comp_per_feat : NDArr ℕ
  _chis_feat : NDArr ℝ
  num_comp : ℕ
  _chis : NDArr ℝ

/-- `FloryHugginsBlockInteraction.__init__` (`flory/interaction/flory_huggins_block.py:39-71`). -/
noncomputable def FloryHugginsBlockInteraction.init (num_feat : ℕ) (chis_feat : NDArr ℝ) (num_comp_per_feat : NDArr ℕ) :
    Py (FloryHugginsBlockInteractionAttrs) := do
  let self_num_feat : ℕ := num_feat
  let t1 : NDArr ℕ ← convert_and_broadcast_nat num_comp_per_feat [num_feat]
  let num_comp_per_feat : NDArr ℕ := t1
  let self_num_comp_per_feat : NDArr ℕ := num_comp_per_feat
  let t2 : NDArr ℝ ← convert_and_broadcast chis_feat ([num_feat, num_feat])
  let chis_feat : NDArr ℝ := t2
  let t3 : NDArr ℝ := NDArr.transpose chis_feat
  if ¬NDArr.allclose chis_feat t3 then .error .attributeError
  let t4 : NDArr ℝ := NDArr.transpose chis_feat
  let t5 : NDArr ℝ ← NDArr.zip2 (fun x y => x + y) chis_feat t4
  let t6 : NDArr ℝ := NDArr.map (fun x => (1 / 2 : ℝ) * x) t5
  let chis_feat : NDArr ℝ := t6
  let self_chis_feat : NDArr ℝ := chis_feat
  let t7 : ℕ := NDArr.total num_comp_per_feat
  let t8 : NDArr ℝ ← make_square_blocks chis_feat num_comp_per_feat
  let num_comp' : ℕ := t7
  let chis' : NDArr ℝ := t8
  let num_comp'' : ℕ := num_comp'
  let self_num_comp : ℕ := num_comp''
  let t9 : NDArr ℝ := NDArr.atleast1d chis'
  let chis' : NDArr ℝ := t9
  let shape' : List ℕ := [num_comp', num_comp']
  let t10 : NDArr ℝ ← NDArr.broadcastTo chis' shape'
  let chis' : NDArr ℝ := t10
  let t11 : NDArr ℝ := NDArr.transpose chis'
  let t12 : NDArr ℝ := NDArr.transpose chis'
  let t13 : NDArr ℝ ← NDArr.zip2 (fun x y => x + y) chis' t12
  let t14 : NDArr ℝ := NDArr.map (fun x => (1 / 2 : ℝ) * x) t13
  let self_chis : NDArr ℝ := t14
  pure { num_feat := self_num_feat, _num_comp_per_feat := self_num_comp_per_feat, _chis_feat := self_chis_feat, num_comp := self_num_comp, _chis := self_chis }

/-- `FloryHugginsBlockInteraction.chis_feat` setter (`flory/interaction/flory_huggins_block.py:92-102`). -/
noncomputable def FloryHugginsBlockInteraction.set_chis_feat (self : FloryHugginsBlockInteractionAttrs) (chis_feat_new : NDArr ℝ) :
    Py (FloryHugginsBlockInteractionAttrs) := do
  let self_num_feat : ℕ := self.num_feat
  let self_num_comp_per_feat : NDArr ℕ := self._num_comp_per_feat
  let self_chis_feat : NDArr ℝ := self._chis_feat
  let self_num_comp : ℕ := self.num_comp
  let self_chis : NDArr ℝ := self._chis
  .error .attributeError

/-- Attributes of a `IdealGasEntropy` object after its constructor (`flory/entropy/ideal_gas.py:220-235`). -/
structure IdealGasEntropyAttrs where
  num_comp : ℕ
  _sizes : NDArr ℝ

/-- `IdealGasEntropy.__init__` (`flory/entropy/ideal_gas.py:220-235`). -/
noncomputable def IdealGasEntropy.init (num_comp : ℕ) (sizes : Option (NDArr ℝ)) :
    Py (IdealGasEntropyAttrs) := do
  let num_comp' : ℕ := num_comp
  let sizes' : Option (NDArr ℝ) := sizes
  let num_comp'' : ℕ := num_comp'
  let self_num_comp : ℕ := num_comp''
  let t4 : NDArr ℝ ←
    match sizes' with
    | none => do
      let t1 : NDArr ℝ := NDArr.full [num_comp'] 1
      let self_sizes : NDArr ℝ := t1
      pure self_sizes
    | some sizes' => do
      let t2 : NDArr ℝ := NDArr.atleast1d sizes'
      let sizes' : NDArr ℝ := t2
      let shape' : List ℕ := [num_comp']
      let t3 : NDArr ℝ ← NDArr.broadcastTo sizes' shape'
      let self_sizes : NDArr ℝ := t3
      pure self_sizes
  let self_sizes : NDArr ℝ := t4
  pure { num_comp := self_num_comp, _sizes := self_sizes }

/-- `IdealGasEntropy.sizes` setter (`flory/entropy/ideal_gas.py:242-246`). -/
noncomputable def IdealGasEntropy.set_sizes (self : IdealGasEntropyAttrs) (sizes_new : NDArr ℝ) :
    Py (IdealGasEntropyAttrs) := do
  let self_num_comp : ℕ := self.num_comp
  let self_sizes : NDArr ℝ := self._sizes
  let t1 : NDArr ℝ := NDArr.atleast1d sizes_new
  let sizes_new : NDArr ℝ := t1
  let shape : List ℕ := [self_num_comp]
  let t2 : NDArr ℝ ← NDArr.broadcastTo sizes_new shape
  let self_sizes : NDArr ℝ := t2
  pure { num_comp := self_num_comp, _sizes := self_sizes }

/-- Attributes of a `IdealGasPolydispersedEntropy` object after its constructor (`flory/entropy/ideal_gas_polydispersed.py:115-142`). -/
structure IdealGasPolydispersedEntropyAttrs where
  num_feat : ℕ
  _num_comp_per_feat : NDArr ℕ
  num_comp : ℕ
  _sizes : NDArr ℝ

/-- `IdealGasPolydispersedEntropy.__init__` (`flory/entropy/ideal_gas_polydispersed.py:115-142`). -/
noncomputable def IdealGasPolydispersedEntropy.init (num_feat : ℕ) (sizes : Option (NDArr ℝ)) (num_comp_per_feat : NDArr ℕ) :
    Py (IdealGasPolydispersedEntropyAttrs) := do
  let self_num_feat : ℕ := num_feat
  let t1 : NDArr ℕ ← convert_and_broadcast_nat num_comp_per_feat [num_feat]
  let num_comp_per_feat : NDArr ℕ := t1
  let self_num_comp_per_feat : NDArr ℕ := num_comp_per_feat
  let t2 : ℕ := NDArr.total num_comp_per_feat
  let num_comp' : ℕ := t2
  let sizes' : Option (NDArr ℝ) := sizes
  let num_comp'' : ℕ := num_comp'
  let self_num_comp : ℕ := num_comp''
  let t6 : NDArr ℝ ←
    match sizes' with
    | none => do
      let t3 : NDArr ℝ := NDArr.full [num_comp'] 1
      let self_sizes : NDArr ℝ := t3
      pure self_sizes
    | some sizes' => do
      let t4 : NDArr ℝ := NDArr.atleast1d sizes'
      let sizes' : NDArr ℝ := t4
      let shape' : List ℕ := [num_comp']
      let t5 : NDArr ℝ ← NDArr.broadcastTo sizes' shape'
      let self_sizes : NDArr ℝ := t5
      pure self_sizes
  let self_sizes : NDArr ℝ := t6
  pure { num_feat := self_num_feat, _num_comp_per_feat := self_num_comp_per_feat, num_comp := self_num_comp, _sizes := self_sizes }

/-- `IdealGasPolydispersedEntropy.sizes` setter (`flory/entropy/ideal_gas_polydispersed.py:149-153`). -/
noncomputable def IdealGasPolydispersedEntropy.set_sizes (self : IdealGasPolydispersedEntropyAttrs) (sizes_new : NDArr ℝ) :
    Py (IdealGasPolydispersedEntropyAttrs) := do
  let self_num_feat : ℕ := self.num_feat
  let self_num_comp_per_feat : NDArr ℕ := self._num_comp_per_feat
  let self_num_comp : ℕ := self.num_comp
  let self_sizes : NDArr ℝ := self._sizes
  let t1 : NDArr ℝ := NDArr.atleast1d sizes_new
  let sizes_new : NDArr ℝ := t1
  let shape : List ℕ := [self_num_comp]
  let t2 : NDArr ℝ ← NDArr.broadcastTo sizes_new shape
  let self_sizes : NDArr ℝ := t2
  pure { num_feat := self_num_feat, _num_comp_per_feat := self_num_comp_per_feat, num_comp := self_num_comp, _sizes := self_sizes }

/-- Attributes of a `CanonicalEnsemble` object after its constructor (`flory/ensemble/canonical.py:75-90`). -/
structure CanonicalEnsembleAttrs where
  _num_comp : ℕ
  _phi_means : NDArr ℝ

/-- `CanonicalEnsemble.__init__` (`flory/ensemble/canonical.py:75-90`). -/
noncomputable def CanonicalEnsemble.init (num_comp : ℕ) (phi_means : Option (NDArr ℝ)) :
    Py (CanonicalEnsembleAttrs) := do
  let num_comp' : ℕ := num_comp
  let t1 : Unit ←
    if num_comp' < 1 then do
      .error .valueError
    else do
      pure ()
  let self_num_comp : ℕ := num_comp'
  let t7 : NDArr ℝ ←
    match phi_means with
    | none => do
      let t2 : ℝ ← pyDiv (1 : ℝ) (num_comp : ℝ)
      let t3 : NDArr ℝ := NDArr.full [num_comp] t2
      let phi_means_new' : NDArr ℝ := t3
      let phi_means_new' : NDArr ℝ := phi_means_new'
      let t4 : NDArr ℝ ← NDArr.broadcastTo phi_means_new' [self_num_comp]
      let self_phi_means : NDArr ℝ := t4
      pure self_phi_means
    | some phi_means => do
      let t5 : NDArr ℝ := NDArr.atleast1d phi_means
      let phi_means_new' : NDArr ℝ := t5
      let phi_means_new' : NDArr ℝ := phi_means_new'
      let t6 : NDArr ℝ ← NDArr.broadcastTo phi_means_new' [self_num_comp]
      let self_phi_means : NDArr ℝ := t6
      pure self_phi_means
  let self_phi_means : NDArr ℝ := t7
  pure { _num_comp := self_num_comp, _phi_means := self_phi_means }

/-- `CanonicalEnsemble.phi_means` setter (`flory/ensemble/canonical.py:97-105`). -/
noncomputable def CanonicalEnsemble.set_phi_means (self : CanonicalEnsembleAttrs) (phi_means_new : NDArr ℝ) :
    Py (CanonicalEnsembleAttrs) := do
  let self_num_comp : ℕ := self._num_comp
  let self_phi_means : NDArr ℝ := self._phi_means
  let phi_means_new : NDArr ℝ := phi_means_new
  let t1 : NDArr ℝ ← NDArr.broadcastTo phi_means_new [self_num_comp]
  let self_phi_means : NDArr ℝ := t1
  pure { _num_comp := self_num_comp, _phi_means := self_phi_means }

/-- Attributes of a `GrandCanonicalEnsemble` object after its constructor (`flory/ensemble/grandcanonical.py:70-88`). -/
structure GrandCanonicalEnsembleAttrs where
  _num_comp : ℕ
  _scaled_activity : NDArr ℝ

/-- `GrandCanonicalEnsemble.__init__` (`flory/ensemble/grandcanonical.py:70-88`). -/
noncomputable def GrandCanonicalEnsemble.init (num_comp : ℕ) (scaled_activity : NDArr ℝ) :
    Py (GrandCanonicalEnsembleAttrs) := do
  let num_comp' : ℕ := num_comp
  let t1 : Unit ←
    if num_comp' < 1 then do
      .error .valueError
    else do
      pure ()
  let self_num_comp : ℕ := num_comp'
  let t2 : NDArr ℝ := NDArr.atleast1d scaled_activity
  let scaled_activity : NDArr ℝ := t2
  let shape : List ℕ := [num_comp]
  let t3 : NDArr ℝ ← NDArr.broadcastTo scaled_activity shape
  let self_scaled_activity : NDArr ℝ := t3
  pure { _num_comp := self_num_comp, _scaled_activity := self_scaled_activity }

/-- `GrandCanonicalEnsemble.scaled_activity` setter (`flory/ensemble/grandcanonical.py:95-99`). -/
noncomputable def GrandCanonicalEnsemble.set_scaled_activity (self : GrandCanonicalEnsembleAttrs) (scaled_activity_new : NDArr ℝ) :
    Py (GrandCanonicalEnsembleAttrs) := do
  let self_num_comp : ℕ := self._num_comp
  let self_scaled_activity : NDArr ℝ := self._scaled_activity
  let t1 : NDArr ℝ := NDArr.atleast1d scaled_activity_new
  let scaled_activity_new : NDArr ℝ := t1
  let shape : List ℕ := [self_num_comp]
  let t2 : NDArr ℝ ← NDArr.broadcastTo scaled_activity_new shape
  let self_scaled_activity : NDArr ℝ := t2
  pure { _num_comp := self_num_comp, _scaled_activity := self_scaled_activity }

/-- `GrandCanonicalEnsemble.from_chemical_potential` (`flory/ensemble/grandcanonical.py:101-129`). -/
noncomputable def GrandCanonicalEnsemble.from_chemical_potential (num_comp : ℕ) (mus : NDArr ℝ) (sizes : Option (NDArr ℝ)) :
    Py (GrandCanonicalEnsembleAttrs) := do
  let t1 : NDArr ℝ := NDArr.atleast1d mus
  let mus : NDArr ℝ := t1
  let shape : List ℕ := [num_comp]
  let t2 : NDArr ℝ ← NDArr.broadcastTo mus shape
  let mus : NDArr ℝ := t2
  let t6 : NDArr ℝ ←
    match sizes with
    | none => do
      let t3 : NDArr ℝ := NDArr.full mus.shape 1
      let sizes : NDArr ℝ := t3
      pure sizes
    | some sizes => do
      let t4 : NDArr ℝ := NDArr.atleast1d sizes
      let sizes : NDArr ℝ := t4
      let t5 : NDArr ℝ ← NDArr.broadcastTo sizes shape
      let sizes : NDArr ℝ := t5
      pure sizes
  let sizes : NDArr ℝ := t6
  let t7 : NDArr ℝ ← NDArr.zip2 (fun x y => x * y) sizes mus
  let t8 : NDArr ℝ := NDArr.map Real.exp t7
  let t9 : NDArr ℝ ← NDArr.zip2 (fun x y => x * y) sizes t8
  let scaled_activity : NDArr ℝ := t9
  let t10 : GrandCanonicalEnsembleAttrs ← GrandCanonicalEnsemble.init num_comp scaled_activity
  pure t10

/-- Attributes of a `LinearLocalConstraint` object after its constructor (`flory/constraint/linear_local.py:136-166`). -/
structure LinearLocalConstraintAttrs where
  num_feat : ℕ
  num_cons : ℕ
  _Cs : NDArr ℝ
  _Ts : NDArr ℝ

/-- `LinearLocalConstraint.__init__` (`flory/constraint/linear_local.py:136-166`). -/
noncomputable def LinearLocalConstraint.init (num_feat : ℕ) (Cs : NDArr ℝ) (Ts : NDArr ℝ) :
    Py (LinearLocalConstraintAttrs) := do
  let num_feat' : ℕ := num_feat
  let self_num_feat : ℕ := num_feat'
  let t1 : NDArr ℝ := NDArr.atleast1d Cs
  let Cs : NDArr ℝ := t1
  let t4 : ℕ ←
    if Cs.ndim = 1 then do
      let self_num_cons : ℕ := 1
      pure self_num_cons
    else do
      let t3 : ℕ ←
        if Cs.ndim = 2 then do
          let t2 : ℕ ← shapeAt Cs.shape 0
          let self_num_cons : ℕ := t2
          pure self_num_cons
        else do
          .error .valueError
      let self_num_cons : ℕ := t3
      pure self_num_cons
  let self_num_cons : ℕ := t4
  let shape : List ℕ := [self_num_cons, self_num_feat]
  let t5 : NDArr ℝ ← NDArr.broadcastTo Cs shape
  let self_Cs : NDArr ℝ := t5
  let shape : List ℕ := [self_num_cons]
  let t6 : NDArr ℝ := NDArr.atleast1d Ts
  let Ts : NDArr ℝ := t6
  let t7 : NDArr ℝ ← NDArr.broadcastTo Ts shape
  let self_Ts : NDArr ℝ := t7
  pure { num_feat := self_num_feat, num_cons := self_num_cons, _Cs := self_Cs, _Ts := self_Ts }

/-- `LinearLocalConstraint.Cs` setter (`flory/constraint/linear_local.py:173-177`). -/
noncomputable def LinearLocalConstraint.set_Cs (self : LinearLocalConstraintAttrs) (Cs_new : NDArr ℝ) :
    Py (LinearLocalConstraintAttrs) := do
  let self_num_feat : ℕ := self.num_feat
  let self_num_cons : ℕ := self.num_cons
  let self_Cs : NDArr ℝ := self._Cs
  let self_Ts : NDArr ℝ := self._Ts
  let t1 : NDArr ℝ := NDArr.atleast1d Cs_new
  let Cs_new : NDArr ℝ := t1
  let shape : List ℕ := [self_num_cons, self_num_feat]
  let t2 : NDArr ℝ ← NDArr.broadcastTo Cs_new shape
  let self_Cs : NDArr ℝ := t2
  pure { num_feat := self_num_feat, num_cons := self_num_cons, _Cs := self_Cs, _Ts := self_Ts }

/-- `LinearLocalConstraint.Ts` setter (`flory/constraint/linear_local.py:184-188`). -/
noncomputable def LinearLocalConstraint.set_Ts (self : LinearLocalConstraintAttrs) (Ts_new : NDArr ℝ) :
    Py (LinearLocalConstraintAttrs) := do
  let self_num_feat : ℕ := self.num_feat
  let self_num_cons : ℕ := self.num_cons
  let self_Cs : NDArr ℝ := self._Cs
  let self_Ts : NDArr ℝ := self._Ts
  let shape : List ℕ := [self_num_cons]
  let t1 : NDArr ℝ := NDArr.atleast1d Ts_new
  let Ts_new : NDArr ℝ := t1
  let t2 : NDArr ℝ ← NDArr.broadcastTo Ts_new shape
  let self_Ts : NDArr ℝ := t2
  pure { num_feat := self_num_feat, num_cons := self_num_cons, _Cs := self_Cs, _Ts := self_Ts }

/-- Attributes of a `LinearGlobalConstraint` object after its constructor (`flory/constraint/linear_global.py:142-172`). -/
structure LinearGlobalConstraintAttrs where
  num_feat : ℕ
  num_cons : ℕ
  _Cs : NDArr ℝ
  _Ts : NDArr ℝ

/-- `LinearGlobalConstraint.__init__` (`flory/constraint/linear_global.py:142-172`). -/
noncomputable def LinearGlobalConstraint.init (num_feat : ℕ) (Cs : NDArr ℝ) (Ts : NDArr ℝ) :
    Py (LinearGlobalConstraintAttrs) := do
  let num_feat' : ℕ := num_feat
  let self_num_feat : ℕ := num_feat'
  let t1 : NDArr ℝ := NDArr.atleast1d Cs
  let Cs : NDArr ℝ := t1
  let t4 : ℕ ←
    if Cs.ndim = 1 then do
      let self_num_cons : ℕ := 1
      pure self_num_cons
    else do
      let t3 : ℕ ←
        if Cs.ndim = 2 then do
          let t2 : ℕ ← shapeAt Cs.shape 0
          let self_num_cons : ℕ := t2
          pure self_num_cons
        else do
          .error .valueError
      let self_num_cons : ℕ := t3
      pure self_num_cons
  let self_num_cons : ℕ := t4
  let shape : List ℕ := [self_num_cons, self_num_feat]
  let t5 : NDArr ℝ ← NDArr.broadcastTo Cs shape
  let self_Cs : NDArr ℝ := t5
  let shape : List ℕ := [self_num_cons]
  let t6 : NDArr ℝ := NDArr.atleast1d Ts
  let Ts : NDArr ℝ := t6
  let t7 : NDArr ℝ ← NDArr.broadcastTo Ts shape
  let self_Ts : NDArr ℝ := t7
  pure { num_feat := self_num_feat, num_cons := self_num_cons, _Cs := self_Cs, _Ts := self_Ts }

/-- `LinearGlobalConstraint.Cs` setter (`flory/constraint/linear_global.py:180-184`). -/
noncomputable def LinearGlobalConstraint.set_Cs (self : LinearGlobalConstraintAttrs) (Cs_new : NDArr ℝ) :
    Py (LinearGlobalConstraintAttrs) := do
  let self_num_feat : ℕ := self.num_feat
  let self_num_cons : ℕ := self.num_cons
  let self_Cs : NDArr ℝ := self._Cs
  let self_Ts : NDArr ℝ := self._Ts
  let t1 : NDArr ℝ := NDArr.atleast1d Cs_new
  let Cs_new : NDArr ℝ := t1
  let shape : List ℕ := [self_num_cons, self_num_feat]
  let t2 : NDArr ℝ ← NDArr.broadcastTo Cs_new shape
  let self_Cs : NDArr ℝ := t2
  pure { num_feat := self_num_feat, num_cons := self_num_cons, _Cs := self_Cs, _Ts := self_Ts }

/-- `LinearGlobalConstraint.Ts` setter (`flory/constraint/linear_global.py:191-195`). -/
noncomputable def LinearGlobalConstraint.set_Ts (self : LinearGlobalConstraintAttrs) (Ts_new : NDArr ℝ) :
    Py (LinearGlobalConstraintAttrs) := do
  let self_num_feat : ℕ := self.num_feat
  let self_num_cons : ℕ := self.num_cons
  let self_Cs : NDArr ℝ := self._Cs
  let self_Ts : NDArr ℝ := self._Ts
  let shape : List ℕ := [self_num_cons]
  let t1 : NDArr ℝ := NDArr.atleast1d Ts_new
  let Ts_new : NDArr ℝ := t1
  let t2 : NDArr ℝ ← NDArr.broadcastTo Ts_new shape
  let self_Ts : NDArr ℝ := t2
  pure { num_feat := self_num_feat, num_cons := self_num_cons, _Cs := self_Cs, _Ts := self_Ts }

/-- Attributes of a `Phases` object after its constructor (`flory/common/phases.py:39-62`). -/
structure PhasesAttrs where
  volumes : NDArr ℝ
  fractions : NDArr ℝ

/-- `Phases.__init__` (`flory/common/phases.py:39-62`). -/
noncomputable def Phases.init (volumes : NDArr ℝ) (fractions : NDArr ℝ) :
    Py (PhasesAttrs) := do
  let volumes : NDArr ℝ := volumes
  let fractions : NDArr ℝ := fractions
  let t1 : Unit ←
    if volumes.ndim ≠ 1 then do
      .error .valueError
    else do
      pure ()
  let t2 : Unit ←
    if fractions.ndim ≠ 2 then do
      .error .valueError
    else do
      pure ()
  let t3 : ℕ ← shapeAt volumes.shape 0
  let t4 : ℕ ← shapeAt fractions.shape 0
  let t5 : Unit ←
    if t3 ≠ t4 then do
      .error .valueError
    else do
      pure ()
  let self_volumes : NDArr ℝ := volumes
  let self_fractions : NDArr ℝ := fractions
  pure { volumes := self_volumes, fractions := self_fractions }

end Flory.Gen
