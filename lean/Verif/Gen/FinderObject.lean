import Verif.Model.FinderObject

/-!
# Transcription of the constructor and the methods that change a finder (`flory/mcmp/finder.py`)

Written by `tools/transcribe_finder.py`; do not edit.
-/

set_option linter.unusedVariables false

namespace Flory.Gen

variable {G : Type} {M : ℕ}

/-- `filter_kwargs` (`flory/common/utilities.py:12-25`); `func` are the names of the parameters of the function. -/
def filter_kwargs (kwargs_full : Dict ℝ) (func : List String) : Py (Dict ℝ) := do
  let params : List String := func
  forListM (params.filter fun para => (kwargs_full.get? para).isSome) [] fun para dict => do
    let value : ℝ ← Dict.item kwargs_full para
    pure (dict.insert para value)

/-- `InteractionBase.compiled` (`flory/interaction/base.py:182-203`); `self` is the object's
`_compiled_impl` with the names of its parameters. -/
def InteractionBase.compiled {α : Type} (self : InstObj α) (kwargs_full : Dict ℝ) : Py α := do
  let kwargs : Dict ℝ ← filter_kwargs kwargs_full self.params
  callKwargs self.params kwargs self.impl

/-- `EntropyBase.compiled` (`flory/entropy/base.py:186-214`); `self` is the object's
`_compiled_impl` with the names of its parameters. -/
def EntropyBase.compiled {α : Type} (self : InstObj α) (kwargs_full : Dict ℝ) : Py α := do
  let kwargs : Dict ℝ ← filter_kwargs kwargs_full self.params
  callKwargs self.params kwargs self.impl

/-- `EnsembleBase.compiled` (`flory/ensemble/base.py:85-103`); `self` is the object's
`_compiled_impl` with the names of its parameters. -/
def EnsembleBase.compiled {α : Type} (self : InstObj α) (kwargs_full : Dict ℝ) : Py α := do
  let kwargs : Dict ℝ ← filter_kwargs kwargs_full self.params
  callKwargs self.params kwargs self.impl

/-- `ConstraintBase.compiled` (`flory/constraint/base.py:128-147`); `self` is the object's
`_compiled_impl` with the names of its parameters. -/
def ConstraintBase.compiled {α : Type} (self : InstObj α) (kwargs_full : Dict ℝ) : Py α := do
  let kwargs : Dict ℝ ← filter_kwargs kwargs_full self.params
  callKwargs self.params kwargs self.impl

/-- The attributes of compiled instances that `check_instance` looks for
(`flory/interaction/flory_huggins.py:52-54`). -/
def interactionAttrs (x : AnyInteraction) : InstAttrs := { num_comp := none, num_feat := some x.1 }

/-- The attributes of compiled instances that `check_instance` looks for
(`flory/entropy/ideal_gas.py:54-56`,
`flory/entropy/ideal_gas.py:58-60`,
`flory/entropy/ideal_gas_polydispersed.py:61-63`,
`flory/entropy/ideal_gas_polydispersed.py:65-67`). -/
def entropyAttrs (x : AnyEntropy) : InstAttrs := { num_comp := some x.numComp, num_feat := some x.numFeat }

/-- The attributes of compiled instances that `check_instance` looks for
(`flory/ensemble/canonical.py:50-52`,
`flory/ensemble/grandcanonical.py:50-52`). -/
def ensembleAttrs (x : AnyEnsemble) : InstAttrs := { num_comp := some x.1, num_feat := none }

/-- The attributes of compiled instances that `check_instance` looks for
(`flory/constraint/no.py:35-37`,
`flory/constraint/linear_local.py:87-89`,
`flory/constraint/linear_global.py:88-90`). -/
def constraintAttrs {M : ℕ} (x : PackedCons M) : InstAttrs := { num_comp := none, num_feat := some x.numFeat }

/-- The attributes of a finder (`flory/mcmp/finder.py:64-239`); `none` if not assigned. -/
structure FinderObj (G : Type) (M : ℕ) where
  _interaction : Option AnyInteraction := none
  _entropy : Option AnyEntropy := none
  _ensemble : Option AnyEnsemble := none
  _num_comp : Option ℕ := none
  _num_feat : Option ℕ := none
  _num_part : Option ℕ := none
  _constraints : Option (List (PackedCons M)) := none
  _rng_is_external : Option Bool := none
  _rng_seed : Option ℤ := none
  _rng : Option G := none
  _max_steps : Option ℚ := none
  _convergence_criterion : Option String := none
  _tolerance : Option ℝ := none
  _interval : Option ℤ := none
  _progress : Option Bool := none
  _random_std : Option ℝ := none
  _acceptance_Js : Option ℝ := none
  _acceptance_omega : Option ℝ := none
  _Js_step_upper_bound : Option ℝ := none
  _kill_threshold : Option ℝ := none
  _revive_scaler : Option ℝ := none
  _max_revive_per_compartment : Option ℤ := none
  _diagnostics : Option (Option (Diagnostics ℝ)) := none
  _Js : Option (NDArr ℝ) := none
  _omegas : Option (NDArr ℝ) := none
  _phis_feat : Option (NDArr ℝ) := none
  _phis_comp : Option (NDArr ℝ) := none
  _revive_count_left : Option ℤ := none
  _kwargs_for_instances : Option (Dict ℝ) := none

/-- Keyword arguments of the constructor and their defaults (`flory/mcmp/finder.py:64-239`). -/
structure InitArgs (G : Type) where
  num_part : Option ℕ := none
  rng : Option G := none
  max_steps : ℚ := 1000000
  convergence_criterion : String := "standard"
  tolerance : ℝ := 1 / 100000
  interval : ℤ := 10000
  progress : Bool := true
  random_std : ℝ := 5
  acceptance_Js : ℝ := 1 / 5000
  acceptance_omega : ℝ := 1 / 500
  Js_step_upper_bound : ℝ := 1 / 1000
  kill_threshold : ℝ := 0
  revive_scaler : ℝ := 1
  max_revive_per_compartment : ℤ := 16

/-- Default of `constraints` (`flory/mcmp/finder.py:64-239`). -/
def CoexistingPhasesFinder.init_constraints : ConsArg := .none

/-- `CoexistingPhasesFinder.check_instance` (`flory/mcmp/finder.py:241-284`). -/
noncomputable def CoexistingPhasesFinder.check_instance (compiled_instance : InstAttrs) :
    Act (FinderObj G M) Unit := do
  let t1 : Bool ← (match compiled_instance.num_comp with
    | none => pure false
    | some value => do
      let t2 : ℕ ← Act.read fun self => self._num_comp
      pure (decide (value ≠ t2)))
  let _ : Unit ← (
    if t1 then do
      Act.raise .componentNumberError
    else do
      pure ())
  let t3 : Bool ← (match compiled_instance.num_feat with
    | none => pure false
    | some value => do
      let t4 : ℕ ← Act.read fun self => self._num_feat
      pure (decide (value ≠ t4)))
  let _ : Unit ← (
    if t3 then do
      Act.raise .featureNumberError
    else do
      pure ())
  pure ()

/-- `CoexistingPhasesFinder.check_field` (`flory/mcmp/finder.py:286-309`). -/
noncomputable def CoexistingPhasesFinder.check_field (field : NDArr ℝ) :
    Act (FinderObj G M) (NDArr ℝ) := do
  let field : NDArr ℝ := field
  let t1 : NDArr ℝ ← Act.read fun self => self._omegas
  let _ : Unit ← (
    if decide (field.shape ≠ t1.shape) then do
      Act.raise .valueError
    else do
      pure ())
  pure field

/-- `CoexistingPhasesFinder.reset_revive` (`flory/mcmp/finder.py:433-436`). -/
noncomputable def CoexistingPhasesFinder.reset_revive :
    Act (FinderObj G M) Unit := do
  let t1 : ℤ ← Act.read fun self => self._max_revive_per_compartment
  let t2 : ℕ ← Act.read fun self => self._num_part
  Act.write fun self => { self with _revive_count_left := some (t1 * (t2 : ℤ)) }
  pure ()

/-- `CoexistingPhasesFinder.reinitialize_constraint` (`flory/mcmp/finder.py:438-442`). -/
noncomputable def CoexistingPhasesFinder.reinitialize_constraint (other : ℕ → PackedCons M → PackedCons M) :
    Act (FinderObj G M) Unit := do
  let t1 : List (PackedCons M) ← Act.read fun self => self._constraints
  let t2 : List (PackedCons M) ← Act.mapEach t1 fun cons => do
    let t3 : ℕ ← Act.read fun self => self._num_part
    pure (PackedCons.initialize other t3 cons)
  Act.write fun self => { self with _constraints := some t2 }
  pure ()

/-- `CoexistingPhasesFinder.reinitialize_random` (`flory/mcmp/finder.py:444-456`). -/
noncomputable def CoexistingPhasesFinder.reinitialize_random (gen : Rng G ℝ)
    (other : ℕ → PackedCons M → PackedCons M) :
    Act (FinderObj G M) Unit := do
  let t1 : G ← Act.read fun self => self._rng
  let t2 : ℝ ← Act.read fun self => self._random_std
  let t3 : ℕ ← Act.read fun self => self._num_feat
  let t4 : ℕ ← Act.read fun self => self._num_part
  let t5 : NDArr ℝ × G ← Act.lift (rngNormal gen 0 t2 t3 t4 t1)
  Act.write fun self => { self with _rng := some t5.2 }
  Act.write fun self => { self with _omegas := some t5.1 }
  let t6 : ℕ ← Act.read fun self => self._num_part
  Act.write fun self => { self with _Js := some (NDArr.full [t6] 1) }
  CoexistingPhasesFinder.reset_revive
  CoexistingPhasesFinder.reinitialize_constraint other
  pure ()

/-- `CoexistingPhasesFinder.reinitialize_from_omegas` (`flory/mcmp/finder.py:458-469`). -/
noncomputable def CoexistingPhasesFinder.reinitialize_from_omegas
    (other : ℕ → PackedCons M → PackedCons M) (omegas : NDArr ℝ) :
    Act (FinderObj G M) Unit := do
  let t1 : NDArr ℝ ← CoexistingPhasesFinder.check_field omegas
  Act.write fun self => { self with _omegas := some t1 }
  let t2 : NDArr ℝ ← Act.read fun self => self._Js
  Act.write fun self => { self with _Js := some (NDArr.full t2.shape 1) }
  CoexistingPhasesFinder.reset_revive
  CoexistingPhasesFinder.reinitialize_constraint other
  pure ()

/-- `CoexistingPhasesFinder.reinitialize_from_phis` (`flory/mcmp/finder.py:471-488`). -/
noncomputable def CoexistingPhasesFinder.reinitialize_from_phis (other : ℕ → PackedCons M → PackedCons M)
    (phis : NDArr ℝ) :
    Act (FinderObj G M) Unit := do
  let t1 : NDArr ℝ ← CoexistingPhasesFinder.check_field phis
  let phis : NDArr ℝ := t1
  let t2 : AnyInteraction ← Act.read fun self => self._interaction
  let t3 : NDArr ℝ ← Act.lift (potentialND t2 phis)
  Act.write fun self => { self with _omegas := some t3 }
  let t4 : NDArr ℝ ← Act.read fun self => self._Js
  Act.write fun self => { self with _Js := some (NDArr.full t4.shape 1) }
  CoexistingPhasesFinder.reset_revive
  CoexistingPhasesFinder.reinitialize_constraint other
  pure ()

/-- `CoexistingPhasesFinder.set_interaction` (`flory/mcmp/finder.py:311-332`). -/
noncomputable def CoexistingPhasesFinder.set_interaction (interaction : InstObj AnyInteraction)
    (if_reset_revive : Bool) (kwargs : Dict ℝ) :
    Act (FinderObj G M) Unit := do
  let t1 : Dict ℝ ← Act.read fun self => self._kwargs_for_instances
  let t2 : AnyInteraction ← Act.lift (InteractionBase.compiled interaction (t1.merge kwargs))
  Act.write fun self => { self with _interaction := some t2 }
  let t3 : AnyInteraction ← Act.read fun self => self._interaction
  CoexistingPhasesFinder.check_instance (interactionAttrs t3)
  let _ : Unit ← (
    if if_reset_revive then do
      CoexistingPhasesFinder.reset_revive
      pure ()
    else do
      pure ())
  pure ()

/-- Defaults of `if_reset_revive` (`flory/mcmp/finder.py:311-332`). -/
def CoexistingPhasesFinder.set_interaction_defaults : Bool := (true)

/-- `CoexistingPhasesFinder.set_entropy` (`flory/mcmp/finder.py:334-354`). -/
noncomputable def CoexistingPhasesFinder.set_entropy (entropy : InstObj AnyEntropy)
    (if_reset_revive : Bool) (kwargs : Dict ℝ) :
    Act (FinderObj G M) Unit := do
  let t1 : Dict ℝ ← Act.read fun self => self._kwargs_for_instances
  let t2 : AnyEntropy ← Act.lift (EntropyBase.compiled entropy (t1.merge kwargs))
  Act.write fun self => { self with _entropy := some t2 }
  let t3 : AnyEntropy ← Act.read fun self => self._entropy
  CoexistingPhasesFinder.check_instance (entropyAttrs t3)
  let _ : Unit ← (
    if if_reset_revive then do
      CoexistingPhasesFinder.reset_revive
      pure ()
    else do
      pure ())
  pure ()

/-- Defaults of `if_reset_revive` (`flory/mcmp/finder.py:334-354`). -/
def CoexistingPhasesFinder.set_entropy_defaults : Bool := (true)

/-- `CoexistingPhasesFinder.set_ensemble` (`flory/mcmp/finder.py:356-376`). -/
noncomputable def CoexistingPhasesFinder.set_ensemble (ensemble : InstObj AnyEnsemble)
    (if_reset_revive : Bool) (kwargs : Dict ℝ) :
    Act (FinderObj G M) Unit := do
  let t1 : Dict ℝ ← Act.read fun self => self._kwargs_for_instances
  let t2 : AnyEnsemble ← Act.lift (EnsembleBase.compiled ensemble (t1.merge kwargs))
  Act.write fun self => { self with _ensemble := some t2 }
  let t3 : AnyEnsemble ← Act.read fun self => self._ensemble
  CoexistingPhasesFinder.check_instance (ensembleAttrs t3)
  let _ : Unit ← (
    if if_reset_revive then do
      CoexistingPhasesFinder.reset_revive
      pure ()
    else do
      pure ())
  pure ()

/-- Defaults of `if_reset_revive` (`flory/mcmp/finder.py:356-376`). -/
def CoexistingPhasesFinder.set_ensemble_defaults : Bool := (true)

/-- `CoexistingPhasesFinder.set_constraints` (`flory/mcmp/finder.py:378-431`). -/
noncomputable def CoexistingPhasesFinder.set_constraints (other : ℕ → PackedCons M → PackedCons M)
    (constraints : ConsArg) (if_reset_revive : Bool) (kwargs_individual : IndArg) (kwargs : Dict ℝ) :
    Act (FinderObj G M) Unit := do
  Act.write fun self => { self with _constraints := some [] }
  let _ : Unit ← (
    if constraints.truthy then do
      let _ : Unit ← (match constraints.asBase with
        | some value => do
          let kwargs_individual : IndArg := if kwargs_individual.isNone then IndArg.dict [] else kwargs_individual
          let t1 : List (PackedCons M) ← Act.read fun self => self._constraints
          let t2 : Dict ℝ ← Act.read fun self => self._kwargs_for_instances
          let t3 : Dict ℝ ← Act.lift kwargs_individual.mapping
          let t4 : AnyConsNew ← Act.lift (ConstraintBase.compiled value ((t2.merge kwargs).merge t3))
          Act.write fun self => { self with _constraints := some (t1 ++ [PackedCons.ofNew t4]) }
          pure ()
        | none => do
          let _ : Unit ← (match constraints.asIterable with
            | some value => do
              let kwargs_individual : IndArg := if kwargs_individual.isNone then IndArg.dicts (List.replicate value.length []) else kwargs_individual
              let t5 : List (Option (Dict ℝ)) ← Act.lift kwargs_individual.items
              Act.forEach (value.zip t5) fun pair => do
                let t6 : List (PackedCons M) ← Act.read fun self => self._constraints
                let t7 : Dict ℝ ← Act.read fun self => self._kwargs_for_instances
                let t8 : Dict ℝ ← Act.lift (itemMapping pair.2)
                let t9 : AnyConsNew ← Act.lift (ConstraintBase.compiled pair.1 ((t7.merge kwargs).merge t8))
                Act.write fun self => { self with _constraints := some (t6 ++ [PackedCons.ofNew t9]) }
                pure ()
              pure ()
            | none => do
              pure ())
          pure ())
      pure ()
    else do
      let t10 : List (PackedCons M) ← Act.read fun self => self._constraints
      let t11 : ℕ ← Act.read fun self => self._num_feat
      Act.write fun self => { self with _constraints := some (t10 ++ [PackedCons.ofNew ⟨t11, ConsNew.no⟩]) }
      pure ())
  let t12 : List (PackedCons M) ← Act.read fun self => self._constraints
  Act.forEach t12 fun cons => do
    CoexistingPhasesFinder.check_instance (constraintAttrs cons)
    pure ()
  CoexistingPhasesFinder.reinitialize_constraint other
  let _ : Unit ← (
    if if_reset_revive then do
      CoexistingPhasesFinder.reset_revive
      pure ()
    else do
      pure ())
  pure ()

/-- Defaults of `constraints`, `if_reset_revive`, `kwargs_individual` (`flory/mcmp/finder.py:378-431`). -/
def CoexistingPhasesFinder.set_constraints_defaults : ConsArg × Bool × IndArg := (.none, true, .none)

/-- `CoexistingPhasesFinder.__init__` (`flory/mcmp/finder.py:64-239`). -/
noncomputable def CoexistingPhasesFinder.init (gen : Rng G ℝ) (newGen : ℤ → G) (now : ℤ)
    (other : ℕ → PackedCons M → PackedCons M) (interaction : InstObj AnyInteraction)
    (entropy : InstObj AnyEntropy) (ensemble : InstObj AnyEnsemble) (constraints : ConsArg)
    (args : InitArgs G) (kwargs : Dict ℝ) :
    Act (FinderObj G M) Unit := do
  let num_part : Option ℕ := args.num_part
  let rng : Option G := args.rng
  let max_steps : ℚ := args.max_steps
  let convergence_criterion : String := args.convergence_criterion
  let tolerance : ℝ := args.tolerance
  let interval : ℤ := args.interval
  let progress : Bool := args.progress
  let random_std : ℝ := args.random_std
  let acceptance_Js : ℝ := args.acceptance_Js
  let acceptance_omega : ℝ := args.acceptance_omega
  let Js_step_upper_bound : ℝ := args.Js_step_upper_bound
  let kill_threshold : ℝ := args.kill_threshold
  let revive_scaler : ℝ := args.revive_scaler
  let max_revive_per_compartment : ℤ := args.max_revive_per_compartment
  let t1 : AnyInteraction ← Act.lift (InteractionBase.compiled interaction kwargs)
  Act.write fun self => { self with _interaction := some t1 }
  let t2 : AnyEntropy ← Act.lift (EntropyBase.compiled entropy kwargs)
  Act.write fun self => { self with _entropy := some t2 }
  let t3 : AnyEnsemble ← Act.lift (EnsembleBase.compiled ensemble kwargs)
  Act.write fun self => { self with _ensemble := some t3 }
  let t4 : AnyEntropy ← Act.read fun self => self._entropy
  let t5 : InstAttrs := entropyAttrs t4
  let t6 : ℕ ← Act.read fun _ => t5.num_comp
  Act.write fun self => { self with _num_comp := some t6 }
  let t7 : AnyEntropy ← Act.read fun self => self._entropy
  let t8 : InstAttrs := entropyAttrs t7
  let t9 : ℕ ← Act.read fun _ => t8.num_feat
  Act.write fun self => { self with _num_feat := some t9 }
  let t11 : ℕ ← (if num_part.getD 0 ≠ 0 then pure (num_part.getD 0) else do
    let t10 : ℕ ← Act.read fun self => self._num_comp
    pure (t10 * 8))
  Act.write fun self => { self with _num_part := some t11 }
  Act.write fun self => { self with _constraints := some [] }
  let _ : Unit ← (
    if constraints.truthy then do
      let _ : Unit ← (match constraints.asBase with
        | some value => do
          let t12 : List (PackedCons M) ← Act.read fun self => self._constraints
          let t13 : AnyConsNew ← Act.lift (ConstraintBase.compiled value kwargs)
          Act.write fun self => { self with _constraints := some (t12 ++ [PackedCons.ofNew t13]) }
          pure ()
        | none => do
          let _ : Unit ← (match constraints.asIterable with
            | some value => do
              Act.forEach value fun cons => do
                let t14 : List (PackedCons M) ← Act.read fun self => self._constraints
                let t15 : AnyConsNew ← Act.lift (ConstraintBase.compiled cons kwargs)
                Act.write fun self => { self with _constraints := some (t14 ++ [PackedCons.ofNew t15]) }
                pure ()
              pure ()
            | none => do
              pure ())
          pure ())
      pure ()
    else do
      let t16 : List (PackedCons M) ← Act.read fun self => self._constraints
      let t17 : ℕ ← Act.read fun self => self._num_feat
      Act.write fun self => { self with _constraints := some (t16 ++ [PackedCons.ofNew ⟨t17, ConsNew.no⟩]) }
      pure ())
  let t18 : AnyInteraction ← Act.read fun self => self._interaction
  CoexistingPhasesFinder.check_instance (interactionAttrs t18)
  let t19 : AnyEntropy ← Act.read fun self => self._entropy
  CoexistingPhasesFinder.check_instance (entropyAttrs t19)
  let t20 : AnyEnsemble ← Act.read fun self => self._ensemble
  CoexistingPhasesFinder.check_instance (ensembleAttrs t20)
  let t21 : List (PackedCons M) ← Act.read fun self => self._constraints
  Act.forEach t21 fun cons => do
    CoexistingPhasesFinder.check_instance (constraintAttrs cons)
    pure ()
  let _ : Unit ← (match rng with
    | none => do
      Act.write fun self => { self with _rng_is_external := some false }
      Act.write fun self => { self with _rng_seed := some now }
      let t22 : ℤ ← Act.read fun self => self._rng_seed
      Act.write fun self => { self with _rng := some (newGen t22) }
      pure ()
    | some rng => do
      Act.write fun self => { self with _rng_is_external := some true }
      Act.write fun self => { self with _rng_seed := some 0 }
      Act.write fun self => { self with _rng := some rng }
      pure ())
  Act.write fun self => { self with _max_steps := some max_steps }
  Act.write fun self => { self with _convergence_criterion := some convergence_criterion }
  Act.write fun self => { self with _tolerance := some tolerance }
  Act.write fun self => { self with _interval := some interval }
  Act.write fun self => { self with _progress := some progress }
  Act.write fun self => { self with _random_std := some random_std }
  Act.write fun self => { self with _acceptance_Js := some acceptance_Js }
  Act.write fun self => { self with _acceptance_omega := some acceptance_omega }
  Act.write fun self => { self with _Js_step_upper_bound := some Js_step_upper_bound }
  Act.write fun self => { self with _kill_threshold := some kill_threshold }
  Act.write fun self => { self with _revive_scaler := some revive_scaler }
  Act.write fun self => { self with _max_revive_per_compartment := some max_revive_per_compartment }
  Act.write fun self => { self with _diagnostics := some none }
  let t23 : ℕ ← Act.read fun self => self._num_part
  Act.write fun self => { self with _Js := some (NDArr.full [t23] 0) }
  let t24 : ℕ ← Act.read fun self => self._num_feat
  let t25 : ℕ ← Act.read fun self => self._num_part
  Act.write fun self => { self with _omegas := some (NDArr.full [t24, t25] 0) }
  let t26 : ℕ ← Act.read fun self => self._num_feat
  let t27 : ℕ ← Act.read fun self => self._num_part
  Act.write fun self => { self with _phis_feat := some (NDArr.full [t26, t27] 0) }
  let t28 : ℕ ← Act.read fun self => self._num_comp
  let t29 : ℕ ← Act.read fun self => self._num_part
  Act.write fun self => { self with _phis_comp := some (NDArr.full [t28, t29] 0) }
  let t30 : ℤ ← Act.read fun self => self._max_revive_per_compartment
  let t31 : ℕ ← Act.read fun self => self._num_part
  Act.write fun self => { self with _revive_count_left := some (t30 * (t31 : ℤ)) }
  Act.write fun self => { self with _kwargs_for_instances := some kwargs }
  CoexistingPhasesFinder.reinitialize_random gen other
  pure ()

end Flory.Gen
