import Verif.Model.FinderAttrs
import Verif.Gen.FinderImpl

/-!
# Transcription of `flory/mcmp/finder.py`

Written by `tools/transcribe.py`; do not edit.
-/

set_option linter.unusedVariables false
set_option linter.unusedSectionVars false

namespace Flory.Gen

variable {G : Type} {C S M : ℕ} [NeZero M]

/-- `CoexistingPhasesFinder.check_field` (`flory/mcmp/finder.py:286-309`, code from line 301). -/
noncomputable def Finder.check_field (self : FinderAttrs C S M) (field : NDArr ℝ) :
    Py (NDArr ℝ) := do
  let field : NDArr ℝ := field
  let _ ← if field.shape ≠ [S, M] then Except.error .valueError else Except.ok ()
  pure field

/-- `CoexistingPhasesFinder.reset_revive` (`flory/mcmp/finder.py:433-436`, code from line 436). -/
noncomputable def Finder.reset_revive (self : FinderAttrs C S M) :
    FinderAttrs C S M :=
  let self_max_revive_per_compartment : ℤ := self.maxRevive
  let self_revive_count_left : ℤ := self.reviveLeft
  let self_revive_count_left : ℤ := self_max_revive_per_compartment * ((M : ℕ) : ℤ)
  { self with reviveLeft := self_revive_count_left }

/-- `CoexistingPhasesFinder.reinitialize_constraint` (`flory/mcmp/finder.py:438-442`, code from line 441). -/
noncomputable def Finder.reinitialize_constraint (self : FinderAttrs C S M) :
    FinderAttrs C S M :=
  let self_constraints : List (Cons S M ℝ) := self.constraints
  let self_constraints : List (Cons S M ℝ) :=
    mapList self_constraints fun cons =>
      let t2 := Cons.reset cons
      let cons : Cons S M ℝ := t2
      cons
  { self with constraints := self_constraints }

/-- `CoexistingPhasesFinder.reinitialize_random` (`flory/mcmp/finder.py:444-456`, code from line 449). -/
noncomputable def Finder.reinitialize_random (self : FinderAttrs C S M) (rng : Rng G ℝ) (g : G) :
    Py (FinderAttrs C S M × G) := do
  let self_constraints : List (Cons S M ℝ) := self.constraints
  let self_random_std : ℝ := self.randomStd
  let self_omegas : Mat S M ℝ := self.omegas
  let self_Js : Vec M ℝ := self.Js
  let self_revive_count_left : ℤ := self.reviveLeft
  let d1 ← drawNormalPy rng self_random_std S M g
  let g := d1.2
  let self_omegas : Mat S M ℝ := d1.1
  let self_Js : Vec M ℝ := fun i2 => 1
  let t3 := Finder.reset_revive ({ self with omegas := self_omegas, Js := self_Js })
  let self_revive_count_left : ℤ := t3.reviveLeft
  let t4 :=
    Finder.reinitialize_constraint ({ self with omegas := self_omegas, Js := self_Js, reviveLeft := self_revive_count_left })
  let self_constraints : List (Cons S M ℝ) := t4.constraints
  pure ({ self with constraints := self_constraints, omegas := self_omegas, Js := self_Js, reviveLeft := self_revive_count_left }, g)

/-- `CoexistingPhasesFinder.reinitialize_from_omegas` (`flory/mcmp/finder.py:458-469`, code from line 466). -/
noncomputable def Finder.reinitialize_from_omegas (self : FinderAttrs C S M) (omegas : NDArr ℝ) :
    Py (FinderAttrs C S M) := do
  let self_constraints : List (Cons S M ℝ) := self.constraints
  let self_omegas : Mat S M ℝ := self.omegas
  let self_Js : Vec M ℝ := self.Js
  let self_revive_count_left : ℤ := self.reviveLeft
  let t1 ← Finder.check_field self omegas
  let self_omegas : Mat S M ℝ := t1.toMat S M
  let self_Js : Vec M ℝ := fun i2 => 1
  let t3 := Finder.reset_revive ({ self with omegas := self_omegas, Js := self_Js })
  let self_revive_count_left : ℤ := t3.reviveLeft
  let t4 :=
    Finder.reinitialize_constraint ({ self with omegas := self_omegas, Js := self_Js, reviveLeft := self_revive_count_left })
  let self_constraints : List (Cons S M ℝ) := t4.constraints
  pure ({ self with constraints := self_constraints, omegas := self_omegas, Js := self_Js, reviveLeft := self_revive_count_left })

/-- `CoexistingPhasesFinder.reinitialize_from_phis` (`flory/mcmp/finder.py:471-488`, code from line 484). -/
noncomputable def Finder.reinitialize_from_phis (self : FinderAttrs C S M) (phis : NDArr ℝ) :
    Py (FinderAttrs C S M) := do
  let self_interaction : InteractionI S M ℝ := self.interaction
  let self_constraints : List (Cons S M ℝ) := self.constraints
  let self_omegas : Mat S M ℝ := self.omegas
  let self_Js : Vec M ℝ := self.Js
  let self_revive_count_left : ℤ := self.reviveLeft
  let t1 ← Finder.check_field self phis
  let phis : NDArr ℝ := t1
  let t2 : Mat S M ℝ := self_interaction.potential (phis.toMat S M)
  let self_omegas : Mat S M ℝ := t2
  let self_Js : Vec M ℝ := fun i3 => 1
  let t4 := Finder.reset_revive ({ self with omegas := self_omegas, Js := self_Js })
  let self_revive_count_left : ℤ := t4.reviveLeft
  let t5 :=
    Finder.reinitialize_constraint ({ self with omegas := self_omegas, Js := self_Js, reviveLeft := self_revive_count_left })
  let self_constraints : List (Cons S M ℝ) := t5.constraints
  pure ({ self with constraints := self_constraints, omegas := self_omegas, Js := self_Js, reviveLeft := self_revive_count_left })

/-- `CoexistingPhasesFinder.run` (`flory/mcmp/finder.py:510-686`, code from line 547). -/
noncomputable def Finder.run (self : FinderAttrs C S M) (max_steps : Option ℚ)
    (tolerance : Option ℝ) (interval : Option ℤ) (rng : Rng G ℝ) (g : G) :
    Py (Phases M C ℝ × FinderAttrs C S M × G) := do
  let self_interaction : InteractionI S M ℝ := self.interaction
  let self_entropy : EntropyI C S M ℝ := self.entropy
  let self_ensemble : EnsembleI C M ℝ := self.ensemble
  let self_constraints : List (Cons S M ℝ) := self.constraints
  let self_max_steps : ℚ := self.maxSteps
  let self_convergence_criterion : String := self.criterion
  let self_tolerance : ℝ := self.tolerance
  let self_interval : ℤ := self.interval
  let self_acceptance_Js : ℝ := self.params.acceptanceJs
  let self_acceptance_omega : ℝ := self.params.acceptanceOmega
  let self_Js_step_upper_bound : ℝ := self.params.JsStepUpperBound
  let self_kill_threshold : ℝ := self.params.killThreshold
  let self_revive_scaler : ℝ := self.params.reviveScaler
  let self_diagnostics : Option DiagDict := self.diagnostics
  let self_omegas : Mat S M ℝ := self.omegas
  let self_Js : Vec M ℝ := self.Js
  let self_phis_feat : Mat S M ℝ := self.phisFeat
  let self_phis_comp : Mat C M ℝ := self.phisComp
  let self_revive_count_left : ℤ := self.reviveLeft
  let max_steps : ℚ := max_steps.getD self_max_steps
  let tolerance : ℝ := tolerance.getD self_tolerance
  let interval : ℤ := interval.getD self_interval
  let t1 : ℚ ← pyDiv max_steps ((interval : ℤ) : ℚ)
  let steps_tracker : ℤ := ⌈t1⌉
  let t2 : ℤ ← pyFloorDiv (⌈max_steps⌉) steps_tracker
  let steps_inner : ℤ := max 1 t2
  let steps : ℤ := 0
  let s5 ←
    forBreakM (steps_tracker).toNat (self_omegas, self_Js, self_phis_comp, self_phis_feat, self_constraints, g, steps, self_revive_count_left, (none : Option ℝ), (none : Option ℝ), (none : Option ℝ), (none : Option ℝ)) fun s3 => do
      let self_omegas : Mat S M ℝ := s3.1
      let self_Js : Vec M ℝ := s3.2.1
      let self_phis_comp : Mat C M ℝ := s3.2.2.1
      let self_phis_feat : Mat S M ℝ := s3.2.2.2.1
      let self_constraints : List (Cons S M ℝ) := s3.2.2.2.2.1
      let g := s3.2.2.2.2.2.1
      let steps : ℤ := s3.2.2.2.2.2.2.1
      let self_revive_count_left : ℤ := s3.2.2.2.2.2.2.2.1
      let t4 ←
        multicomponent_self_consistent_metastep self_interaction self_entropy self_ensemble self_constraints self_omegas self_Js self_phis_comp self_phis_feat steps_inner self_acceptance_Js self_Js_step_upper_bound self_acceptance_omega self_kill_threshold self_revive_count_left self_revive_scaler rng g
      let self_omegas : Mat S M ℝ := t4.2.1
      let self_Js : Vec M ℝ := t4.2.2.1
      let self_phis_comp : Mat C M ℝ := t4.2.2.2.1
      let self_phis_feat : Mat S M ℝ := t4.2.2.2.2.1
      let self_constraints : List (Cons S M ℝ) := t4.2.2.2.2.2.1
      let g := t4.2.2.2.2.2.2
      let max_abs_incomp : ℝ := t4.1.1
      let max_abs_omega_diff : ℝ := t4.1.2.1
      let max_abs_Js_diff : ℝ := t4.1.2.2.1
      let max_constraint_residue : ℝ := t4.1.2.2.2.1
      let revive_count : ℤ := t4.1.2.2.2.2.1
      let is_last_step_safe : Bool := t4.1.2.2.2.2.2
      let steps : ℤ := steps + steps_inner
      let self_revive_count_left : ℤ := self_revive_count_left - revive_count
      if self_convergence_criterion = "standard" then do
        if is_last_step_safe ∧ tolerance > max_abs_incomp ∧ tolerance > max_abs_omega_diff ∧ tolerance > max_abs_Js_diff ∧ tolerance > max_constraint_residue then do
          pure ((self_omegas, self_Js, self_phis_comp, self_phis_feat, self_constraints, g, steps, self_revive_count_left, some max_abs_incomp, some max_abs_omega_diff, some max_abs_Js_diff, some max_constraint_residue), true)
        else do
          pure ((self_omegas, self_Js, self_phis_comp, self_phis_feat, self_constraints, g, steps, self_revive_count_left, some max_abs_incomp, some max_abs_omega_diff, some max_abs_Js_diff, some max_constraint_residue), false)
      else do
        Except.error .valueError
  let self_omegas : Mat S M ℝ := s5.1
  let self_Js : Vec M ℝ := s5.2.1
  let self_phis_comp : Mat C M ℝ := s5.2.2.1
  let self_phis_feat : Mat S M ℝ := s5.2.2.2.1
  let self_constraints : List (Cons S M ℝ) := s5.2.2.2.2.1
  let g := s5.2.2.2.2.2.1
  let steps : ℤ := s5.2.2.2.2.2.2.1
  let self_revive_count_left : ℤ := s5.2.2.2.2.2.2.2.1
  let max_abs_incomp : Option ℝ := s5.2.2.2.2.2.2.2.2.1
  let max_abs_omega_diff : Option ℝ := s5.2.2.2.2.2.2.2.2.2.1
  let max_abs_Js_diff : Option ℝ := s5.2.2.2.2.2.2.2.2.2.2.1
  let max_constraint_residue : Option ℝ := s5.2.2.2.2.2.2.2.2.2.2.2
  let final_Js : Vec M ℝ := self_Js
  let final_phis_comp : Mat C M ℝ := self_phis_comp
  let t6 ← revive_compartments_by_copy final_Js final_phis_comp self_kill_threshold rng g
  let final_Js : Vec M ℝ := t6.2.1
  let final_phis_comp : Mat C M ℝ := t6.2.2.1
  let g := t6.2.2.2
  let max_abs_incomp : ℝ ← boundVar max_abs_incomp
  let max_abs_omega_diff : ℝ ← boundVar max_abs_omega_diff
  let max_abs_Js_diff : ℝ ← boundVar max_abs_Js_diff
  let max_constraint_residue : ℝ ← boundVar max_constraint_residue
  let t7 : Option DiagDict :=
    some { steps := steps, maxAbsIncomp := max_abs_incomp, maxAbsOmegaDiff := max_abs_omega_diff, maxAbsJsDiff := max_abs_Js_diff, maxConstraintResidue := max_constraint_residue, reviveCountLeft := self_revive_count_left }
  let self_diagnostics : Option DiagDict := t7
  pure (⟨final_Js, fun i8 i9 => (final_phis_comp i9 i8)⟩, { self with constraints := self_constraints, diagnostics := self_diagnostics, omegas := self_omegas, Js := self_Js, phisFeat := self_phis_feat, phisComp := self_phis_comp, reviveLeft := self_revive_count_left }, g)

end Flory.Gen
