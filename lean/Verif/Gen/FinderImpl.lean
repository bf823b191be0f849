import Verif.Model.FinderImpl
import Verif.Model.Transcript

/-!
# Transcription of `flory/mcmp/_finder_impl.py`

Written by `tools/transcribe.py`; do not edit.
-/

set_option linter.unusedVariables false
set_option linter.unusedSectionVars false

namespace Flory.Gen

variable {K G : Type} [Field K] [LinearOrder K] [FloorRing K] {C S M : ℕ} [NeZero M]

/-- `count_valid_compartments` (`flory/mcmp/_finder_impl.py:30-46`, code from line 46). -/
def count_valid_compartments (Js : Vec M K) (threshold : K) :
    ℤ :=
  (∑ i1, if (Js i1) > threshold then 1 else 0)

/-- `make_valid_compartment_masks` (`flory/mcmp/_finder_impl.py:50-69`, code from line 69). -/
def make_valid_compartment_masks (Js : Vec M K) (threshold : K) :
    Vec M K :=
  fun i1 => (npClipMin 0 (npSign ((Js i1) - threshold)))

/-- `revive_compartments_by_random` (`flory/mcmp/_finder_impl.py:73-133`, code from line 112). -/
def revive_compartments_by_random (Js : Vec M K) (targets : Mat S M K) (threshold : K)
    (rng : Rng G K) (scaler : K) (g : G) :
    ℤ × Vec M K × Mat S M K × G :=
  let revive_count : ℤ := 0
  let target_centers : Vec S K := fun i1 => 0
  let omega_widths : Vec S K := fun i2 => 0
  let s6 :=
    forRange S (target_centers, omega_widths) fun itr_component s3 =>
      let target_centers : Vec S K := s3.1
      let omega_widths : Vec S K := s3.2
      let current_target_max : K := npMax fun i4 => (targets itr_component i4)
      let current_target_min : K := npMin fun i5 => (targets itr_component i5)
      let target_centers : Vec S K :=
        setAt target_centers itr_component ((current_target_max + current_target_min) * (1 / 2))
      let omega_widths : Vec S K :=
        setAt omega_widths itr_component ((current_target_max - current_target_min) * (1 / 2))
      (target_centers, omega_widths)
  let target_centers : Vec S K := s6.1
  let omega_widths : Vec S K := s6.2
  let s12 :=
    forRange M (Js, revive_count, g, targets) fun itr_compartment s7 =>
      let Js : Vec M K := s7.1
      let revive_count : ℤ := s7.2.1
      let g := s7.2.2.1
      let targets : Mat S M K := s7.2.2.2
      let s11 :=
        if (Js itr_compartment) ≤ threshold then
          let Js : Vec M K := setAt Js itr_compartment 1
          let revive_count : ℤ := revive_count + 1
          let s10 :=
            forRange S (g, targets) fun itr_component s8 =>
              let g := s8.1
              let targets : Mat S M K := s8.2
              let d9 := rng.uniform g
              let g := d9.2
              let targets : Mat S M K :=
                setAt2 targets itr_component itr_compartment ((target_centers itr_component) + (((omega_widths itr_component) * scaler) * d9.1))
              (g, targets)
          let g := s10.1
          let targets : Mat S M K := s10.2
          (Js, revive_count, g, targets)
        else
          (Js, revive_count, g, targets)
      let Js : Vec M K := s11.1
      let revive_count : ℤ := s11.2.1
      let g := s11.2.2.1
      let targets : Mat S M K := s11.2.2.2
      (Js, revive_count, g, targets)
  let Js : Vec M K := s12.1
  let revive_count : ℤ := s12.2.1
  let g := s12.2.2.1
  let targets : Mat S M K := s12.2.2.2
  (revive_count, Js, targets, g)

/-- `revive_compartments_by_copy` (`flory/mcmp/_finder_impl.py:137-206`, code from line 173). -/
noncomputable def revive_compartments_by_copy (Js : Vec M K) (targets : Mat S M K) (threshold : K)
    (rng : Rng G K) (g : G) :
    Py (ℤ × Vec M K × Mat S M K × G) := do
  let revive_count : ℤ := 0
  let dead_indexes : Vec M ℤ := fun i1 => (-1)
  let dead_count : ℤ := 0
  let living_nicely_indexes : Vec M ℤ := fun i2 => (-1)
  let living_nicely_count : ℤ := 0
  let s6 ←
    forRangeM M (living_nicely_indexes, living_nicely_count, dead_indexes, dead_count) fun itr_compartment s3 => do
      let living_nicely_indexes : Vec M ℤ := s3.1
      let living_nicely_count : ℤ := s3.2.1
      let dead_indexes : Vec M ℤ := s3.2.2.1
      let dead_count : ℤ := s3.2.2.2
      let s5 ←
        if (Js itr_compartment) > (2 * threshold) then do
          let living_nicely_indexes : Vec M ℤ ←
            writeInt living_nicely_indexes living_nicely_count ((itr_compartment : ℕ) : ℤ)
          let living_nicely_count : ℤ := living_nicely_count + 1
          pure (living_nicely_indexes, living_nicely_count, dead_indexes, dead_count)
        else do
          let s4 ←
            if (Js itr_compartment) ≤ threshold then do
              let dead_indexes : Vec M ℤ ← writeInt dead_indexes dead_count ((itr_compartment : ℕ) : ℤ)
              let dead_count : ℤ := dead_count + 1
              pure (dead_indexes, dead_count)
            else do
              pure (dead_indexes, dead_count)
          let dead_indexes : Vec M ℤ := s4.1
          let dead_count : ℤ := s4.2
          pure (living_nicely_indexes, living_nicely_count, dead_indexes, dead_count)
      let living_nicely_indexes : Vec M ℤ := s5.1
      let living_nicely_count : ℤ := s5.2.1
      let dead_indexes : Vec M ℤ := s5.2.2.1
      let dead_count : ℤ := s5.2.2.2
      pure (living_nicely_indexes, living_nicely_count, dead_indexes, dead_count)
  let living_nicely_indexes : Vec M ℤ := s6.1
  let living_nicely_count : ℤ := s6.2.1
  let dead_indexes : Vec M ℤ := s6.2.2.1
  let dead_count : ℤ := s6.2.2.2
  let s19 ←
    forListM (takeInt dead_indexes dead_count) (g, targets, Js, living_nicely_indexes, living_nicely_count, revive_count) fun itr_dead s7 => do
      let g := s7.1
      let targets : Mat S M K := s7.2.1
      let Js : Vec M K := s7.2.2.1
      let living_nicely_indexes : Vec M ℤ := s7.2.2.2.1
      let living_nicely_count : ℤ := s7.2.2.2.2.1
      let revive_count : ℤ := s7.2.2.2.2.2
      let s18 ←
        whileTrue (g, targets, Js, living_nicely_indexes, living_nicely_count, revive_count) fun s8 => do
          let g := s8.1
          let targets : Mat S M K := s8.2.1
          let Js : Vec M K := s8.2.2.1
          let living_nicely_indexes : Vec M ℤ := s8.2.2.2.1
          let living_nicely_count : ℤ := s8.2.2.2.2.1
          let revive_count : ℤ := s8.2.2.2.2.2
          let d9 ← integersInt rng g living_nicely_count
          let g := d9.2
          let pos_in_living : ℤ := d9.1
          let t10 : ℤ ← readInt living_nicely_indexes pos_in_living
          let ref_index : ℤ := t10
          let t11 : K ← readInt Js ref_index
          if t11 > (2 * threshold) then do
            let t12 : Vec S K ← readInt (fun i13 i14 => (targets i14 i13)) ref_index
            let targets : Mat S M K ← writeCol targets itr_dead (fun i15 => (t12 i15))
            let t16 : K ← readInt Js ref_index
            let new_J : K := (1 / 2) * t16
            let Js : Vec M K ← writeInt Js itr_dead new_J
            let Js : Vec M K ← writeInt Js ref_index new_J
            let living_nicely_indexes : Vec M ℤ ←
              writeInt living_nicely_indexes living_nicely_count itr_dead
            let living_nicely_count : ℤ := living_nicely_count + 1
            let revive_count : ℤ := revive_count + 1
            pure ((g, targets, Js, living_nicely_indexes, living_nicely_count, revive_count), true)
          else do
            let living_nicely_count : ℤ := living_nicely_count - 1
            let t17 : ℤ ← readInt living_nicely_indexes living_nicely_count
            let living_nicely_indexes : Vec M ℤ ← writeInt living_nicely_indexes pos_in_living t17
            let living_nicely_indexes : Vec M ℤ ←
              writeInt living_nicely_indexes living_nicely_count (-1)
            pure ((g, targets, Js, living_nicely_indexes, living_nicely_count, revive_count), false)
      let g := s18.1
      let targets : Mat S M K := s18.2.1
      let Js : Vec M K := s18.2.2.1
      let living_nicely_indexes : Vec M ℤ := s18.2.2.2.1
      let living_nicely_count : ℤ := s18.2.2.2.2.1
      let revive_count : ℤ := s18.2.2.2.2.2
      pure (g, targets, Js, living_nicely_indexes, living_nicely_count, revive_count)
  let g := s19.1
  let targets : Mat S M K := s19.2.1
  let Js : Vec M K := s19.2.2.1
  let revive_count : ℤ := s19.2.2.2.2.2
  pure (revive_count, Js, targets, g)

/-- `multicomponent_self_consistent_metastep` (`flory/mcmp/_finder_impl.py:210-426`, code from line 324). -/
def multicomponent_self_consistent_metastep (interaction : InteractionI S M K)
    (entropy : EntropyI C S M K) (ensemble : EnsembleI C M K) (constraints : List (Cons S M K))
    (omegas : Mat S M K) (Js : Vec M K) (phis_comp : Mat C M K) (phis_feat : Mat S M K)
    (steps_inner : ℤ) (acceptance_Js : K) (Js_step_upper_bound : K) (acceptance_omega : K)
    (kill_threshold : K) (revive_tries : ℤ) (revive_scaler : K) (rng : Rng G K) (g : G) :
    Py ((K × K × K × K × ℤ × Bool) × Mat S M K × Vec M K × Mat C M K × Mat S M K × List (Cons S M K) × G) := do
  let n_valid_phase : ℤ := 0
  let revive_count : ℤ := 0
  let s52 ←
    forRangeM (steps_inner).toNat (n_valid_phase, Js, omegas, g, revive_count, phis_comp, phis_feat, constraints, (none : Option K), (none : Option K), (none : Option K), (none : Option K)) fun _i s1 => do
      let n_valid_phase : ℤ := s1.1
      let Js : Vec M K := s1.2.1
      let omegas : Mat S M K := s1.2.2.1
      let g := s1.2.2.2.1
      let revive_count : ℤ := s1.2.2.2.2.1
      let phis_comp : Mat C M K := s1.2.2.2.2.2.1
      let phis_feat : Mat S M K := s1.2.2.2.2.2.2.1
      let constraints : List (Cons S M K) := s1.2.2.2.2.2.2.2.1
      let s4 :=
        if revive_count < revive_tries then
          let n_valid_phase : ℤ := count_valid_compartments Js kill_threshold
          let s3 :=
            if n_valid_phase ≠ ((M : ℕ) : ℤ) then
              let t2 := revive_compartments_by_random Js omegas kill_threshold rng revive_scaler g
              let Js : Vec M K := t2.2.1
              let omegas : Mat S M K := t2.2.2.1
              let g := t2.2.2.2
              let revive_count : ℤ := revive_count + t2.1
              (Js, omegas, g, revive_count)
            else
              (Js, omegas, g, revive_count)
          let Js : Vec M K := s3.1
          let omegas : Mat S M K := s3.2.1
          let g := s3.2.2.1
          let revive_count : ℤ := s3.2.2.2
          (n_valid_phase, Js, omegas, g, revive_count)
        else
          (n_valid_phase, Js, omegas, g, revive_count)
      let n_valid_phase : ℤ := s4.1
      let Js : Vec M K := s4.2.1
      let omegas : Mat S M K := s4.2.2.1
      let g := s4.2.2.2.1
      let revive_count : ℤ := s4.2.2.2.2
      let t5 : Vec M K := make_valid_compartment_masks Js kill_threshold
      let masks : Vec M K := t5
      let n_valid_phase : ℤ := npInt (∑ i6, (masks i6))
      let Js : Vec M K := fun i7 => ((Js i7) * (masks i7))
      let t8 ← entropy.partition phis_comp omegas Js
      let phis_comp : Mat C M K := t8.1
      let Qs : Vec C K := t8.2
      let t9 ← ensemble.normalize phis_comp Qs masks
      let phis_comp : Mat C M K := t9.1
      let incomp : Vec M K := t9.2
      let t10 ← entropy.compToFeat phis_feat phis_comp
      let phis_feat : Mat S M K := t10
      let max_abs_incomp : K := npMax fun i11 => |(incomp i11)|
      let constraints : List (Cons S M K) :=
        if constraints ≠ [] then
          let constraints : List (Cons S M K) :=
            mapList constraints fun cons =>
              let t13 := Cons.prepare phis_feat Js masks cons
              let cons : Cons S M K := t13
              cons
          constraints
        else
          constraints
      let t14 : Mat S M K := interaction.potential phis_feat
      let omega_temp : Mat S M K := t14
      let xi : Vec M K := fun i15 => ((interaction.incompCoef phis_feat) * (incomp i15))
      let xi : Vec M K :=
        forRange S xi fun itr_feat xi =>
          let xi : Vec M K :=
            fun i16 => ((xi i16) + ((omegas itr_feat i16) - (omega_temp itr_feat i16)))
          xi
      let xi : Vec M K :=
        forList constraints xi fun cons xi =>
          let xi : Vec M K :=
            forRange S xi fun itr_feat xi =>
              let xi : Vec M K := fun i17 => ((xi i17) - (cons.potential itr_feat i17))
              xi
          xi
      let xi : Vec M K := fun i18 => ((xi i18) * (masks i18))
      let xi : Vec M K := fun i19 => ((xi i19) / ((S : ℕ) : K))
      let t20 : Vec M K := interaction.volumeDerivative omega_temp phis_feat
      let t21 : Vec M K := entropy.volumeDerivative phis_comp
      let local_energy : Vec M K :=
        fun i22 => (((t20 i22) + (t21 i22)) + ((xi i22) * (incomp i22)))
      let s27 :=
        forList constraints (local_energy, omega_temp) fun cons s23 =>
          let local_energy : Vec M K := s23.1
          let omega_temp : Mat S M K := s23.2
          let local_energy : Vec M K := fun i24 => ((local_energy i24) + (cons.volumeDerivative i24))
          let omega_temp : Mat S M K :=
            fun i25 i26 => ((omega_temp i25 i26) + (cons.potential i25 i26))
          (local_energy, omega_temp)
      let local_energy : Vec M K := s27.1
      let omega_temp : Mat S M K := s27.2
      let s31 :=
        forRange S (omega_temp, local_energy) fun itr_feat s28 =>
          let omega_temp : Mat S M K := s28.1
          let local_energy : Vec M K := s28.2
          let omega_temp : Mat S M K :=
            setAt omega_temp itr_feat (fun i29 => ((omega_temp itr_feat i29) + (xi i29)))
          let local_energy : Vec M K :=
            fun i30 => ((local_energy i30) - ((omega_temp itr_feat i30) * (phis_feat itr_feat i30)))
          (omega_temp, local_energy)
      let omega_temp : Mat S M K := s31.1
      let local_energy : Vec M K := s31.2
      let t33 : K ← pyDiv (∑ i32, ((local_energy i32) * (Js i32))) ((n_valid_phase : ℤ) : K)
      let local_energy_mean : K := t33
      let Js_diff : Vec M K := fun i34 => ((local_energy_mean - (local_energy i34)) * (masks i34))
      let max_abs_Js_diff : K := npMax fun i35 => |(Js_diff i35)|
      let Js_max_change : K := max (max_abs_Js_diff * acceptance_Js) Js_step_upper_bound
      let t36 : K ← pyDiv Js_step_upper_bound Js_max_change
      let additional_factor : K := t36
      let Js : Vec M K :=
        fun i37 => ((Js i37) + ((additional_factor * acceptance_Js) * (Js_diff i37)))
      let Js : Vec M K := fun i38 => ((Js i38) * (masks i38))
      let t40 : K ← pyDiv (∑ i39, (Js i39)) ((n_valid_phase : ℤ) : K)
      let Js : Vec M K := fun i41 => ((Js i41) + (1 - t40))
      let Js : Vec M K := fun i42 => ((Js i42) * (masks i42))
      let max_abs_omega_diff : K := 0
      let s49 :=
        forRange S (omega_temp, max_abs_omega_diff, omegas) fun itr_comp s43 =>
          let omega_temp : Mat S M K := s43.1
          let max_abs_omega_diff : K := s43.2.1
          let omegas : Mat S M K := s43.2.2
          let omega_temp : Mat S M K :=
            setAt omega_temp itr_comp (fun i44 => ((omega_temp itr_comp i44) - (omegas itr_comp i44)))
          let omega_temp : Mat S M K :=
            setAt omega_temp itr_comp (fun i45 => ((omega_temp itr_comp i45) * (masks i45)))
          let max_abs_omega_diff : K :=
            max max_abs_omega_diff (npMax fun i46 => (omega_temp itr_comp i46))
          let omegas : Mat S M K :=
            setAt omegas itr_comp (fun i47 => ((omegas itr_comp i47) + ((additional_factor * acceptance_omega) * (omega_temp itr_comp i47))))
          let omegas : Mat S M K :=
            setAt omegas itr_comp (fun i48 => ((omegas itr_comp i48) * (masks i48)))
          (omega_temp, max_abs_omega_diff, omegas)
      let omega_temp : Mat S M K := s49.1
      let max_abs_omega_diff : K := s49.2.1
      let omegas : Mat S M K := s49.2.2
      let max_constraint_residue : K := 0
      let s51 ←
        forListUpdM constraints max_constraint_residue fun cons max_constraint_residue => do
          let t50 ← Cons.evolve (additional_factor * acceptance_omega) masks cons
          let cons : Cons S M K := t50.2
          let max_constraint_residue : K := max max_constraint_residue t50.1
          pure (cons, max_constraint_residue)
      let constraints : List (Cons S M K) := s51.1
      let max_constraint_residue : K := s51.2
      pure (n_valid_phase, Js, omegas, g, revive_count, phis_comp, phis_feat, constraints, some max_abs_incomp, some max_abs_Js_diff, some max_abs_omega_diff, some max_constraint_residue)
  let n_valid_phase : ℤ := s52.1
  let Js : Vec M K := s52.2.1
  let omegas : Mat S M K := s52.2.2.1
  let g := s52.2.2.2.1
  let revive_count : ℤ := s52.2.2.2.2.1
  let phis_comp : Mat C M K := s52.2.2.2.2.2.1
  let phis_feat : Mat S M K := s52.2.2.2.2.2.2.1
  let constraints : List (Cons S M K) := s52.2.2.2.2.2.2.2.1
  let max_abs_incomp : Option K := s52.2.2.2.2.2.2.2.2.1
  let max_abs_Js_diff : Option K := s52.2.2.2.2.2.2.2.2.2.1
  let max_abs_omega_diff : Option K := s52.2.2.2.2.2.2.2.2.2.2.1
  let max_constraint_residue : Option K := s52.2.2.2.2.2.2.2.2.2.2.2
  let n_valid_phase_last : ℤ := count_valid_compartments Js kill_threshold
  let max_abs_incomp : K ← boundVar max_abs_incomp
  let max_abs_omega_diff : K ← boundVar max_abs_omega_diff
  let max_abs_Js_diff : K ← boundVar max_abs_Js_diff
  let max_constraint_residue : K ← boundVar max_constraint_residue
  pure ((max_abs_incomp, max_abs_omega_diff, max_abs_Js_diff, max_constraint_residue, revive_count, decide (n_valid_phase = n_valid_phase_last)), omegas, Js, phis_comp, phis_feat, constraints, g)

end Flory.Gen
