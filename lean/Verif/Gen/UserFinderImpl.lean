import Verif.Model.UserConstraint
import Verif.Gen.FinderImpl

/-!
# Transcription of `flory/mcmp/_finder_impl.py`

Written by `tools/transcribe.py`; do not edit.
-/

set_option linter.unusedVariables false
set_option linter.unusedSectionVars false

namespace Flory.Gen.User

variable {X : Type} {K G : Type} [Field K] [LinearOrder K] [FloorRing K] {C S M : ℕ} [NeZero M]

/-- `multicomponent_self_consistent_metastep` (`flory/mcmp/_finder_impl.py:210-426`, code from line 324). -/
def multicomponent_self_consistent_metastep (interaction : InteractionI S M K)
    (entropy : EntropyI C S M K) (ensemble : EnsembleI C M K)
    (constraints : List (UserCons X S M K)) (omegas : Mat S M K) (Js : Vec M K)
    (phis_comp : Mat C M K) (phis_feat : Mat S M K) (steps_inner : ℤ) (acceptance_Js : K)
    (Js_step_upper_bound : K) (acceptance_omega : K) (kill_threshold : K) (revive_tries : ℤ)
    (revive_scaler : K) (rng : Rng G K) (g : G) :
    Py ((K × K × K × K × ℤ × Bool) × Mat S M K × Vec M K × Mat C M K × Mat S M K × List (UserCons X S M K) × G) := do
  let n_valid_phase : ℤ := 0
  let revive_count : ℤ := 0
  let s52 ←
    forRangeM (steps_inner).toNat (n_valid_phase, Js, omegas, g, revive_count, phis_comp, phis_feat, constraints, (none : Option K), (none : Option K), (none : Option K), (none : Option K)) fun _i s1 => do
      let n_valid_phase : ℤ := s1.1
      let Js : Vec M K := s1.2.1
      let omegas : Mat S M K := s1.2.2.1
      let g := s1.2.2.2.1
      let revive_count : ℤ := s1.2.2.2.2.1
      let phis_comp : Mat C M K := s1.2.2.2.2.2.1
      let phis_feat : Mat S M K := s1.2.2.2.2.2.2.1
      let constraints : List (UserCons X S M K) := s1.2.2.2.2.2.2.2.1
      let s4 :=
        if revive_count < revive_tries then
          let n_valid_phase : ℤ := count_valid_compartments Js kill_threshold
          let s3 :=
            if n_valid_phase ≠ ((M : ℕ) : ℤ) then
              let t2 := revive_compartments_by_random Js omegas kill_threshold rng revive_scaler g
              let Js : Vec M K := t2.2.1
              let omegas : Mat S M K := t2.2.2.1
              let g := t2.2.2.2
              let revive_count : ℤ := revive_count + t2.1
              (Js, omegas, g, revive_count)
            else
              (Js, omegas, g, revive_count)
          let Js : Vec M K := s3.1
          let omegas : Mat S M K := s3.2.1
          let g := s3.2.2.1
          let revive_count : ℤ := s3.2.2.2
          (n_valid_phase, Js, omegas, g, revive_count)
        else
          (n_valid_phase, Js, omegas, g, revive_count)
      let n_valid_phase : ℤ := s4.1
      let Js : Vec M K := s4.2.1
      let omegas : Mat S M K := s4.2.2.1
      let g := s4.2.2.2.1
      let revive_count : ℤ := s4.2.2.2.2
      let t5 : Vec M K := make_valid_compartment_masks Js kill_threshold
      let masks : Vec M K := t5
      let n_valid_phase : ℤ := npInt (∑ i6, (masks i6))
      let Js : Vec M K := fun i7 => ((Js i7) * (masks i7))
      let t8 ← entropy.partition phis_comp omegas Js
      let phis_comp : Mat C M K := t8.1
      let Qs : Vec C K := t8.2
      let t9 ← ensemble.normalize phis_comp Qs masks
      let phis_comp : Mat C M K := t9.1
      let incomp : Vec M K := t9.2
      let t10 ← entropy.compToFeat phis_feat phis_comp
      let phis_feat : Mat S M K := t10
      let max_abs_incomp : K := npMax fun i11 => |(incomp i11)|
      let constraints : List (UserCons X S M K) :=
        if constraints ≠ [] then
          let constraints : List (UserCons X S M K) :=
            mapList constraints fun cons =>
              let t13 := UserCons.prepare phis_feat Js masks cons
              let cons : UserCons X S M K := t13
              cons
          constraints
        else
          constraints
      let t14 : Mat S M K := interaction.potential phis_feat
      let omega_temp : Mat S M K := t14
      let xi : Vec M K := fun i15 => ((interaction.incompCoef phis_feat) * (incomp i15))
      let xi : Vec M K :=
        forRange S xi fun itr_feat xi =>
          let xi : Vec M K :=
            fun i16 => ((xi i16) + ((omegas itr_feat i16) - (omega_temp itr_feat i16)))
          xi
      let xi : Vec M K :=
        forList constraints xi fun cons xi =>
          let xi : Vec M K :=
            forRange S xi fun itr_feat xi =>
              let xi : Vec M K := fun i17 => ((xi i17) - (cons.potential itr_feat i17))
              xi
          xi
      let xi : Vec M K := fun i18 => ((xi i18) * (masks i18))
      let xi : Vec M K := fun i19 => ((xi i19) / ((S : ℕ) : K))
      let t20 : Vec M K := interaction.volumeDerivative omega_temp phis_feat
      let t21 : Vec M K := entropy.volumeDerivative phis_comp
      let local_energy : Vec M K :=
        fun i22 => (((t20 i22) + (t21 i22)) + ((xi i22) * (incomp i22)))
      let s27 :=
        forList constraints (local_energy, omega_temp) fun cons s23 =>
          let local_energy : Vec M K := s23.1
          let omega_temp : Mat S M K := s23.2
          let local_energy : Vec M K := fun i24 => ((local_energy i24) + (cons.volumeDerivative i24))
          let omega_temp : Mat S M K :=
            fun i25 i26 => ((omega_temp i25 i26) + (cons.potential i25 i26))
          (local_energy, omega_temp)
      let local_energy : Vec M K := s27.1
      let omega_temp : Mat S M K := s27.2
      let s31 :=
        forRange S (omega_temp, local_energy) fun itr_feat s28 =>
          let omega_temp : Mat S M K := s28.1
          let local_energy : Vec M K := s28.2
          let omega_temp : Mat S M K :=
            setAt omega_temp itr_feat (fun i29 => ((omega_temp itr_feat i29) + (xi i29)))
          let local_energy : Vec M K :=
            fun i30 => ((local_energy i30) - ((omega_temp itr_feat i30) * (phis_feat itr_feat i30)))
          (omega_temp, local_energy)
      let omega_temp : Mat S M K := s31.1
      let local_energy : Vec M K := s31.2
      let t33 : K ← pyDiv (∑ i32, ((local_energy i32) * (Js i32))) ((n_valid_phase : ℤ) : K)
      let local_energy_mean : K := t33
      let Js_diff : Vec M K := fun i34 => ((local_energy_mean - (local_energy i34)) * (masks i34))
      let max_abs_Js_diff : K := npMax fun i35 => |(Js_diff i35)|
      let Js_max_change : K := max (max_abs_Js_diff * acceptance_Js) Js_step_upper_bound
      let t36 : K ← pyDiv Js_step_upper_bound Js_max_change
      let additional_factor : K := t36
      let Js : Vec M K :=
        fun i37 => ((Js i37) + ((additional_factor * acceptance_Js) * (Js_diff i37)))
      let Js : Vec M K := fun i38 => ((Js i38) * (masks i38))
      let t40 : K ← pyDiv (∑ i39, (Js i39)) ((n_valid_phase : ℤ) : K)
      let Js : Vec M K := fun i41 => ((Js i41) + (1 - t40))
      let Js : Vec M K := fun i42 => ((Js i42) * (masks i42))
      let max_abs_omega_diff : K := 0
      let s49 :=
        forRange S (omega_temp, max_abs_omega_diff, omegas) fun itr_comp s43 =>
          let omega_temp : Mat S M K := s43.1
          let max_abs_omega_diff : K := s43.2.1
          let omegas : Mat S M K := s43.2.2
          let omega_temp : Mat S M K :=
            setAt omega_temp itr_comp (fun i44 => ((omega_temp itr_comp i44) - (omegas itr_comp i44)))
          let omega_temp : Mat S M K :=
            setAt omega_temp itr_comp (fun i45 => ((omega_temp itr_comp i45) * (masks i45)))
          let max_abs_omega_diff : K :=
            max max_abs_omega_diff (npMax fun i46 => (omega_temp itr_comp i46))
          let omegas : Mat S M K :=
            setAt omegas itr_comp (fun i47 => ((omegas itr_comp i47) + ((additional_factor * acceptance_omega) * (omega_temp itr_comp i47))))
          let omegas : Mat S M K :=
            setAt omegas itr_comp (fun i48 => ((omegas itr_comp i48) * (masks i48)))
          (omega_temp, max_abs_omega_diff, omegas)
      let omega_temp : Mat S M K := s49.1
      let max_abs_omega_diff : K := s49.2.1
      let omegas : Mat S M K := s49.2.2
      let max_constraint_residue : K := 0
      let s51 ←
        forListUpdM constraints max_constraint_residue fun cons max_constraint_residue => do
          let t50 ← UserCons.evolve (additional_factor * acceptance_omega) masks cons
          let cons : UserCons X S M K := t50.2
          let max_constraint_residue : K := max max_constraint_residue t50.1
          pure (cons, max_constraint_residue)
      let constraints : List (UserCons X S M K) := s51.1
      let max_constraint_residue : K := s51.2
      pure (n_valid_phase, Js, omegas, g, revive_count, phis_comp, phis_feat, constraints, some max_abs_incomp, some max_abs_Js_diff, some max_abs_omega_diff, some max_constraint_residue)
  let n_valid_phase : ℤ := s52.1
  let Js : Vec M K := s52.2.1
  let omegas : Mat S M K := s52.2.2.1
  let g := s52.2.2.2.1
  let revive_count : ℤ := s52.2.2.2.2.1
  let phis_comp : Mat C M K := s52.2.2.2.2.2.1
  let phis_feat : Mat S M K := s52.2.2.2.2.2.2.1
  let constraints : List (UserCons X S M K) := s52.2.2.2.2.2.2.2.1
  let max_abs_incomp : Option K := s52.2.2.2.2.2.2.2.2.1
  let max_abs_Js_diff : Option K := s52.2.2.2.2.2.2.2.2.2.1
  let max_abs_omega_diff : Option K := s52.2.2.2.2.2.2.2.2.2.2.1
  let max_constraint_residue : Option K := s52.2.2.2.2.2.2.2.2.2.2.2
  let n_valid_phase_last : ℤ := count_valid_compartments Js kill_threshold
  let max_abs_incomp : K ← boundVar max_abs_incomp
  let max_abs_omega_diff : K ← boundVar max_abs_omega_diff
  let max_abs_Js_diff : K ← boundVar max_abs_Js_diff
  let max_constraint_residue : K ← boundVar max_constraint_residue
  pure ((max_abs_incomp, max_abs_omega_diff, max_abs_Js_diff, max_constraint_residue, revive_count, decide (n_valid_phase = n_valid_phase_last)), omegas, Js, phis_comp, phis_feat, constraints, g)

end Flory.Gen.User
