import Verif.Gen.Objects
import Verif.Model.TranscriptPhases

/-!
# Transcription of `flory/common/phases.py`

Written by `tools/transcribe_phases.py`; do not edit.
-/

set_option linter.unusedVariables false

namespace Flory.Gen

variable {V : Type}

/-- `get_uniform_random_composition` (`flory/common/phases.py:14-33`).  `junk` is the content of `np.empty`. -/
noncomputable def get_uniform_random_composition {G : Type} (beta : G → ℕ → ℕ → ℝ × G) (num_comps : ℕ)
    (junk : List ℕ → ℝ) (rng : G) : Py (NDArr ℝ × G) := do
  let t1 : NDArr ℝ := ⟨[num_comps], junk⟩
  let phis : NDArr ℝ := t1
  let phi_max : ℝ := (1 : ℝ)
  let state : G × ℝ × NDArr ℝ ← forListM (List.range ((num_comps - 1))) (rng, phi_max, phis) fun d state => do
    let rng : G := state.1
    let phi_max : ℝ := state.2.1
    let phis : NDArr ℝ := state.2.2
    let drawn : ℝ × G := beta rng 1 (((num_comps - d) - 1))
    let rng : G := drawn.2
    let t2 : ℝ := drawn.1
    let x : ℝ := (t2 * phi_max)
    let phi_max : ℝ := phi_max - x
    let phis : NDArr ℝ ← NDArr.setItem phis (d : ℤ) x
    pure (rng, phi_max, phis)
  let rng : G := state.1
  let phi_max : ℝ := state.2.1
  let phis : NDArr ℝ := state.2.2
  let t3 : NDArr ℝ := NDArr.init phis
  let t4 : ℝ := NDArr.sum t3
  let phis : NDArr ℝ ← NDArr.setItem phis (-1) (((1 : ℝ) - t4))
  pure (phis, rng)

/-- `Phases._copy` (`flory/common/phases.py:64-70`). -/
noncomputable def Phases._copy (self : PhasesAttrs) (volumes : NDArr ℝ) (fractions : NDArr ℝ) :
    Py (PhasesAttrs) := do
  let t1 : PhasesAttrs ← Phases.init volumes fractions
  pure t1

/-- `Phases.num_phases` (`flory/common/phases.py:75-78`). -/
noncomputable def Phases.num_phases (self : PhasesAttrs) :
    Py (ℕ) := do
  let t1 : ℕ ← NDArr.len self.volumes
  pure t1

/-- `Phases.num_components` (`flory/common/phases.py:80-83`). -/
noncomputable def Phases.num_components (self : PhasesAttrs) :
    Py (ℕ) := do
  shapeAt self.fractions.shape 1

/-- `Phases.total_volume` (`flory/common/phases.py:85-88`). -/
noncomputable def Phases.total_volume (self : PhasesAttrs) :
    Py (ℝ) := do
  let t1 : ℝ := NDArr.sum self.volumes
  pure t1

/-- `Phases.mean_fractions` (`flory/common/phases.py:90-93`). -/
noncomputable def Phases.mean_fractions (self : PhasesAttrs) :
    Py (NDArr ℝ) := do
  let t1 : NDArr ℝ ← NDArr.vecMat self.volumes self.fractions
  let t2 : ℝ ← Phases.total_volume self
  let t3 : NDArr ℝ := NDArr.map (fun x => x / t2) t1
  pure t3

/-- `Phases.normalize` (`flory/common/phases.py:95-97`). -/
noncomputable def Phases.normalize (self : PhasesAttrs) :
    Py (PhasesAttrs) := do
  let t1 : ℝ ← Phases.total_volume self
  let t2 : NDArr ℝ := NDArr.map (fun x => x / t1) self.volumes
  let t3 : PhasesAttrs ← Phases._copy self t2 self.fractions
  pure t3

/-- `Phases.sort` (`flory/common/phases.py:99-107`). -/
noncomputable def Phases.sort (sort : ArgSort ℝ) (self : PhasesAttrs) :
    Py (PhasesAttrs) := do
  let t1 : NDArr ℕ := NDArr.argsort sort self.fractions
  let enrich_indexes : NDArr ℕ := t1
  let t2 : NDArr ℕ := NDArr.transpose enrich_indexes
  let t3 : List ℕ ← NDArr.lexsort t2
  let sorting_index : List ℕ := t3
  let t4 : NDArr ℝ ← NDArr.takeRows self.volumes sorting_index
  let t5 : NDArr ℝ ← NDArr.takeRows self.fractions sorting_index
  let t6 : PhasesAttrs ← Phases._copy self t4 t5
  pure t6

/-- `Phases.get_clusters` (`flory/common/phases.py:109-144`). -/
noncomputable def Phases.get_clusters (scipy : Scipy) (self : PhasesAttrs) (dist : ℝ) :
    Py (PhasesAttrs) := do
  let t1 : ℕ ← Phases.num_phases self
  if t1 < 2 then do
    pure self
  else do
    let t2 : NDArr ℝ := scipy.pdist self.fractions
    let dists : NDArr ℝ := t2
    let t3 : NDArr ℝ ← scipy.linkage dists "centroid"
    let links : NDArr ℝ := t3
    let t4 : List ℤ ← scipy.fcluster links dist "distance"
    let clusters : List ℤ := t4
    let t5 : List ℤ := uniqueLabels clusters
    let state : List (NDArr ℝ) × List ℝ ← forListM t5 ([], []) fun n state => do
      let cluster_fractions : List (NDArr ℝ) := state.1
      let cluster_volumes : List ℝ := state.2
      let t6 : NDArr ℝ ← NDArr.maskRows self.fractions (clusters.map fun x => decide (x = n))
      let current_fractions : NDArr ℝ := t6
      let t7 : NDArr ℝ ← NDArr.maskRows self.volumes (clusters.map fun x => decide (x = n))
      let current_volumes : NDArr ℝ := t7
      let t8 : NDArr ℝ ← NDArr.average current_fractions current_volumes
      let mean_fractions : NDArr ℝ := t8
      let cluster_fractions : List (NDArr ℝ) := cluster_fractions ++ [mean_fractions]
      let t9 : ℝ := NDArr.sum current_volumes
      let cluster_volumes : List ℝ := cluster_volumes ++ [t9]
      pure (cluster_fractions, cluster_volumes)
    let cluster_fractions : List (NDArr ℝ) := state.1
    let cluster_volumes : List ℝ := state.2
    let t10 : NDArr ℝ := NDArr.ofReals cluster_volumes
    let t11 : NDArr ℝ ← NDArr.stack cluster_fractions
    let t12 : PhasesAttrs ← Phases._copy self t10 t11
    pure t12

/-- Attributes of a `PhasesResult` object after its constructor (`flory/common/phases.py:150-167`). -/
structure PhasesResultAttrs (V : Type) where
  volumes : NDArr ℝ
  fractions : NDArr ℝ
  _info : Dict V

/-- `PhasesResult.__init__` (`flory/common/phases.py:150-167`). -/
noncomputable def PhasesResult.init (volumes : NDArr ℝ) (fractions : NDArr ℝ) (info : Option (Dict V)) :
    Py (PhasesResultAttrs V) := do
  let t1 : PhasesAttrs ← Phases.init volumes fractions
  let t2 : Dict V := match info with | none => [] | some info => info
  let self__info : Dict V := t2
  pure { volumes := t1.volumes, fractions := t1.fractions, _info := self__info }

/-- `PhasesResult.from_phases` (`flory/common/phases.py:169-179`). -/
noncomputable def PhasesResult.from_phases (phases : PhasesAttrs) (info : Option (Dict V)) :
    Py (PhasesResultAttrs V) := do
  let t1 : PhasesResultAttrs V ← PhasesResult.init phases.volumes phases.fractions info
  pure t1

/-- `PhasesResult.info` (`flory/common/phases.py:181-184`). -/
noncomputable def PhasesResult.info (self : PhasesResultAttrs V) :
    Py (Dict V) := do
  pure self._info

/-- `PhasesResult._copy` (`flory/common/phases.py:186-192`). -/
noncomputable def PhasesResult._copy (self : PhasesResultAttrs V) (volumes : NDArr ℝ) (fractions : NDArr ℝ) :
    Py (PhasesResultAttrs V) := do
  let t1 : Dict V ← PhasesResult.info self
  let t2 : PhasesResultAttrs V ← PhasesResult.init volumes fractions (some t1)
  pure t2

/-- `Phases.num_phases` for a `PhasesResult` (`flory/common/phases.py:75-78`). -/
noncomputable def PhasesResult.num_phases (self : PhasesResultAttrs V) :
    Py (ℕ) := do
  let t1 : ℕ ← NDArr.len self.volumes
  pure t1

/-- `Phases.total_volume` for a `PhasesResult` (`flory/common/phases.py:85-88`). -/
noncomputable def PhasesResult.total_volume (self : PhasesResultAttrs V) :
    Py (ℝ) := do
  let t1 : ℝ := NDArr.sum self.volumes
  pure t1

/-- `Phases.normalize` for a `PhasesResult` (`flory/common/phases.py:95-97`). -/
noncomputable def PhasesResult.normalize (self : PhasesResultAttrs V) :
    Py (PhasesResultAttrs V) := do
  let t1 : ℝ ← PhasesResult.total_volume self
  let t2 : NDArr ℝ := NDArr.map (fun x => x / t1) self.volumes
  let t3 : PhasesResultAttrs V ← PhasesResult._copy self t2 self.fractions
  pure t3

/-- `Phases.sort` for a `PhasesResult` (`flory/common/phases.py:99-107`). -/
noncomputable def PhasesResult.sort (sort : ArgSort ℝ) (self : PhasesResultAttrs V) :
    Py (PhasesResultAttrs V) := do
  let t1 : NDArr ℕ := NDArr.argsort sort self.fractions
  let enrich_indexes : NDArr ℕ := t1
  let t2 : NDArr ℕ := NDArr.transpose enrich_indexes
  let t3 : List ℕ ← NDArr.lexsort t2
  let sorting_index : List ℕ := t3
  let t4 : NDArr ℝ ← NDArr.takeRows self.volumes sorting_index
  let t5 : NDArr ℝ ← NDArr.takeRows self.fractions sorting_index
  let t6 : PhasesResultAttrs V ← PhasesResult._copy self t4 t5
  pure t6

/-- `Phases.get_clusters` for a `PhasesResult` (`flory/common/phases.py:109-144`). -/
noncomputable def PhasesResult.get_clusters (scipy : Scipy) (self : PhasesResultAttrs V) (dist : ℝ) :
    Py (PhasesResultAttrs V) := do
  let t1 : ℕ ← PhasesResult.num_phases self
  if t1 < 2 then do
    pure self
  else do
    let t2 : NDArr ℝ := scipy.pdist self.fractions
    let dists : NDArr ℝ := t2
    let t3 : NDArr ℝ ← scipy.linkage dists "centroid"
    let links : NDArr ℝ := t3
    let t4 : List ℤ ← scipy.fcluster links dist "distance"
    let clusters : List ℤ := t4
    let t5 : List ℤ := uniqueLabels clusters
    let state : List (NDArr ℝ) × List ℝ ← forListM t5 ([], []) fun n state => do
      let cluster_fractions : List (NDArr ℝ) := state.1
      let cluster_volumes : List ℝ := state.2
      let t6 : NDArr ℝ ← NDArr.maskRows self.fractions (clusters.map fun x => decide (x = n))
      let current_fractions : NDArr ℝ := t6
      let t7 : NDArr ℝ ← NDArr.maskRows self.volumes (clusters.map fun x => decide (x = n))
      let current_volumes : NDArr ℝ := t7
      let t8 : NDArr ℝ ← NDArr.average current_fractions current_volumes
      let mean_fractions : NDArr ℝ := t8
      let cluster_fractions : List (NDArr ℝ) := cluster_fractions ++ [mean_fractions]
      let t9 : ℝ := NDArr.sum current_volumes
      let cluster_volumes : List ℝ := cluster_volumes ++ [t9]
      pure (cluster_fractions, cluster_volumes)
    let cluster_fractions : List (NDArr ℝ) := state.1
    let cluster_volumes : List ℝ := state.2
    let t10 : NDArr ℝ := NDArr.ofReals cluster_volumes
    let t11 : NDArr ℝ ← NDArr.stack cluster_fractions
    let t12 : PhasesResultAttrs V ← PhasesResult._copy self t10 t11
    pure t12

end Flory.Gen
