import Verif.Model.Finder
import Verif.Model.FreeEnergy

/-! # Model of `flory/shortcut.py` -/

namespace Flory

/-- External functions used on collections of phases: numpy's `argsort` and scipy's clustering of the
compositions (`flory/common/phases.py:99-144`). -/
structure PhasesExt where
  argsort : ArgSort ℝ
  labels : {P C : ℕ} → Phases P C ℝ → Vec P ℤ

/-- The `PhasesResult` returned by the shortcut; its `info` are diagnostics. Models
`flory/shortcut.py:70-72`. -/
structure ShortcutResult where
  numPhases : ℕ
  numComp : ℕ
  phases : Phases numPhases numComp ℝ
  info : Diagnostics ℝ

/-- `find_coexisting_phases` (`flory/shortcut.py:17-72`); `g` is the state of the generator.  The
keyword arguments of the finder are `constraints` and `a`. -/
noncomputable def findCoexistingPhases {G : Type} (env : FinderEnv G) (ext : PhasesExt) (g : G) (C : ℕ)
    (chis : NDArr ℝ) (phiMeans : Option (NDArr ℝ)) (sizes : Option (NDArr ℝ)) (constraints : ConsArg)
    (a : FinderArgs) : Py ShortcutResult := do
  -- free_energy = FloryHuggins(num_comp, chis, sizes)
  let interaction ← FHInteraction.new C chis
  let entropy ← GasEntropy.new C sizes
  let _ ← FreeEnergy.new ⟨C, fhPart interaction.chis⟩ ⟨C, gasPart entropy.sizes⟩
  let ensemble ← CanonicalEnsemble.new C phiMeans
  let finder ← Finder.create env g interaction.obj entropy.obj ensemble.obj constraints a
  let r := finder.run env none none none
  let out ← r.2
  let clusters ← out.phases.getClusters (ext.labels out.phases)
  let sorted ← clusters.2.sort ext.argsort
  match r.1.diagnostics with
  | none => .error .attributeError
  | some d => .ok ⟨sorted.1, out.numComp, sorted.2.normalize, d⟩

end Flory
