import Verif.Spec.WorkflowObject
import Verif.Spec.Scan
import Verif.Spec.ShortcutObject
import Verif.Model.Clustering

/-!
# Scans with transcribed objects

A script makes a finder and then, for one point of a phase diagram after the other, hands it an interaction and an
ensemble and calls `run`, as `examples/binary_phase_diagram.py` does.
-/

namespace Flory.Spec

variable {C M : ℕ} {G : Type}

/-- Canonical ensembles that a script can have: made by the constructor, or changed by the setter of `phi_means`. -/
inductive ReachedCanonical (C : ℕ) : Gen.CanonicalEnsembleAttrs → Prop where
  | init {phi a} (h : Gen.CanonicalEnsemble.init C phi = .ok a) : ReachedCanonical C a
  | phiMeans {a b phi} (ha : ReachedCanonical C a) (h : Gen.CanonicalEnsemble.set_phi_means a phi = .ok b) :
    ReachedCanonical C b

/-- The objects that a script has at one point of a scan. -/
structure PointObjects where
  interaction : Gen.FloryHugginsInteractionAttrs
  ensemble : Gen.CanonicalEnsembleAttrs

/-- The objects hold the interaction `chis` and the mean composition `x`. -/
structure PointObjects.Hold (o : PointObjects) (chis : Mat C C ℝ) (x : Vec C ℝ) : Prop where
  interaction : ReachedFH C o.interaction
  chis : ∀ i j : Fin C, o.interaction._chis.get [i.1, j.1] = chis i j
  ensemble : ReachedCanonical C o.ensemble
  means : ∀ i : Fin C, o.ensemble._phi_means.get [i.1] = x i

/-- One pass of the loop: `finder.set_interaction(interaction)`, `finder.set_ensemble(ensemble)` and
`finder.run(max_steps=…, tolerance=…, interval=…)`. -/
noncomputable def textPoint (gen : Rng G ℝ) (o : PointObjects) (maxSteps : ℚ) (tol : ℝ) (interval : ℤ) :
    Act (Gen.FinderObj G M) Gen.PhasesAttrs := do
  Gen.CoexistingPhasesFinder.set_interaction ((Gen.FloryHugginsInteraction.object o.interaction).map
    Gen.FloryHugginsInteractionCompiledAttrs.pack) Gen.CoexistingPhasesFinder.set_interaction_defaults []
  Gen.CoexistingPhasesFinder.set_ensemble ((Gen.CanonicalEnsemble.object o.ensemble).map
    Gen.CanonicalEnsembleCompiledAttrs.pack) Gen.CoexistingPhasesFinder.set_ensemble_defaults []
  Gen.FinderObj.run gen (some maxSteps) (some tol) (some interval)

/-- The finder after `k` passes of the loop. -/
noncomputable def textScan (gen : Rng G ℝ) (o : ℕ → PointObjects) (maxSteps : ℕ → ℚ) (tol : ℝ) (interval : ℕ → ℤ)
    (finder : Gen.FinderObj G M) : ℕ → Gen.FinderObj G M
  | 0 => finder
  | k + 1 => (textPoint gen (o k) (maxSteps k) tol (interval k) (textScan gen o maxSteps tol interval finder k)).1

/-- In each pass of the loop `run` returns the phases `J k`, `phi k` up to `ε`, with errors below the tolerance and
without revivals. -/
def TextFollows (gen : Rng G ℝ) (o : ℕ → PointObjects) (maxSteps : ℕ → ℚ) (tol : ℝ) (interval : ℕ → ℤ)
    (finder : Gen.FinderObj G M) (budget : ℤ) (J : ℕ → Vec M ℝ) (phi : ℕ → Mat C M ℝ) (ε : ℝ) : Prop :=
  ∀ k, ∃ finder' phases d,
    textPoint gen (o k) (maxSteps k) tol (interval k) (textScan gen o maxSteps tol interval finder k) =
      (finder', .ok phases) ∧
    finder'._diagnostics = some (some d) ∧ d.reviveCountLeft = budget ∧ d.maxAbsIncomp < tol ∧
    d.maxAbsOmegaDiff < tol ∧ d.maxAbsJsDiff < tol ∧ d.maxConstraintResidue = 0 ∧
    phases.volumes.shape = [M] ∧ phases.fractions.shape = [M, C] ∧
    (∀ m : Fin M, |phases.volumes.get [m.1] - J k m| ≤ ε) ∧
    ∀ (m : Fin M) (i : Fin C), |phases.fractions.get [m.1, i.1] - phi k i m| ≤ ε

/-- `linkage` and `fcluster` behave as documented: on arrays of two or more rows they return one label per row, and
these cut a tree of centroid linkage at the distance 0.01. -/
def ScipyDocumented (scipy : Scipy) : Prop :=
  ∀ {P C : ℕ} (a : NDArr ℝ), a.shape = [P, C] → 2 ≤ P → ∃ links l,
    scipy.linkage (scipy.pdist a) "centroid" = .ok links ∧ scipy.fcluster links (1 / 100) "distance" = .ok l ∧
    l.length = P ∧ FCluster (1 / 100) (fun (p : Fin P) (i : Fin C) => a.get [p.1, i.1]) fun p => l.getD p.1 0

/-- In each pass of the loop `finder.run(…).get_clusters()` returns the phases `J k`, `phi k` up to `ε` and in any
order. -/
def ClustersFollow (scipy : Scipy) (gen : Rng G ℝ) (o : ℕ → PointObjects) (maxSteps : ℕ → ℚ) (tol : ℝ)
    (interval : ℕ → ℤ) (finder : Gen.FinderObj G M) (J : ℕ → Vec M ℝ) (phi : ℕ → Mat C M ℝ) (ε : ℝ) : Prop :=
  ∀ k, ∃ finder' phases b,
    textPoint gen (o k) (maxSteps k) tol (interval k) (textScan gen o maxSteps tol interval finder k) =
      (finder', .ok phases) ∧
    Gen.Phases.get_clusters scipy phases (1 / 100) = .ok b ∧ b.volumes.shape = [M] ∧ b.fractions.shape = [M, C] ∧
    ∃ order : Equiv.Perm (Fin M), ∀ n, |b.volumes.get [n.1] - J k (order n)| ≤ ε ∧
      ∀ i : Fin C, |b.fractions.get [n.1, i.1] - phi k i (order n)| ≤ ε

end Flory.Spec
