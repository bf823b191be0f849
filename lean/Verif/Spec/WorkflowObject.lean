import Verif.Model.WorkflowObject
import Verif.Spec.ShortcutObject

/-!
# Scripts that make a finder from transcribed objects
-/

namespace Flory.Spec

/-- An ensemble object of the transcribed text. -/
inductive TextEnsemble where
  | canonical (a : Gen.CanonicalEnsembleAttrs)
  | grand (a : Gen.GrandCanonicalEnsembleAttrs)

/-- The ensemble as it is given to a finder. -/
noncomputable def TextEnsemble.object : TextEnsemble → InstObj AnyEnsemble
  | .canonical a => (Gen.CanonicalEnsemble.object a).map Gen.CanonicalEnsembleCompiledAttrs.pack
  | .grand a => (Gen.GrandCanonicalEnsemble.object a).map Gen.GrandCanonicalEnsembleCompiledAttrs.pack

/-- Ensembles that a constructor made, with positive mean fractions or activities. -/
inductive TextEnsemble.Positive (C : ℕ) : TextEnsemble → Prop where
  | canonical {phi a} (h : Gen.CanonicalEnsemble.init C phi = .ok a)
    (hp : ∀ i, i < C → 0 < a._phi_means.get [i]) : Positive C (.canonical a)
  | grand {z a} (h : Gen.GrandCanonicalEnsemble.init C z = .ok a)
    (hp : ∀ i, i < C → 0 < a._scaled_activity.get [i]) : Positive C (.grand a)

/-- `constraints`: nothing, or a list of global constraints. -/
noncomputable def textConstraints : Option (List Gen.LinearGlobalConstraintAttrs) → ConsArg
  | none => .none
  | some cs => .many (cs.map fun c =>
      (Gen.LinearGlobalConstraint.object c).map Gen.LinearGlobalConstraintCompiledAttrs.pack)

/-- `CoexistingPhasesFinder(fe.interaction, fe.entropy, ensemble, constraints, …)`. -/
noncomputable def textFinder {G : Type} {M : ℕ} (gen : Rng G ℝ) (newGen : ℤ → G) (now : ℤ)
    (other : ℕ → PackedCons M → PackedCons M) (fe : Gen.FloryHugginsAttrs) (ens : TextEnsemble)
    (cs : Option (List Gen.LinearGlobalConstraintAttrs)) (args : Gen.InitArgs G) (kwargs : Dict ℝ) :
    Py (Gen.FinderObj G M) :=
  Gen.newObject (Gen.CoexistingPhasesFinder.init gen newGen now other
    ((Gen.FloryHugginsInteraction.object fe.interaction).map Gen.FloryHugginsInteractionCompiledAttrs.pack)
    ((Gen.IdealGasEntropy.object fe.entropy).map Gen.IdealGasEntropyCompiledAttrs.pack)
    ens.object (textConstraints cs) args kwargs)

/-- Calls that reinitialize, or that run with at least one step and a positive interval. -/
def Continues (a : FinderArgs) (op : FinderOp) : Prop :=
  match op with
  | .setInteraction .. | .setEntropy .. | .setEnsemble .. | .setConstraints .. => False
  | .run ms _ iv => 0 < ms.getD a.maxSteps ∧ 0 < iv.getD a.interval
  | _ => True

end Flory.Spec
