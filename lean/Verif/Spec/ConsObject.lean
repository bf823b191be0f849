import Verif.Model.ConsObject
import Verif.Spec.WorkflowObject

/-!
# Scripts that make a finder with local and global constraints
-/

namespace Flory.Spec

/-- A constraint object of the transcribed text. -/
inductive TextConstraint where
  | loc (a : Gen.LinearLocalConstraintAttrs)
  | glob (a : Gen.LinearGlobalConstraintAttrs)

/-- The constraint as it is given to a finder. -/
noncomputable def TextConstraint.object : TextConstraint → InstObj AnyConsNew
  | .loc a => (Gen.LinearLocalConstraint.object a).map Gen.LinearLocalConstraintCompiledAttrs.pack
  | .glob a => (Gen.LinearGlobalConstraint.object a).map Gen.LinearGlobalConstraintCompiledAttrs.pack

/-- Constraints that a constructor made, with at least one equation. -/
inductive TextConstraint.Made (C : ℕ) : TextConstraint → Prop where
  | loc {Cs Ts a} (h : Gen.LinearLocalConstraint.init C Cs Ts = .ok a) (hn : a.num_cons ≠ 0) : Made C (.loc a)
  | glob {Cs Ts a} (h : Gen.LinearGlobalConstraint.init C Cs Ts = .ok a) (hn : a.num_cons ≠ 0) : Made C (.glob a)

/-- `CoexistingPhasesFinder(fe.interaction, fe.entropy, ensemble, constraints, …)` with a list of constraints. -/
noncomputable def textConsFinder {G : Type} {M : ℕ} (gen : Rng G ℝ) (newGen : ℤ → G) (now : ℤ)
    (other : ℕ → PackedCons M → PackedCons M) (fe : Gen.FloryHugginsAttrs) (ens : TextEnsemble)
    (cs : List TextConstraint) (args : Gen.InitArgs G) (kwargs : Dict ℝ) : Py (Gen.FinderObj G M) :=
  Gen.newObject (Gen.CoexistingPhasesFinder.init gen newGen now other
    ((Gen.FloryHugginsInteraction.object fe.interaction).map Gen.FloryHugginsInteractionCompiledAttrs.pack)
    ((Gen.IdealGasEntropy.object fe.entropy).map Gen.IdealGasEntropyCompiledAttrs.pack)
    ens.object (.many (cs.map TextConstraint.object)) args kwargs)

end Flory.Spec
