import Verif.Model.PolyObject
import Verif.Spec.WorkflowObject

/-!
# Scripts that make a finder for components that share features
-/

namespace Flory.Spec

/-- `CoexistingPhasesFinder(interaction, entropy, ensemble, constraints, …)` with a `FloryHugginsBlockInteraction` and
an `IdealGasPolydispersedEntropy`. -/
noncomputable def textPolyFinder {G : Type} {M : ℕ} (gen : Rng G ℝ) (newGen : ℤ → G) (now : ℤ)
    (other : ℕ → PackedCons M → PackedCons M) (interaction : Gen.FloryHugginsBlockInteractionAttrs)
    (entropy : Gen.IdealGasPolydispersedEntropyAttrs) (ens : TextEnsemble)
    (cs : Option (List Gen.LinearGlobalConstraintAttrs)) (args : Gen.InitArgs G) (kwargs : Dict ℝ) :
    Py (Gen.FinderObj G M) :=
  Gen.newObject (Gen.CoexistingPhasesFinder.init gen newGen now other
    ((Gen.FloryHugginsBlockInteraction.object interaction).map Gen.FloryHugginsInteractionCompiledAttrs.pack)
    ((Gen.IdealGasPolydispersedEntropy.object entropy).map Gen.IdealGasPolydispersedEntropyCompiledAttrs.pack)
    ens.object (textConstraints cs) args kwargs)

end Flory.Spec
