import Verif.Spec.ConsObject
import Verif.Spec.PolyObject

/-!
# Scripts that make a finder for components that share features, with local and global constraints
-/

namespace Flory.Spec

/-- `CoexistingPhasesFinder(interaction, entropy, ensemble, constraints, …)` with a `FloryHugginsBlockInteraction`, an
`IdealGasPolydispersedEntropy` and a list of constraints. -/
noncomputable def textPolyConsFinder {G : Type} {M : ℕ} (gen : Rng G ℝ) (newGen : ℤ → G) (now : ℤ)
    (other : ℕ → PackedCons M → PackedCons M) (interaction : Gen.FloryHugginsBlockInteractionAttrs)
    (entropy : Gen.IdealGasPolydispersedEntropyAttrs) (ens : TextEnsemble) (cs : List TextConstraint)
    (args : Gen.InitArgs G) (kwargs : Dict ℝ) : Py (Gen.FinderObj G M) :=
  Gen.newObject (Gen.CoexistingPhasesFinder.init gen newGen now other
    ((Gen.FloryHugginsBlockInteraction.object interaction).map Gen.FloryHugginsInteractionCompiledAttrs.pack)
    ((Gen.IdealGasPolydispersedEntropy.object entropy).map Gen.IdealGasPolydispersedEntropyCompiledAttrs.pack)
    ens.object (.many (cs.map TextConstraint.object)) args kwargs)

end Flory.Spec
