import Verif.Model.WorkflowObject

/-!
# Compiled polydisperse entropies with their sizes in the type
-/

namespace Flory.Gen

/-- A compiled entropy, sizes in its type. Models `flory/entropy/ideal_gas_polydispersed.py:43-59`. -/
def IdealGasPolydispersedEntropyCompiledAttrs.pack (a : IdealGasPolydispersedEntropyCompiledAttrs) : AnyEntropy :=
  ⟨a._num_comp, a._num_feat, .poly ⟨fun i => a._sizes.get [i.1], fun r => a._num_comp_per_feat.get [r.1]⟩⟩

end Flory.Gen
