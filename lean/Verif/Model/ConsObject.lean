import Verif.Model.WorkflowObject

/-!
# Compiled local constraints with their sizes in the type
-/

namespace Flory.Gen

/-- A compiled constraint before `initialize`, sizes in its type. Models `flory/constraint/linear_local.py:57-85`;
the arrays that `initialize` makes anew are dropped. -/
def LinearLocalConstraintCompiledAttrs.pack (a : LinearLocalConstraintCompiledAttrs) : AnyConsNew :=
  ⟨a._num_feat, .loc a._num_cons (fun i j => a._Cs.get [i.1, j.1]) (fun i => a._Ts.get [i.1]) a._acceptance_ratio
    a._elasticity⟩

end Flory.Gen
