import Verif.Model.ShortcutObject

/-!
# Compiled ensembles and constraints with their sizes in the type

Together with `Verif/Model/ShortcutObject.lean` this is what a script needs that makes a finder from transcribed
objects.
-/

namespace Flory.Gen

/-- A compiled ensemble, sizes in its type. Models `flory/ensemble/grandcanonical.py:39-48`. -/
def GrandCanonicalEnsembleCompiledAttrs.pack (a : GrandCanonicalEnsembleCompiledAttrs) : AnyEnsemble :=
  ⟨a._num_comp, .grand ⟨fun i => a._scaled_activity.get [i.1]⟩⟩

/-- A compiled constraint before `initialize`, sizes in its type. Models `flory/constraint/linear_global.py:58-86`;
the arrays that `initialize` makes anew are dropped. -/
def LinearGlobalConstraintCompiledAttrs.pack (a : LinearGlobalConstraintCompiledAttrs) : AnyConsNew :=
  ⟨a._num_feat, .glob a._num_cons (fun i j => a._Cs.get [i.1, j.1]) (fun i => a._Ts.get [i.1]) a._acceptance_ratio
    a._elasticity⟩

end Flory.Gen
