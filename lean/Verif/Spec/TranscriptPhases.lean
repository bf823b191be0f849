import Verif.Gen.Phases
import Verif.Spec.TranscriptObjects

/-!
# When a transcribed `PhasesResult` and an object of the model describe the same Python object
-/

namespace Flory

namespace Spec

/-- `PhasesResult`: the arrays agree, and the dictionary at the address of the object has the content. -/
structure SamePhasesResult {V : Type} {C : ℕ} (a : Gen.PhasesResultAttrs V) (r : InfoHeap V × PhasesObj C ℝ) :
    Prop where
  phases : SamePhases ⟨a.volumes, a.fractions⟩ ⟨r.2.P, C, r.2.phases⟩
  info : ∃ addr, r.2.info = some addr ∧ r.1.cell addr = a._info

end Spec

end Flory
