import Verif.Model.GenFinder

/-! # When a record of attributes is that of a finder -/

namespace Flory.Spec

variable {G : Type}

/-- The record holds the attributes of a finder whose instances fit, with transcribed objects. -/
def Mirrors (f : Finder G) (a : FinderAttrs f.numComp f.numFeat f.numPart) : Prop :=
  ∃ p, f.parts = some p ∧ a = f.attrs p

end Flory.Spec
