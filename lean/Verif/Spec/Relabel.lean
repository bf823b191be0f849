import Verif.Model.FinderImpl

/-! # Relabelling of components, features and compartments (independent of the iteration) -/

namespace Flory.Spec

variable {K G : Type} {C S M : ℕ}

/-- `A'` is `A` with relabelled rows and columns. -/
def RelMat {R : ℕ} (σ : Fin R ≃ Fin R) (τ : Fin M ≃ Fin M) (A A' : Mat R M K) : Prop :=
  ∀ r m, A' r m = A (σ r) (τ m)

/-- `c'` is the constraint `c` for relabelled features and compartments. -/
inductive RelCons (σ : Fin S ≃ Fin S) (τ : Fin M ≃ Fin M) : Cons S M K → Cons S M K → Prop
  | no {c c' : NoC S M K} (hp : RelMat σ τ c.potential c'.potential)
      (hv : ∀ m, c'.volumeDerivative m = c.volumeDerivative (τ m)) : RelCons σ τ (.no c) (.no c')
  | loc {A : ℕ} {c c' : LocalC A S M K} (hC : ∀ a r, c'.Cs a r = c.Cs a (σ r)) (hT : c'.Ts = c.Ts)
      (ha : c'.acceptanceRatio = c.acceptanceRatio) (he : c'.elasticity = c.elasticity)
      (hm : ∀ a m, c'.multiplier a m = c.multiplier a (τ m))
      (hr : ∀ a m, c'.residue a m = c.residue a (τ m))
      (hp : RelMat σ τ c.potential c'.potential)
      (hv : ∀ m, c'.volumeDerivative m = c.volumeDerivative (τ m)) :
      RelCons σ τ (.loc A c) (.loc A c')
  | glob {A : ℕ} {c c' : GlobalC A S M K} (hC : ∀ a r, c'.Cs a r = c.Cs a (σ r)) (hT : c'.Ts = c.Ts)
      (ha : c'.acceptanceRatio = c.acceptanceRatio) (he : c'.elasticity = c.elasticity)
      (hm : c'.multiplier = c.multiplier) (hr : c'.residue = c.residue)
      (hp : RelMat σ τ c.potential c'.potential)
      (hv : ∀ m, c'.volumeDerivative m = c.volumeDerivative (τ m)) :
      RelCons σ τ (.glob A c) (.glob A c')

/-- `s'` is the state `s` with relabelled features and compartments (the fractions of a state are
overwritten before they are used). -/
structure RelState (σ : Fin S ≃ Fin S) (τ : Fin M ≃ Fin M) (s s' : State C S M K G) : Prop where
  omegas : RelMat σ τ s.omegas s'.omegas
  Js : ∀ m, s'.Js m = s.Js (τ m)
  cons : List.Forall₂ (RelCons σ τ) s.cons s'.cons

/-- The results of a pass are the same up to the labels. -/
structure SameResult (ρ : Fin C ≃ Fin C) (σ : Fin S ≃ Fin S) (τ : Fin M ≃ Fin M)
    (t t' : Trace C S M K G) : Prop where
  omegas : RelMat σ τ t.omegas t'.omegas
  Js : ∀ m, t'.Js m = t.Js (τ m)
  JsOld : ∀ m, t'.JsOld m = t.JsOld (τ m)
  cons : List.Forall₂ (RelCons σ τ) t.cons t'.cons
  phisComp : RelMat ρ τ t.phisComp t'.phisComp
  phisFeat : RelMat σ τ t.phisFeat t'.phisFeat
  maxAbsIncomp : t'.maxAbsIncomp = t.maxAbsIncomp
  maxAbsOmegaDiff : t'.maxAbsOmegaDiff = t.maxAbsOmegaDiff
  maxAbsJsDiff : t'.maxAbsJsDiff = t.maxAbsJsDiff
  maxConstraintResidue : t'.maxConstraintResidue = t.maxConstraintResidue

end Flory.Spec
