import Verif.Model.UserConstraint
import Verif.Model.Constraint
import Verif.Model.Objects

/-! # Notions for constraints of any class -/

namespace Flory.Spec

variable {X K : Type} {S M : ℕ}

/-- `d` is the constraint `c` after calls of `prepare` and successful calls of `evolve`. -/
inductive Grown : UserCons X S M K → UserCons X S M K → Prop
  | refl (c) : Grown c c
  | prepare {c d} (f : Mat S M K) (J masks : Vec M K) : Grown c d →
      Grown c { d with data := d.methods.prepare f J masks d.data }
  | evolve {c d} {step res : K} {masks : Vec M K} {x : X} : Grown c d →
      d.methods.evolve step masks d.data = .ok (res, x) → Grown c { d with data := x }

/-- A constraint of the library as a constraint of any class. -/
def ofLibrary [Field K] [LinearOrder K] [NeZero M] (c : Cons S M K) :
    UserCons (Cons S M K) S M K where
  methods :=
    { reset := Cons.reset
      prepare := Cons.prepare
      potential := Cons.potential
      volumeDerivative := Cons.volumeDerivative
      evolve := Cons.evolve }
  data := c

/-- A finder with constraints of the library as a finder with constraints of any class. -/
noncomputable def ofLibraryAttrs {C S M : ℕ} [NeZero M] (a : FinderAttrs C S M) :
    UserAttrs (Cons S M ℝ) C S M where
  interaction := a.interaction
  entropy := a.entropy
  ensemble := a.ensemble
  constraints := a.constraints.map ofLibrary
  maxSteps := a.maxSteps
  criterion := a.criterion
  tolerance := a.tolerance
  interval := a.interval
  randomStd := a.randomStd
  params := a.params
  maxRevive := a.maxRevive
  diagnostics := a.diagnostics
  omegas := a.omegas
  Js := a.Js
  phisFeat := a.phisFeat
  phisComp := a.phisComp
  reviveLeft := a.reviveLeft

/-- The attributes of a finder other than the constraints. -/
def unconstrained {X : Type} {C S M : ℕ} (a : UserAttrs X C S M) : FinderAttrs C S M where
  interaction := a.interaction
  entropy := a.entropy
  ensemble := a.ensemble
  constraints := []
  maxSteps := a.maxSteps
  criterion := a.criterion
  tolerance := a.tolerance
  interval := a.interval
  randomStd := a.randomStd
  params := a.params
  maxRevive := a.maxRevive
  diagnostics := a.diagnostics
  omegas := a.omegas
  Js := a.Js
  phisFeat := a.phisFeat
  phisComp := a.phisComp
  reviveLeft := a.reviveLeft

/-- The sum of the potentials of prepared constraints. -/
noncomputable def totalPotential {X : Type} {S M : ℕ} (cs : List (UserCons X S M ℝ)) (r : Fin S)
    (m : Fin M) : ℝ :=
  (cs.map fun c => c.methods.potential c.data r m).sum

/-- The sum of the volume derivatives of prepared constraints. -/
noncomputable def totalVolumeDerivative {X : Type} {S M : ℕ} (cs : List (UserCons X S M ℝ))
    (m : Fin M) : ℝ :=
  (cs.map fun c => c.methods.volumeDerivative c.data m).sum

/-- What constraints of one class do is what constraints of another class do on translated data. -/
structure Simulates {X Y : Type} (φ : X → Y) (a : ConstraintI X S M K) (b : ConstraintI Y S M K) :
    Prop where
  reset : ∀ x, b.reset (φ x) = φ (a.reset x)
  prepare : ∀ f J masks x, b.prepare f J masks (φ x) = φ (a.prepare f J masks x)
  potential : ∀ x, b.potential (φ x) = a.potential x
  volumeDerivative : ∀ x, b.volumeDerivative (φ x) = a.volumeDerivative x
  evolve : ∀ step masks x,
    b.evolve step masks (φ x) = (a.evolve step masks x).map fun r => (r.1, φ r.2)

/-- What an ensemble fixes about a component: its mean fraction or its activity. -/
def supply {C : ℕ} : EnsembleInst C → Fin C → ℝ
  | .canonical e => e.phiMeans
  | .grand e => e.scaledActivity

end Flory.Spec
