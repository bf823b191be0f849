import Verif.Model.FinderAttrs

/-!
# Constraints of any class

`flory/constraint/base.py` invites users to write constraints of their own.  A compiled constraint is an object
with some data `X` and the methods of the abstract class.
-/

namespace Flory

/-- The methods and properties of `ConstraintBaseCompiled` (`flory/constraint/base.py:11-99`) on data of type `X`.
Methods return the data afterwards; `reset` is `initialize` for the number of compartments of the finder.  Simplified: only `evolve` may raise. -/
structure ConstraintI (X : Type) (S M : ℕ) (K : Type) where
  reset : X → X
  prepare : Mat S M K → Vec M K → Vec M K → X → X
  potential : X → Mat S M K
  volumeDerivative : X → Vec M K
  evolve : K → Vec M K → X → Py (K × X)

/-- A compiled constraint of any class (`flory/constraint/base.py:11-99`).  Constraints of several classes have a
sum type as `X`. -/
structure UserCons (X : Type) (S M : ℕ) (K : Type) where
  methods : ConstraintI X S M K
  data : X

namespace UserCons

variable {X K : Type} {S M : ℕ}

/-- `prepare` (`flory/constraint/base.py:64-83`). -/
def prepare (phisFeat : Mat S M K) (Js masks : Vec M K) (c : UserCons X S M K) : UserCons X S M K :=
  { c with data := c.methods.prepare phisFeat Js masks c.data }

/-- Property `potential` (`flory/constraint/base.py:30-39`). -/
def potential (c : UserCons X S M K) : Mat S M K := c.methods.potential c.data

/-- Property `volume_derivative` (`flory/constraint/base.py:41-50`). -/
def volumeDerivative (c : UserCons X S M K) : Vec M K := c.methods.volumeDerivative c.data

/-- `evolve` (`flory/constraint/base.py:85-99`). -/
def evolve (step : K) (masks : Vec M K) (c : UserCons X S M K) : Py (K × UserCons X S M K) :=
  (c.methods.evolve step masks c.data).map fun r => (r.1, { c with data := r.2 })

end UserCons

/-- `initialize` (`flory/constraint/base.py:52-62`) for the number of compartments of the finder. -/
def UserCons.initialize {X K : Type} {S M : ℕ} (c : UserCons X S M K) : UserCons X S M K :=
  { c with data := c.methods.reset c.data }

/-- The attributes of a finder (`flory/mcmp/finder.py:178-239`), like `FinderAttrs`, with constraints of any class. -/
structure UserAttrs (X : Type) (C S M : ℕ) where
  interaction : InteractionI S M ℝ
  entropy : EntropyI C S M ℝ
  ensemble : EnsembleI C M ℝ
  constraints : List (UserCons X S M ℝ)
  maxSteps : ℚ
  criterion : String
  tolerance : ℝ
  interval : ℤ
  randomStd : ℝ
  params : Params ℝ
  maxRevive : ℤ
  diagnostics : Option DiagDict
  omegas : Mat S M ℝ
  Js : Vec M ℝ
  phisFeat : Mat S M ℝ
  phisComp : Mat C M ℝ
  reviveLeft : ℤ

end Flory
