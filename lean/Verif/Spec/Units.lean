import Verif.Model.Run
import Verif.Model.Entropy
import Verif.Model.Interaction
import Verif.Model.Ensemble
import Verif.Model.Finder

/-!
# The unit of molecular size

Molecular sizes are numbers of some unit of volume, and all energies are energies per unit of volume.
If the unit is made `k` times larger, sizes are divided by `k`, and interactions, fields, the energies
of the compartments, and the multipliers and elasticities of constraints are multiplied by `k`.
Fractions and volumes of compartments have no unit.
-/

namespace Flory

variable {K G : Type} [Field K] [LinearOrder K] {C S M : ℕ}

/-- A constraint with all its energies multiplied by `k`. -/
def Cons.inUnit (k : K) : Cons S M K → Cons S M K
  | .no c => .no ⟨fun r m => k * c.potential r m, fun m => k * c.volumeDerivative m⟩
  | .loc A c => .loc A ⟨c.Cs, c.Ts, k * c.acceptanceRatio, k * c.elasticity,
      fun a m => k * c.multiplier a m, c.residue, fun r m => k * c.potential r m,
      fun m => k * c.volumeDerivative m⟩
  | .glob A c => .glob A ⟨c.Cs, c.Ts, k * c.acceptanceRatio, k * c.elasticity,
      fun a => k * c.multiplier a, c.residue, fun r m => k * c.potential r m,
      fun m => k * c.volumeDerivative m⟩

/-- The arrays of the finder with all energies multiplied by `k`. -/
def State.inUnit (k : K) (s : State C S M K G) : State C S M K G :=
  { s with
    omegas := fun r m => k * s.omegas r m
    cons := s.cons.map (Cons.inUnit k) }

/-- The variables of a pass with all energies multiplied by `k`. -/
def Trace.inUnit (k : K) (t : Trace C S M K G) : Trace C S M K G :=
  { t with
    omegasOld := fun r m => k * t.omegasOld r m
    consPrep := t.consPrep.map (Cons.inUnit k)
    potential := fun r m => k * t.potential r m
    xi := fun m => k * t.xi m
    localEnergy := fun m => k * t.localEnergy m
    localEnergyMean := k * t.localEnergyMean
    JsDiff := fun m => k * t.JsDiff m
    omegaDiff := fun r m => k * t.omegaDiff r m
    omegas := fun r m => k * t.omegas r m
    cons := t.cons.map (Cons.inUnit k)
    maxAbsOmegaDiff := k * t.maxAbsOmegaDiff
    maxAbsJsDiff := k * t.maxAbsJsDiff }

/-- The result of a metastep with all energies multiplied by `k`. -/
def MetaResult.inUnit (k : K) (r : MetaResult C S M K G) : MetaResult C S M K G :=
  { r with last := r.last.inUnit k }

/-- The state of a run with all energies multiplied by `k`. -/
def RunState.inUnit (k : K) (s : RunState C S M K G) : RunState C S M K G :=
  { s with
    st := s.st.inUnit k
    last := s.last.map (MetaResult.inUnit k) }

/-- Diagnostics with the two energies in them multiplied by `k`. -/
def Diagnostics.inUnit (k : K) (d : Diagnostics K) : Diagnostics K :=
  { d with
    maxAbsOmegaDiff := k * d.maxAbsOmegaDiff
    maxAbsJsDiff := k * d.maxAbsJsDiff }

/-- `e'` describes the system `e` with all energies multiplied by `k`. -/
structure InUnit (k : K) (e e' : RunEnv C S M K G) : Prop where
  potential : ∀ ph r m, e'.ia.potential ph r m = k * e.ia.potential ph r m
  interactionVd : ∀ p ph m, e'.ia.volumeDerivative (fun r m => k * p r m) ph m =
    k * e.ia.volumeDerivative p ph m
  coef : ∀ ph, e'.ia.incompCoef ph = k * e.ia.incompCoef ph
  partition : ∀ ph om Js, e'.en.partition ph (fun r m => k * om r m) Js = e.en.partition ph om Js
  compToFeat : e'.en.compToFeat = e.en.compToFeat
  entropyVd : ∀ ph m, e'.en.volumeDerivative ph m = k * e.en.volumeDerivative ph m
  es : e'.es = e.es
  rng : e'.rng = e.rng
  acceptanceJs : e'.params.acceptanceJs = e.params.acceptanceJs / k
  bound : e'.params.JsStepUpperBound = e.params.JsStepUpperBound
  acceptanceOmega : e'.params.acceptanceOmega = e.params.acceptanceOmega
  kill : e'.params.killThreshold = e.params.killThreshold
  scaler : e'.params.reviveScaler = e.params.reviveScaler
  criterion : e'.criterion = e.criterion

/-- Keyword arguments of the finder in another unit: `random_std` and the options of the compiled
instances (all default to 1) are energies, `acceptance_Js` is the inverse of one. The tolerance, the
number of steps and the interval are not compared. -/
structure FinderArgs.InUnit (k : ℝ) (a a' : FinderArgs) : Prop where
  numPart : a'.numPart = a.numPart
  criterion : a'.criterion = a.criterion
  randomStd : a'.randomStd = k * a.randomStd
  acceptanceJs : a'.acceptanceJs = a.acceptanceJs / k
  acceptanceOmega : a'.acceptanceOmega = a.acceptanceOmega
  bound : a'.JsStepUpperBound = a.JsStepUpperBound
  kill : a'.killThreshold = a.killThreshold
  scaler : a'.reviveScaler = a.reviveScaler
  maxRevive : a'.maxRevive = a.maxRevive
  kwargs : ∀ name ∈ ["additional_chis_shift", "constraint_acceptance_ratio", "constraint_elasticity"],
    (a'.kwargs.get? name).getD 1 = k * (a.kwargs.get? name).getD 1

end Flory
