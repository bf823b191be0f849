import Verif.Model.Interface
import Verif.Model.Constraint

/-!
# Core iteration

Model of `flory/mcmp/_finder_impl.py`.  `C` components, `S` features, `M` compartments.
Mutable arrays are passed in and returned.
-/

namespace Flory

variable {K G : Type}

section Compartments

variable [Field K] [LinearOrder K]

/-- `count_valid_compartments` (`_finder_impl.py:29-46`): `(Js > threshold).sum()`. -/
def countValid {M : ℕ} (Js : Vec M K) (threshold : K) : ℕ :=
  ∑ m, if Js m > threshold then 1 else 0

/-- `make_valid_compartment_masks` (`_finder_impl.py:49-69`):
`np.sign(Js - threshold).clip(0.0)`. -/
def makeMasks {M : ℕ} (Js : Vec M K) (threshold : K) : Vec M K :=
  fun m => npClipMin 0 (npSign (Js m - threshold))

/-- Variables of `revive_compartments_by_random`. Models `flory/mcmp/_finder_impl.py:112-133`. -/
structure ReviveState (R M : ℕ) (K G : Type) where
  Js : Vec M K
  targets : Mat R M K
  g : G
  count : ℕ

/-- `revive_compartments_by_random` (`_finder_impl.py:72-133`).  `R` is the number of rows of
`targets` (called `num_comp` in the code). -/
def reviveByRandom {R M : ℕ} [NeZero M] (rng : Rng G K) (Js : Vec M K) (targets : Mat R M K)
    (threshold scaler : K) (g : G) : ReviveState R M K G :=
  -- lines 115-121
  let centers : Vec R K := fun r => (npMax (targets r) + npMin (targets r)) * (1 / 2)
  let widths : Vec R K := fun r => (npMax (targets r) - npMin (targets r)) * (1 / 2)
  -- lines 124-131
  forRange M ⟨Js, targets, g, 0⟩ fun m s =>
    if s.Js m ≤ threshold then
      let s := { s with Js := setAt s.Js m 1, count := s.count + 1 }
      forRange R s fun r s =>
        let d := rng.uniform s.g
        { s with
          targets := setAt2 s.targets r m (centers r + widths r * scaler * d.1)
          g := d.2 }
    else s

/-- Variables of `revive_compartments_by_copy`. `living` is `living_nicely_indexes`; the filler `-1`
is `none`. Models `flory/mcmp/_finder_impl.py:173-206`. -/
structure CopyState (R M : ℕ) (K G : Type) where
  Js : Vec M K
  targets : Mat R M K
  living : Vec M (Option (Fin M))
  livingCount : ℕ
  g : G
  count : ℕ

/-- The classification loop of `revive_compartments_by_copy` (`_finder_impl.py:176-186`).
Returns `dead_indexes`, `dead_count`, `living_nicely_indexes`, `living_nicely_count`. -/
def classify {M : ℕ} (Js : Vec M K) (threshold : K) :
    Py (Vec M (Option (Fin M)) × ℕ × Vec M (Option (Fin M)) × ℕ) :=
  forRangeM M ((fun _ => none), 0, (fun _ => none), 0) fun m s => do
    let (dead, deadCount, living, livingCount) := s
    if Js m > 2 * threshold then
      let living ← writeAt living livingCount (some m)
      return (dead, deadCount, living, livingCount + 1)
    else if Js m ≤ threshold then
      let dead ← writeAt dead deadCount (some m)
      return (dead, deadCount + 1, living, livingCount)
    else
      return s

/-- The `while True` loop for one dead compartment (`_finder_impl.py:189-205`), by recursion on
`living_nicely_count`.  Every pass either finishes or decreases that counter; with
counter zero `rng.integers(0, 0)` raises (otherwise the next line would read the filler).  Reading the
filler `-1` out of the list is reported as `outOfBounds`. -/
def copyLoop {R M : ℕ} (rng : Rng G K) (threshold : K) (dead : Fin M) :
    (livingCount : ℕ) → Vec M K → Mat R M K → Vec M (Option (Fin M)) → G → ℕ →
      Py (CopyState R M K G)
  | 0, _, _, _, g, _ => do
    let _ ← rng.integersPy g 0
    throw .outOfBounds
  | c + 1, Js, targets, living, g, count => do
    let (pos, g) ← rng.integersPy g (c + 1)
    match ← readAt living pos with
    | none => throw .outOfBounds
    | some ref =>
      if Js ref > 2 * threshold then
        let targets : Mat R M K := fun r m => if m = dead then targets r ref else targets r m
        let newJ := 1 / 2 * Js ref
        let Js := setAt Js dead newJ
        let Js := setAt Js ref newJ
        let living ← writeAt living (c + 1) (some dead)
        return ⟨Js, targets, living, c + 2, g, count + 1⟩
      else
        let last ← readAt living c
        let living ← writeAt living pos last
        let living ← writeAt living c none
        copyLoop rng threshold dead c Js targets living g count

/-- The loop over `dead_indexes[:dead_count]` (`_finder_impl.py:188-205`). -/
def copyDead {R M : ℕ} (rng : Rng G K) (threshold : K) :
    List (Option (Fin M)) → CopyState R M K G → Py (CopyState R M K G)
  | [], s => .ok s
  | none :: _, _ => .error .outOfBounds
  | some d :: ds, s => do
    let s ← copyLoop rng threshold d s.livingCount s.Js s.targets s.living s.g s.count
    copyDead rng threshold ds s

/-- `revive_compartments_by_copy` (`_finder_impl.py:136-206`). -/
def reviveByCopy {R M : ℕ} (rng : Rng G K) (Js : Vec M K) (targets : Mat R M K)
    (threshold : K) (g : G) : Py (CopyState R M K G) := do
  let (dead, deadCount, living, livingCount) ← classify Js threshold
  copyDead rng threshold ((List.ofFn dead).take deadCount)
    ⟨Js, targets, living, livingCount, g, 0⟩

end Compartments

/-- Constant numerical parameters of `multicomponent_self_consistent_metastep`
(`_finder_impl.py:221-226`). -/
structure Params (K : Type) where
  acceptanceJs : K
  JsStepUpperBound : K
  acceptanceOmega : K
  killThreshold : K
  reviveScaler : K

/-- The mutable data of a metastep: arrays, constraint objects, generator
(`_finder_impl.py:214-227`). -/
structure State (C S M : ℕ) (K G : Type) where
  omegas : Mat S M K
  Js : Vec M K
  phisComp : Mat C M K
  phisFeat : Mat S M K
  cons : List (Cons S M K)
  g : G

/-- All local variables at the end of one pass of the loop body, so that intermediate values
can be talked about (`_finder_impl.py:329-414`).  `JsOld`, `omegasOld`, `consPrep` are `Js`,
`omegas` after masking/reviving and the constraints after `prepare`; `omegaDiff` is the
final content of `omega_temp`, `localEnergy` that of `local_energy`. -/
structure Trace (C S M : ℕ) (K G : Type) where
  masks : Vec M K
  nValid : K
  omegasOld : Mat S M K
  JsOld : Vec M K
  Qs : Vec C K
  phisComp : Mat C M K
  incomp : Vec M K
  phisFeat : Mat S M K
  consPrep : List (Cons S M K)
  potential : Mat S M K
  xi : Vec M K
  localEnergy : Vec M K
  localEnergyMean : K
  JsDiff : Vec M K
  factor : K
  Js : Vec M K
  omegaDiff : Mat S M K
  omegas : Mat S M K
  cons : List (Cons S M K)
  g : G
  reviveCount : ℕ
  maxAbsIncomp : K
  maxAbsOmegaDiff : K
  maxAbsJsDiff : K
  maxConstraintResidue : K

section Iteration

variable [Field K] [LinearOrder K] {C S M : ℕ} [NeZero M]

/-- Lines 330-337 of `_finder_impl.py`: revive dead compartments if the budget allows. Returns the
new `Js`, `omegas`, generator and `revive_count`. Models `flory/mcmp/_finder_impl.py:330-337`. -/
def reviveBlock (rng : Rng G K) (p : Params K) (reviveTries : ℤ) (Js : Vec M K)
    (omegas : Mat S M K) (g : G) (reviveCount : ℕ) : ReviveState S M K G :=
  if (reviveCount : ℤ) < reviveTries then
    if countValid Js p.killThreshold ≠ M then
      let r := reviveByRandom rng Js omegas p.killThreshold p.reviveScaler g
      { r with count := reviveCount + r.count }
    else ⟨Js, omegas, g, reviveCount⟩
  else ⟨Js, omegas, g, reviveCount⟩

/-- Lines 358-368 of `_finder_impl.py`: the Lagrange multiplier `xi`. `coef` is
`interaction.incomp_coef(phis_feat)`, `potential` is `omega_temp`. Models
`flory/mcmp/_finder_impl.py:358-368`. -/
def computeXi (coef : K) (incomp : Vec M K) (omegas potential : Mat S M K)
    (cons : List (Cons S M K)) (masks : Vec M K) : Vec M K :=
  let xi : Vec M K := fun m => coef * incomp m
  let xi := forRange S xi fun r xi m => xi m + (omegas r m - potential r m)
  let xi := cons.foldl (fun xi c => forRange S xi fun r xi m => xi m - c.potential r m) xi
  let xi : Vec M K := fun m => xi m * masks m
  fun m => xi m / (S : K)

/-- Lines 371-381 of `_finder_impl.py`: `local_energy` and the total field `omega_temp`. Models
`flory/mcmp/_finder_impl.py:370-381`. -/
def computeLocal (vdInteraction vdEntropy : Vec M K) (xi incomp : Vec M K) (potential : Mat S M K)
    (phisFeat : Mat S M K) (cons : List (Cons S M K)) : Vec M K × Mat S M K :=
  let localEnergy : Vec M K := fun m => vdInteraction m + vdEntropy m + xi m * incomp m
  let s := cons.foldl (fun (s : Vec M K × Mat S M K) c =>
    (fun m => s.1 m + c.volumeDerivative m, fun r m => s.2 r m + c.potential r m))
    (localEnergy, potential)
  forRange S s fun r s =>
    let omegaTemp := setAt s.2 r fun m => s.2 r m + xi m
    (fun m => s.1 m - omegaTemp r m * phisFeat r m, omegaTemp)

/-- Lines 393-396 of `_finder_impl.py`: update of `Js` with the volume constraint. Models
`flory/mcmp/_finder_impl.py:392-396`. -/
def updateJs (factor acceptanceJs : K) (JsDiff masks : Vec M K) (nValid : K) (Js : Vec M K) :
    Py (Vec M K) := do
  let Js : Vec M K := fun m => Js m + factor * acceptanceJs * JsDiff m
  let Js : Vec M K := fun m => Js m * masks m
  let mean ← pyDiv (∑ m, Js m) nValid
  let Js : Vec M K := fun m => Js m + (1 - mean)
  return fun m => Js m * masks m

/-- Lines 399-407 of `_finder_impl.py`: field differences, their maximum and the update of the
fields. Returns `(max_abs_omega_diff, omega_temp, omegas)`. Models
`flory/mcmp/_finder_impl.py:398-407`. -/
def updateOmegas (step : K) (masks : Vec M K) (omegaTemp omegas : Mat S M K) :
    K × Mat S M K × Mat S M K :=
  forRange S (0, omegaTemp, omegas) fun r s =>
    let omegaTemp := setAt s.2.1 r fun m => s.2.1 r m - s.2.2 r m
    let omegaTemp := setAt omegaTemp r fun m => omegaTemp r m * masks m
    let maxDiff := max s.1 (npMax (omegaTemp r))
    let omegas := setAt s.2.2 r fun m => s.2.2 r m + step * omegaTemp r m
    let omegas := setAt omegas r fun m => omegas r m * masks m
    (maxDiff, omegaTemp, omegas)

/-- Lines 409-414 of `_finder_impl.py`: evolve all constraints, collect the largest residue. Models
`flory/mcmp/_finder_impl.py:409-414`. -/
def evolveCons (step : K) (masks : Vec M K) :
    List (Cons S M K) → K → Py (K × List (Cons S M K))
  | [], acc => .ok (acc, [])
  | c :: cs, acc => do
    let (res, c) ← c.evolve step masks
    let (acc, cs) ← evolveCons step masks cs (max acc res)
    return (acc, c :: cs)

/-- One pass of the loop body of `multicomponent_self_consistent_metastep`
(`_finder_impl.py:329-414`).  `n_valid_phase = int(masks.sum())` is kept as a number of `K`. -/
def iterate (ia : InteractionI S M K) (en : EntropyI C S M K) (es : EnsembleI C M K)
    (rng : Rng G K) (p : Params K) (reviveTries : ℤ) (reviveCount : ℕ) (s : State C S M K G) :
    Py (Trace C S M K G) := do
  -- lines 330-337
  let rv := reviveBlock rng p reviveTries s.Js s.omegas s.g reviveCount
  -- lines 340-342
  let masks := makeMasks rv.Js p.killThreshold
  let nValid := ∑ m, masks m
  let Js : Vec M K := fun m => rv.Js m * masks m
  -- lines 345-348
  let (phisComp, Qs) ← en.partition s.phisComp rv.targets Js
  let (phisComp, incomp) ← es.normalize phisComp Qs masks
  let phisFeat ← en.compToFeat s.phisFeat phisComp
  let maxAbsIncomp := npMax fun m => |incomp m|
  -- lines 351-353
  let consPrep := s.cons.map (Cons.prepare phisFeat Js masks)
  -- lines 356-381
  let potential := ia.potential phisFeat
  let xi := computeXi (ia.incompCoef phisFeat) incomp rv.targets potential consPrep masks
  let (localEnergy, omegaTemp) := computeLocal (ia.volumeDerivative potential phisFeat)
    (en.volumeDerivative phisComp) xi incomp potential phisFeat consPrep
  -- lines 384-386
  let localEnergyMean ← pyDiv (∑ m, localEnergy m * Js m) nValid
  let JsDiff : Vec M K := fun m => (localEnergyMean - localEnergy m) * masks m
  let maxAbsJsDiff := npMax fun m => |JsDiff m|
  -- lines 389-390
  let JsMaxChange := max (maxAbsJsDiff * p.acceptanceJs) p.JsStepUpperBound
  let factor ← pyDiv p.JsStepUpperBound JsMaxChange
  -- lines 393-396
  let JsNew ← updateJs factor p.acceptanceJs JsDiff masks nValid Js
  -- lines 399-407
  let (maxAbsOmegaDiff, omegaDiff, omegas) :=
    updateOmegas (factor * p.acceptanceOmega) masks omegaTemp rv.targets
  -- lines 409-414
  let (maxConstraintResidue, cons) ← evolveCons (factor * p.acceptanceOmega) masks consPrep 0
  return {
    masks, nValid, omegasOld := rv.targets, JsOld := Js, Qs, phisComp, incomp, phisFeat
    consPrep, potential, xi, localEnergy, localEnergyMean, JsDiff, factor, Js := JsNew
    omegaDiff, omegas, cons, g := rv.g, reviveCount := rv.count, maxAbsIncomp
    maxAbsOmegaDiff, maxAbsJsDiff, maxConstraintResidue }

/-- The mutable data after a pass of the loop body. Models `flory/mcmp/_finder_impl.py:329-414`. -/
def Trace.state (t : Trace C S M K G) : State C S M K G where
  omegas := t.omegas
  Js := t.Js
  phisComp := t.phisComp
  phisFeat := t.phisFeat
  cons := t.cons
  g := t.g

/-- The remaining passes of the loop after a first one (`_finder_impl.py:329`). -/
def iterateMore (ia : InteractionI S M K) (en : EntropyI C S M K) (es : EnsembleI C M K)
    (rng : Rng G K) (p : Params K) (reviveTries : ℤ) :
    (steps : ℕ) → Trace C S M K G → Py (Trace C S M K G)
  | 0, t => .ok t
  | n + 1, t => do
    let t ← iterate ia en es rng p reviveTries t.reviveCount t.state
    iterateMore ia en es rng p reviveTries n t

/-- What `multicomponent_self_consistent_metastep` returns (`_finder_impl.py:419-426`), plus
the trace of the last pass, whose arrays are the new content of the mutable arguments. -/
structure MetaResult (C S M : ℕ) (K G : Type) where
  last : Trace C S M K G
  isLastStepSafe : Bool

/-- `multicomponent_self_consistent_metastep` (`_finder_impl.py:209-426`).  With
`steps_inner = 0` the returned variables are unbound. -/
def metastep (ia : InteractionI S M K) (en : EntropyI C S M K) (es : EnsembleI C M K)
    (rng : Rng G K) (p : Params K) (reviveTries : ℤ) (stepsInner : ℕ) (s : State C S M K G) :
    Py (MetaResult C S M K G) :=
  match stepsInner with
  | 0 => .error .unboundLocalError
  | n + 1 => do
    let t ← iterate ia en es rng p reviveTries 0 s
    let t ← iterateMore ia en es rng p reviveTries n t
    -- lines 417, 425
    let nLast := countValid t.Js p.killThreshold
    return { last := t, isLastStepSafe := decide (t.nValid = (nLast : K)) }

end Iteration

end Flory
