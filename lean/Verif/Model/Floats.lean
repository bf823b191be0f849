import Verif.Model.Run
import Verif.Model.Ensemble
import Mathlib.Analysis.SpecialFunctions.Exp

/-!
# The core iteration with arbitrary arithmetic

The other models compute in an ordered field.  Here the numbers are a type `F` with arbitrary operations
`o : Floats F`, so that rounding, overflow, infinities and NaN are covered.  With exact operations these are
the definitions of `Model/FinderImpl.lean` and `Model/Run.lean` (theorem `C85_exact`).
-/

namespace Flory

/-- Arithmetic as provided by numpy and numba.  `sum`, `dot`, `max`, `min` are those of arrays, `max2` is
Python's `max(a, b)`, `whole` is `int(x)` converted back to a float. Models
`flory/mcmp/_finder_impl.py:46`, `69`, `118-131`, `341-414`. -/
structure Floats (F : Type) where
  add : F → F → F
  sub : F → F → F
  mul : F → F → F
  div : F → F → F
  neg : F → F
  abs : F → F
  exp : F → F
  ofNat : ℕ → F
  half : F
  lt : F → F → Prop
  le : F → F → Prop
  eq : F → F → Prop
  decLt : DecidableRel lt
  decLe : DecidableRel le
  decEq : DecidableRel eq
  sum : {n : ℕ} → Vec n F → F
  dot : {n : ℕ} → Vec n F → Vec n F → F
  max : {n : ℕ} → [NeZero n] → Vec n F → F
  min : {n : ℕ} → [NeZero n] → Vec n F → F
  max2 : F → F → F
  sign : F → F
  clip0 : F → F
  whole : F → F

attribute [instance] Floats.decLt Floats.decLe Floats.decEq

/-- Exact arithmetic, as in the other models. Models `flory/mcmp/_finder_impl.py:29-426`. -/
def Floats.exact (K : Type) [Field K] [LinearOrder K] (exp : K → K) : Floats K where
  add x y := x + y
  sub x y := x - y
  mul x y := x * y
  div x y := x / y
  neg x := -x
  abs x := |x|
  exp := exp
  ofNat n := n
  half := 1 / 2
  lt x y := x < y
  le x y := x ≤ y
  eq x y := x = y
  decLt := inferInstance
  decLe := inferInstance
  decEq := inferInstance
  sum v := ∑ i, v i
  dot v w := ∑ i, v i * w i
  max v := npMax v
  min v := npMin v
  max2 x y := Max.max x y
  sign := npSign
  clip0 := npClipMin 0
  whole x := x

variable {F G : Type} (o : Floats F)

local infixl:65 " +ᶠ " => o.add
local infixl:65 " -ᶠ " => o.sub
local infixl:70 " *ᶠ " => o.mul
local infixl:70 " /ᶠ " => o.div

/-- Scalar division in compiled code, see `pyDiv`. Models `flory/mcmp/_finder_impl.py:384`, `390`,
`395`. -/
def Floats.pyDiv (a b : F) : Py F :=
  if o.eq b (o.ofNat 0) then .error .zeroDivisionError else .ok (a /ᶠ b)

/-- Maximum of an array that may be empty, see `npMaxPy`. Models `flory/constraint/linear_local.py:122`,
`flory/constraint/linear_global.py:128`. -/
def Floats.maxPy : {n : ℕ} → (v : Vec n F) → Py F
  | 0, _ => .error .valueError
  | _ + 1, v => .ok (o.max v)

section Constraints

variable {A S M : ℕ}

/-- `LinearLocalConstraintCompiled.prepare` (`flory/constraint/linear_local.py:102-117`). -/
def LocalC.prepareF (c : LocalC A S M F) (phisFeat : Mat S M F) (_Js masks : Vec M F) : LocalC A S M F :=
  let residue : Mat A M F := fun a m => o.dot (c.Cs a) fun r => phisFeat r m
  let residue := forRange A residue fun a res => setAt res a fun m => res a m -ᶠ c.Ts a
  let potential : Mat S M F := fun r m =>
    o.dot (fun a => c.Cs a r) fun a => c.multiplier a m +ᶠ o.ofNat 2 *ᶠ c.elasticity *ᶠ residue a m
  let vd : Vec M F := forRange A (fun _ => o.ofNat 0) fun a vd m =>
    vd m +ᶠ residue a m *ᶠ (c.multiplier a m +ᶠ residue a m *ᶠ c.elasticity)
  { c with
    potential := fun r m => potential r m *ᶠ masks m
    residue := fun a m => residue a m *ᶠ masks m
    volumeDerivative := fun m => vd m *ᶠ masks m }

/-- `LinearLocalConstraintCompiled.evolve` (`flory/constraint/linear_local.py:119-122`). -/
def LocalC.evolveF [NeZero M] (c : LocalC A S M F) (step : F) (masks : Vec M F) :
    Py (F × LocalC A S M F) := do
  let multiplier : Mat A M F := fun a m =>
    c.multiplier a m +ᶠ step *ᶠ c.acceptanceRatio *ᶠ c.residue a m
  let multiplier : Mat A M F := fun a m => multiplier a m *ᶠ masks m
  let res ← o.maxPy fun a => o.max fun m => o.abs (c.residue a m)
  return (res, { c with multiplier := multiplier })

/-- `LinearGlobalConstraintCompiled.prepare` (`flory/constraint/linear_global.py:103-124`). -/
def GlobalC.prepareF (c : GlobalC A S M F) (phisFeat : Mat S M F) (Js masks : Vec M F) :
    GlobalC A S M F :=
  let compartResidue : Mat A M F := fun a m => o.dot (c.Cs a) fun r => phisFeat r m
  let compartResidue := forRange A compartResidue fun a res => setAt res a fun m =>
    res a m -ᶠ c.Ts a
  let residue : Vec A F := fun a => o.sum fun m => compartResidue a m *ᶠ Js m
  let potential : Mat S M F := fun r _ =>
    o.dot (fun a => c.Cs a r) (fun a => c.multiplier a +ᶠ o.ofNat 2 *ᶠ c.elasticity *ᶠ residue a) *ᶠ
      o.ofNat 1
  let vd : Vec M F := forRange A (fun _ => o.ofNat 0) fun a vd m =>
    vd m +ᶠ compartResidue a m *ᶠ (c.multiplier a +ᶠ o.ofNat 2 *ᶠ residue a *ᶠ c.elasticity)
  { c with
    potential := fun r m => potential r m *ᶠ masks m
    volumeDerivative := fun m => vd m *ᶠ masks m
    residue := fun a => residue a /ᶠ o.sum Js }

/-- `LinearGlobalConstraintCompiled.evolve` (`flory/constraint/linear_global.py:126-128`). -/
def GlobalC.evolveF (c : GlobalC A S M F) (step : F) (_masks : Vec M F) : Py (F × GlobalC A S M F) := do
  let multiplier : Vec A F := fun a => c.multiplier a +ᶠ step *ᶠ c.acceptanceRatio *ᶠ c.residue a
  let res ← o.maxPy fun a => o.abs (c.residue a)
  return (res, { c with multiplier := multiplier })

/-- `NoConstraintCompiled.evolve` (`flory/constraint/no.py:54-55`). -/
def NoC.evolveF (c : NoC S M F) (_step : F) (_masks : Vec M F) : Py (F × NoC S M F) := .ok (o.ofNat 0, c)

/-- Method dispatch of `prepare` (`flory/constraint/base.py:64-83`). -/
def Cons.prepareF (phisFeat : Mat S M F) (Js masks : Vec M F) : Cons S M F → Cons S M F
  | no c => no c
  | loc A c => loc A (c.prepareF o phisFeat Js masks)
  | glob A c => glob A (c.prepareF o phisFeat Js masks)

/-- Method dispatch of `evolve` (`flory/constraint/base.py:85-99`). -/
def Cons.evolveF [NeZero M] (step : F) (masks : Vec M F) : Cons S M F → Py (F × Cons S M F)
  | no c => do let (r, c) ← c.evolveF o step masks; return (r, no c)
  | loc A c => do let (r, c) ← c.evolveF o step masks; return (r, loc A c)
  | glob A c => do let (r, c) ← c.evolveF o step masks; return (r, glob A c)

end Constraints

section Ensembles

variable {C M : ℕ}

/-- `CanonicalEnsembleCompiled.normalize` (`flory/ensemble/canonical.py:54-63`). -/
def CanonicalC.normalizeF (e : CanonicalC C F) (phisComp : Mat C M F) (Qs : Vec C F) (masks : Vec M F) :
    Py (Mat C M F × Vec M F) := do
  let s ← forRangeM C (phisComp, fun _ => o.neg (o.ofNat 1) *ᶠ o.ofNat 1) fun i s => do
    let factor ← o.pyDiv (e.phiMeans i) (Qs i)
    let phis := setAt s.1 i fun m => factor *ᶠ s.1 i m *ᶠ masks m
    return (phis, fun m => s.2 m +ᶠ phis i m)
  return (s.1, fun m => s.2 m *ᶠ masks m)

/-- `GrandCanonicalEnsembleCompiled.normalize` (`flory/ensemble/grandcanonical.py:54-64`). -/
def GrandC.normalizeF (e : GrandC C F) (phisComp : Mat C M F) (_Qs : Vec C F) (masks : Vec M F) :
    Py (Mat C M F × Vec M F) :=
  let s := forRange C (phisComp, fun _ => o.neg (o.ofNat 1) *ᶠ o.ofNat 1) fun i s =>
    let phis := setAt s.1 i fun m => e.scaledActivity i *ᶠ s.1 i m *ᶠ masks m
    (phis, fun m => s.2 m +ᶠ phis i m)
  .ok (s.1, fun m => s.2 m *ᶠ masks m)

end Ensembles

section Compartments

variable {R M : ℕ}

/-- `count_valid_compartments` (`flory/mcmp/_finder_impl.py:29-46`). -/
def countValidF (Js : Vec M F) (threshold : F) : ℕ := ∑ m, if o.lt threshold (Js m) then 1 else 0

/-- `make_valid_compartment_masks` (`flory/mcmp/_finder_impl.py:49-69`). -/
def makeMasksF (Js : Vec M F) (threshold : F) : Vec M F := fun m => o.clip0 (o.sign (Js m -ᶠ threshold))

/-- `revive_compartments_by_random` (`flory/mcmp/_finder_impl.py:72-133`). -/
def reviveByRandomF [NeZero M] (rng : Rng G F) (Js : Vec M F) (targets : Mat R M F) (threshold scaler : F)
    (g : G) : ReviveState R M F G :=
  let centers : Vec R F := fun r => (o.max (targets r) +ᶠ o.min (targets r)) *ᶠ o.half
  let widths : Vec R F := fun r => (o.max (targets r) -ᶠ o.min (targets r)) *ᶠ o.half
  forRange M ⟨Js, targets, g, 0⟩ fun m s =>
    if o.le (s.Js m) threshold then
      let s := { s with Js := setAt s.Js m (o.ofNat 1), count := s.count + 1 }
      forRange R s fun r s =>
        let d := rng.uniform s.g
        { s with
          targets := setAt2 s.targets r m (centers r +ᶠ widths r *ᶠ scaler *ᶠ d.1)
          g := d.2 }
    else s

/-- The classification loop of `revive_compartments_by_copy` (`flory/mcmp/_finder_impl.py:176-186`). -/
def classifyF (Js : Vec M F) (threshold : F) :
    Py (Vec M (Option (Fin M)) × ℕ × Vec M (Option (Fin M)) × ℕ) :=
  forRangeM M ((fun _ => none), 0, (fun _ => none), 0) fun m s => do
    let (dead, deadCount, living, livingCount) := s
    if o.lt (o.ofNat 2 *ᶠ threshold) (Js m) then
      let living ← writeAt living livingCount (some m)
      return (dead, deadCount, living, livingCount + 1)
    else if o.le (Js m) threshold then
      let dead ← writeAt dead deadCount (some m)
      return (dead, deadCount + 1, living, livingCount)
    else
      return s

/-- The `while True` loop for one dead compartment (`flory/mcmp/_finder_impl.py:189-205`), see
`copyLoop`. -/
def copyLoopF (rng : Rng G F) (threshold : F) (dead : Fin M) :
    (livingCount : ℕ) → Vec M F → Mat R M F → Vec M (Option (Fin M)) → G → ℕ → Py (CopyState R M F G)
  | 0, _, _, _, g, _ => do
    let _ ← rng.integersPy g 0
    throw .outOfBounds
  | c + 1, Js, targets, living, g, count => do
    let (pos, g) ← rng.integersPy g (c + 1)
    match ← readAt living pos with
    | none => throw .outOfBounds
    | some ref =>
      if o.lt (o.ofNat 2 *ᶠ threshold) (Js ref) then
        let targets : Mat R M F := fun r m => if m = dead then targets r ref else targets r m
        let newJ := o.half *ᶠ Js ref
        let Js := setAt Js dead newJ
        let Js := setAt Js ref newJ
        let living ← writeAt living (c + 1) (some dead)
        return ⟨Js, targets, living, c + 2, g, count + 1⟩
      else
        let last ← readAt living c
        let living ← writeAt living pos last
        let living ← writeAt living c none
        copyLoopF rng threshold dead c Js targets living g count

/-- The loop over the dead compartments (`flory/mcmp/_finder_impl.py:188-205`). -/
def copyDeadF (rng : Rng G F) (threshold : F) :
    List (Option (Fin M)) → CopyState R M F G → Py (CopyState R M F G)
  | [], s => .ok s
  | none :: _, _ => .error .outOfBounds
  | some d :: ds, s => do
    let s ← copyLoopF o rng threshold d s.livingCount s.Js s.targets s.living s.g s.count
    copyDeadF rng threshold ds s

/-- `revive_compartments_by_copy` (`flory/mcmp/_finder_impl.py:136-206`). -/
def reviveByCopyF (rng : Rng G F) (Js : Vec M F) (targets : Mat R M F) (threshold : F) (g : G) :
    Py (CopyState R M F G) := do
  let (dead, deadCount, living, livingCount) ← classifyF o Js threshold
  copyDeadF o rng threshold ((List.ofFn dead).take deadCount) ⟨Js, targets, living, livingCount, g, 0⟩

end Compartments

section Iteration

variable {C S M : ℕ} [NeZero M]

/-- Reviving at the start of a pass (`flory/mcmp/_finder_impl.py:330-337`). -/
def reviveBlockF (rng : Rng G F) (p : Params F) (reviveTries : ℤ) (Js : Vec M F) (omegas : Mat S M F)
    (g : G) (reviveCount : ℕ) : ReviveState S M F G :=
  if (reviveCount : ℤ) < reviveTries then
    if countValidF o Js p.killThreshold ≠ M then
      let r := reviveByRandomF o rng Js omegas p.killThreshold p.reviveScaler g
      { r with count := reviveCount + r.count }
    else ⟨Js, omegas, g, reviveCount⟩
  else ⟨Js, omegas, g, reviveCount⟩

/-- The Lagrange multiplier `xi` (`flory/mcmp/_finder_impl.py:358-368`). -/
def computeXiF (coef : F) (incomp : Vec M F) (omegas potential : Mat S M F) (cons : List (Cons S M F))
    (masks : Vec M F) : Vec M F :=
  let xi : Vec M F := fun m => coef *ᶠ incomp m
  let xi := forRange S xi fun r xi m => xi m +ᶠ (omegas r m -ᶠ potential r m)
  let xi := cons.foldl (fun xi c => forRange S xi fun r xi m => xi m -ᶠ c.potential r m) xi
  let xi : Vec M F := fun m => xi m *ᶠ masks m
  fun m => xi m /ᶠ o.ofNat S

/-- `local_energy` and the total field `omega_temp` (`flory/mcmp/_finder_impl.py:370-381`). -/
def computeLocalF (vdInteraction vdEntropy : Vec M F) (xi incomp : Vec M F) (potential : Mat S M F)
    (phisFeat : Mat S M F) (cons : List (Cons S M F)) : Vec M F × Mat S M F :=
  let localEnergy : Vec M F := fun m => vdInteraction m +ᶠ vdEntropy m +ᶠ xi m *ᶠ incomp m
  let s := cons.foldl (fun (s : Vec M F × Mat S M F) c =>
    (fun m => s.1 m +ᶠ c.volumeDerivative m, fun r m => s.2 r m +ᶠ c.potential r m))
    (localEnergy, potential)
  forRange S s fun r s =>
    let omegaTemp := setAt s.2 r fun m => s.2 r m +ᶠ xi m
    (fun m => s.1 m -ᶠ omegaTemp r m *ᶠ phisFeat r m, omegaTemp)

/-- Update of the volumes (`flory/mcmp/_finder_impl.py:392-396`). -/
def updateJsF (factor acceptanceJs : F) (JsDiff masks : Vec M F) (nValid : F) (Js : Vec M F) :
    Py (Vec M F) := do
  let Js : Vec M F := fun m => Js m +ᶠ factor *ᶠ acceptanceJs *ᶠ JsDiff m
  let Js : Vec M F := fun m => Js m *ᶠ masks m
  let mean ← o.pyDiv (o.sum Js) nValid
  let Js : Vec M F := fun m => Js m +ᶠ (o.ofNat 1 -ᶠ mean)
  return fun m => Js m *ᶠ masks m

/-- Field differences, their maximum and the update of the fields (`flory/mcmp/_finder_impl.py:398-407`). -/
def updateOmegasF (step : F) (masks : Vec M F) (omegaTemp omegas : Mat S M F) :
    F × Mat S M F × Mat S M F :=
  forRange S (o.ofNat 0, omegaTemp, omegas) fun r s =>
    let omegaTemp := setAt s.2.1 r fun m => s.2.1 r m -ᶠ s.2.2 r m
    let omegaTemp := setAt omegaTemp r fun m => omegaTemp r m *ᶠ masks m
    let maxDiff := o.max2 s.1 (o.max (omegaTemp r))
    let omegas := setAt s.2.2 r fun m => s.2.2 r m +ᶠ step *ᶠ omegaTemp r m
    let omegas := setAt omegas r fun m => omegas r m *ᶠ masks m
    (maxDiff, omegaTemp, omegas)

/-- Evolution of all constraints and the largest residue (`flory/mcmp/_finder_impl.py:409-414`). -/
def evolveConsF (step : F) (masks : Vec M F) : List (Cons S M F) → F → Py (F × List (Cons S M F))
  | [], acc => .ok (acc, [])
  | c :: cs, acc => do
    let (res, c) ← c.evolveF o step masks
    let (acc, cs) ← evolveConsF step masks cs (o.max2 acc res)
    return (acc, c :: cs)

/-- One pass of the loop body of `multicomponent_self_consistent_metastep`
(`flory/mcmp/_finder_impl.py:329-414`). -/
def iterateF (ia : InteractionI S M F) (en : EntropyI C S M F) (es : EnsembleI C M F) (rng : Rng G F)
    (p : Params F) (reviveTries : ℤ) (reviveCount : ℕ) (s : State C S M F G) : Py (Trace C S M F G) := do
  let rv := reviveBlockF o rng p reviveTries s.Js s.omegas s.g reviveCount
  let masks := makeMasksF o rv.Js p.killThreshold
  let nValid := o.whole (o.sum masks)
  let Js : Vec M F := fun m => rv.Js m *ᶠ masks m
  let (phisComp, Qs) ← en.partition s.phisComp rv.targets Js
  let (phisComp, incomp) ← es.normalize phisComp Qs masks
  let phisFeat ← en.compToFeat s.phisFeat phisComp
  let maxAbsIncomp := o.max fun m => o.abs (incomp m)
  let consPrep := s.cons.map (Cons.prepareF o phisFeat Js masks)
  let potential := ia.potential phisFeat
  let xi := computeXiF o (ia.incompCoef phisFeat) incomp rv.targets potential consPrep masks
  let (localEnergy, omegaTemp) := computeLocalF o (ia.volumeDerivative potential phisFeat)
    (en.volumeDerivative phisComp) xi incomp potential phisFeat consPrep
  let localEnergyMean ← o.pyDiv (o.sum fun m => localEnergy m *ᶠ Js m) nValid
  let JsDiff : Vec M F := fun m => (localEnergyMean -ᶠ localEnergy m) *ᶠ masks m
  let maxAbsJsDiff := o.max fun m => o.abs (JsDiff m)
  let JsMaxChange := o.max2 (maxAbsJsDiff *ᶠ p.acceptanceJs) p.JsStepUpperBound
  let factor ← o.pyDiv p.JsStepUpperBound JsMaxChange
  let JsNew ← updateJsF o factor p.acceptanceJs JsDiff masks nValid Js
  let (maxAbsOmegaDiff, omegaDiff, omegas) :=
    updateOmegasF o (factor *ᶠ p.acceptanceOmega) masks omegaTemp rv.targets
  let (maxConstraintResidue, cons) ← evolveConsF o (factor *ᶠ p.acceptanceOmega) masks consPrep (o.ofNat 0)
  return {
    masks, nValid, omegasOld := rv.targets, JsOld := Js, Qs, phisComp, incomp, phisFeat
    consPrep, potential, xi, localEnergy, localEnergyMean, JsDiff, factor, Js := JsNew
    omegaDiff, omegas, cons, g := rv.g, reviveCount := rv.count, maxAbsIncomp
    maxAbsOmegaDiff, maxAbsJsDiff, maxConstraintResidue }

/-- The remaining passes of the loop after a first one (`flory/mcmp/_finder_impl.py:329`). -/
def iterateMoreF (ia : InteractionI S M F) (en : EntropyI C S M F) (es : EnsembleI C M F) (rng : Rng G F)
    (p : Params F) (reviveTries : ℤ) : (steps : ℕ) → Trace C S M F G → Py (Trace C S M F G)
  | 0, t => .ok t
  | n + 1, t => do
    let t ← iterateF o ia en es rng p reviveTries t.reviveCount t.state
    iterateMoreF ia en es rng p reviveTries n t

/-- `multicomponent_self_consistent_metastep` (`flory/mcmp/_finder_impl.py:209-426`). -/
def metastepF (ia : InteractionI S M F) (en : EntropyI C S M F) (es : EnsembleI C M F) (rng : Rng G F)
    (p : Params F) (reviveTries : ℤ) (stepsInner : ℕ) (s : State C S M F G) : Py (MetaResult C S M F G) :=
  match stepsInner with
  | 0 => .error .unboundLocalError
  | n + 1 => do
    let t ← iterateF o ia en es rng p reviveTries 0 s
    let t ← iterateMoreF o ia en es rng p reviveTries n t
    let nLast := countValidF o t.Js p.killThreshold
    return { last := t, isLastStepSafe := decide (o.eq t.nValid (o.ofNat nLast)) }

/-- The convergence test (`flory/mcmp/finder.py:631-638`). -/
def convergedF (tolerance : F) (r : MetaResult C S M F G) : Bool :=
  r.isLastStepSafe && decide (o.lt r.last.maxAbsIncomp tolerance)
    && decide (o.lt r.last.maxAbsOmegaDiff tolerance) && decide (o.lt r.last.maxAbsJsDiff tolerance)
    && decide (o.lt r.last.maxConstraintResidue tolerance)

/-- The loop of `run` (`flory/mcmp/finder.py:585-648`). -/
def runLoopF (e : RunEnv C S M F G) (tolerance : F) (inner : ℕ) :
    (n : ℕ) → RunState C S M F G → RunState C S M F G × Py Unit
  | 0, s => (s, .ok ())
  | n + 1, s =>
    match metastepF o e.ia e.en e.es e.rng e.params s.reviveLeft inner s.st with
    | .error err => ({ s with st := e.crash s.st }, .error err)
    | .ok r =>
      let s : RunState C S M F G :=
        { st := r.last.state
          reviveLeft := s.reviveLeft - r.last.reviveCount
          steps := s.steps + inner
          last := some r }
      if e.criterion = "standard" then
        if convergedF o tolerance r then (s, .ok ()) else runLoopF e tolerance inner n s
      else (s, .error .valueError)

/-- The end of `run` (`flory/mcmp/finder.py:657-686`). -/
def runFinalF (e : RunEnv C S M F G) (s : RunState C S M F G) :
    RunState C S M F G × Py (Phases M C F × Diagnostics F) :=
  match reviveByCopyF o e.rng s.st.Js s.st.phisComp e.params.killThreshold s.st.g with
  | .error err => (s, .error err)
  | .ok c =>
    let s : RunState C S M F G := { s with st := { s.st with g := c.g } }
    match s.last with
    | none => (s, .error .unboundLocalError)
    | some r => (s, .ok (⟨c.Js, fun m i => c.targets i m⟩,
        { steps := s.steps
          maxAbsIncomp := r.last.maxAbsIncomp
          maxAbsOmegaDiff := r.last.maxAbsOmegaDiff
          maxAbsJsDiff := r.last.maxAbsJsDiff
          maxConstraintResidue := r.last.maxConstraintResidue
          reviveCountLeft := s.reviveLeft }))

/-- `run` (`flory/mcmp/finder.py:510-686`) with the arguments resolved, see `runImpl`. -/
def runImplF (e : RunEnv C S M F G) (maxSteps : ℚ) (tolerance : F) (interval : ℤ) (st : State C S M F G)
    (reviveLeft : ℤ) : RunState C S M F G × Py (Phases M C F × Diagnostics F) :=
  let s : RunState C S M F G := ⟨st, reviveLeft, 0, none⟩
  match stepsTracker maxSteps interval with
  | .error err => (s, .error err)
  | .ok tracker =>
    match stepsInner maxSteps tracker with
    | .error err => (s, .error err)
    | .ok inner =>
      match runLoopF o e tolerance inner tracker.toNat s with
      | (s, .error err) => (s, .error err)
      | (s, .ok ()) => runFinalF o e s

end Iteration

end Flory
