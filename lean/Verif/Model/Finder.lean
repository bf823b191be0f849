import Verif.Model.Objects
import Verif.Model.Run

/-!
# Model of `CoexistingPhasesFinder` (`flory/mcmp/finder.py`)

A finder is a record; each method returns the finder after the call (also if the call raises) and the
result or exception.  Not modelled: logging, progress bars, the seed bookkeeping of lines 204-212.

Running a finder whose compiled instances do not fit (possible only after ignoring an exception of a
`set_*` method) lets numba code access arrays out of bounds, or use constraints that were never
initialized.  The model returns the error `outOfBounds` and arbitrary arrays in this case.
-/

namespace Flory

/-- What the model does not fix: the generator functions and the content of the arrays after an
exception inside compiled code. Models `self._rng` of `flory/mcmp/finder.py:204-212`; exceptions
inside `flory/mcmp/_finder_impl.py:209-426`. -/
structure FinderEnv (G : Type) where
  rng : Rng G ℝ
  crash : (C S M : ℕ) → State C S M ℝ G → State C S M ℝ G

/-- A compiled constraint in a finder with `M` compartments. `ready` tells whether `initialize` has
been called. An element of `self._constraints`, `flory/mcmp/finder.py:188-196`, and `initialize` at
`flory/mcmp/finder.py:442`. -/
structure PackedCons (M : ℕ) where
  numFeat : ℕ
  ready : Bool
  cons : Cons numFeat M ℝ

/-- A constraint just compiled (`finder.py:191`, `194`, `196`, `408`, `417`, `423`). -/
noncomputable def PackedCons.ofNew {M : ℕ} (c : AnyConsNew) : PackedCons M := ⟨c.1, false, c.2.start M⟩

/-- `cons.initialize(self._num_part)` (`finder.py:442`). -/
noncomputable def PackedCons.reset {M : ℕ} (c : PackedCons M) : PackedCons M := ⟨c.numFeat, true, c.cons.reset⟩

/-- The attributes of a finder (`finder.py:178-239`). -/
structure Finder (G : Type) where
  numComp : ℕ
  numFeat : ℕ
  numPart : ℕ
  maxSteps : ℚ
  criterion : String
  tolerance : ℝ
  interval : ℤ
  randomStd : ℝ
  params : Params ℝ
  maxRevive : ℤ
  kwargs : Dict ℝ
  interaction : AnyInteraction
  entropy : AnyEntropy
  ensemble : AnyEnsemble
  constraints : List (PackedCons numPart)
  omegas : Mat numFeat numPart ℝ
  Js : Vec numPart ℝ
  phisFeat : Mat numFeat numPart ℝ
  phisComp : Mat numComp numPart ℝ
  reviveLeft : ℤ
  g : G
  diagnostics : Option (Diagnostics ℝ)

/-- Argument `constraints` (`finder.py:69`, `189-196`, `404-423`): `None`, a `ConstraintBase`, a list or
tuple of them, or something else that is neither falsy nor iterable. -/
inductive ConsArg where
  | none
  | single (c : InstObj AnyConsNew)
  | many (cs : List (InstObj AnyConsNew))
  | other

/-- Argument `kwargs_individual` (`finder.py:383`). -/
inductive IndArg where
  | none
  | dict (d : Dict ℝ)
  | dicts (ds : List (Dict ℝ))

/-- Keyword arguments of the constructor (`finder.py:71-85`) with their defaults. -/
structure FinderArgs where
  numPart : Option ℕ := Option.none
  maxSteps : ℚ := 1000000
  criterion : String := "standard"
  tolerance : ℝ := 1 / 100000
  interval : ℤ := 10000
  randomStd : ℝ := 5
  acceptanceJs : ℝ := 2 / 10000
  acceptanceOmega : ℝ := 2 / 1000
  JsStepUpperBound : ℝ := 1 / 1000
  killThreshold : ℝ := 0
  reviveScaler : ℝ := 1
  maxRevive : ℤ := 16
  kwargs : Dict ℝ := []

/-- The result of `run`, with the diagnostics stored at the end of it. Models
`flory/mcmp/finder.py:656-686`. -/
structure RunOut where
  numPart : ℕ
  numComp : ℕ
  phases : Phases numPart numComp ℝ
  diagnostics : Diagnostics ℝ

/-- Compile objects in order, stopping at the first exception: what has been appended so far and the
exception. The loops at `flory/mcmp/finder.py:189-194` and `413-421`. -/
noncomputable def compileAll {M : ℕ} : List (InstObj AnyConsNew × Dict ℝ) → List (PackedCons M) × Option PyErr
  | [] => ([], none)
  | (o, kw) :: rest =>
    match o.compiled kw with
    | .error e => ([], some e)
    | .ok c =>
      let (cs, e) := compileAll rest
      (.ofNew c :: cs, e)

/-- Compilation of the constructor's `constraints` (`finder.py:188-196`). -/
noncomputable def initConstraints (M S : ℕ) (kwargs : Dict ℝ) (constraints : ConsArg) :
    List (PackedCons M) × Option PyErr :=
  match constraints with
  | .none => ([.ofNew ⟨S, .no⟩], none)
  | .single c => compileAll [(c, kwargs)]
  | .many [] => ([.ofNew ⟨S, .no⟩], none)
  | .many cs => compileAll (cs.map fun c => (c, kwargs))
  | .other => ([], none)

/-- Compilation in `set_constraints` (`finder.py:403-423`); `base` is
`{**self._kwargs_for_instances, **kwargs}`.  A list of dictionaries for a single constraint, or a
dictionary (whose keys are strings) in place of the list of dictionaries, makes `**` raise
`TypeError`. -/
noncomputable def newConstraints (M S : ℕ) (base : Dict ℝ) (constraints : ConsArg) (ind : IndArg) :
    List (PackedCons M) × Option PyErr :=
  match constraints with
  | .none => ([.ofNew ⟨S, .no⟩], none)
  | .many [] => ([.ofNew ⟨S, .no⟩], none)
  | .single c =>
    match ind with
    | .none => compileAll [(c, base.merge [])]
    | .dict d => compileAll [(c, base.merge d)]
    | .dicts _ => ([], some .typeError)
  | .many cs =>
    match ind with
    | .none => compileAll (cs.zip ((List.replicate cs.length []).map base.merge))
    | .dict [] => ([], none)
    | .dict (_ :: _) => ([], some .typeError)
    | .dicts ds => compileAll (cs.zip (ds.map base.merge))
  | .other => ([], none)

namespace Finder

variable {G : Type}

/-- `check_instance` (`finder.py:241-284`); the arguments are the attributes of the instance. -/
def checkSizes (numComp numFeat : ℕ) (instComp instFeat : Option ℕ) : Py Unit :=
  if ∃ c, instComp = some c ∧ c ≠ numComp then .error .componentNumberError
  else if ∃ s, instFeat = some s ∧ s ≠ numFeat then .error .featureNumberError
  else .ok ()

/-- `for cons in self._constraints: self.check_instance(cons)` (`finder.py:201-202`, `425-426`). -/
def checkAll {M : ℕ} (numComp numFeat : ℕ) : List (PackedCons M) → Py Unit
  | [] => .ok ()
  | c :: cs => do
    checkSizes numComp numFeat none (some c.numFeat)
    checkAll numComp numFeat cs

/-- `rng.normal(0.0, std, (rows, cols))`: filled row by row. Models `flory/mcmp/finder.py:449-453`. -/
def drawNormal (rng : Rng G ℝ) (std : ℝ) (rows cols : ℕ) (g : G) : Mat rows cols ℝ × G :=
  forRange rows (fun _ _ => 0, g) fun r s => forRange cols s fun c s =>
    let (x, g) := rng.normal s.2
    (setAt2 s.1 r c (0 + std * x), g)

/-- `reset_revive` (`finder.py:433-436`). -/
def resetRevive (f : Finder G) : Finder G := { f with reviveLeft := f.maxRevive * f.numPart }

/-- `reinitialize_constraint` (`finder.py:438-442`). -/
noncomputable def reinitConstraint (f : Finder G) : Finder G :=
  { f with constraints := f.constraints.map PackedCons.reset }

/-- `reinitialize_random` (`finder.py:444-456`); numpy rejects a negative standard deviation. -/
noncomputable def reinitRandom (env : FinderEnv G) (f : Finder G) : Finder G × Py Unit :=
  if f.randomStd < 0 then (f, .error .valueError)
  else
    let d := drawNormal env.rng f.randomStd f.numFeat f.numPart f.g
    let f : Finder G := { f with omegas := d.1, g := d.2, Js := fun _ => 1 }
    (f.resetRevive.reinitConstraint, .ok ())

/-- `check_field` (`finder.py:286-309`). -/
def checkField (f : Finder G) (field : NDArr ℝ) : Py (Mat f.numFeat f.numPart ℝ) :=
  if field.shape ≠ [f.numFeat, f.numPart] then .error .valueError
  else .ok (field.toMat f.numFeat f.numPart)

/-- `reinitialize_from_omegas` (`finder.py:458-469`). -/
noncomputable def reinitOmegas (f : Finder G) (omegas : NDArr ℝ) : Finder G × Py Unit :=
  match f.checkField omegas with
  | .error e => (f, .error e)
  | .ok w =>
    let f : Finder G := { f with omegas := w, Js := fun _ => 1 }
    (f.resetRevive.reinitConstraint, .ok ())

/-- A compiled interaction as one of `S` features. Argument of the call at
`flory/mcmp/finder.py:594-611`; Lean types only. -/
def unpackInteraction (x : AnyInteraction) (S : ℕ) : Option (FHCompiled S ℝ) :=
  if h : x.1 = S then some (h ▸ x.2) else none

/-- A compiled entropy as one of `C` components and `S` features. Argument of the call at
`flory/mcmp/finder.py:594-611`; Lean types only. -/
def unpackEntropy (x : AnyEntropy) (C S : ℕ) : Option (EntropyInst C S) :=
  if h : x.numComp = C ∧ x.numFeat = S then some (h.1 ▸ h.2 ▸ x.inst) else none

/-- A compiled ensemble as one of `C` components. Argument of the call at
`flory/mcmp/finder.py:594-611`; Lean types only. -/
def unpackEnsemble (x : AnyEnsemble) (C : ℕ) : Option (EnsembleInst C) :=
  if h : x.1 = C then some (h ▸ x.2) else none

/-- An initialized constraint as one of `S` features. Argument of the call at
`flory/mcmp/finder.py:594-611`; Lean types only. -/
def unpackCons {M : ℕ} (x : PackedCons M) (S : ℕ) : Option (Cons S M ℝ) :=
  if h : x.numFeat = S ∧ x.ready = true then some (h.1 ▸ x.cons) else none

/-- `reinitialize_from_phis` (`finder.py:471-488`); the product `chis @ phis` raises `ValueError` if
the interaction does not fit. -/
noncomputable def reinitPhis (f : Finder G) (phis : NDArr ℝ) : Finder G × Py Unit :=
  match f.checkField phis with
  | .error e => (f, .error e)
  | .ok p =>
    match unpackInteraction f.interaction f.numFeat with
    | none => (f, .error .valueError)
    | some ia =>
      let f : Finder G := { f with omegas := ia.potential p, Js := fun _ => 1 }
      (f.resetRevive.reinitConstraint, .ok ())

/-- Last lines of the `set_*` methods (`finder.py:331-332`, `353-354`, `375-376`, `430-431`). -/
def maybeReset (f : Finder G) (reset : Bool) : Finder G := if reset then f.resetRevive else f

/-- `set_interaction` (`finder.py:311-332`). -/
def setInteraction (f : Finder G) (o : InstObj AnyInteraction) (reset : Bool) (kwargs : Dict ℝ) :
    Finder G × Py Unit :=
  match o.compiled (f.kwargs.merge kwargs) with
  | .error e => (f, .error e)
  | .ok x =>
    let f : Finder G := { f with interaction := x }
    match checkSizes f.numComp f.numFeat none (some x.1) with
    | .error e => (f, .error e)
    | .ok () => (f.maybeReset reset, .ok ())

/-- `set_entropy` (`finder.py:334-354`). -/
def setEntropy (f : Finder G) (o : InstObj AnyEntropy) (reset : Bool) (kwargs : Dict ℝ) :
    Finder G × Py Unit :=
  match o.compiled (f.kwargs.merge kwargs) with
  | .error e => (f, .error e)
  | .ok x =>
    let f : Finder G := { f with entropy := x }
    match checkSizes f.numComp f.numFeat (some x.numComp) (some x.numFeat) with
    | .error e => (f, .error e)
    | .ok () => (f.maybeReset reset, .ok ())

/-- `set_ensemble` (`finder.py:356-376`). -/
def setEnsemble (f : Finder G) (o : InstObj AnyEnsemble) (reset : Bool) (kwargs : Dict ℝ) :
    Finder G × Py Unit :=
  match o.compiled (f.kwargs.merge kwargs) with
  | .error e => (f, .error e)
  | .ok x =>
    let f : Finder G := { f with ensemble := x }
    match checkSizes f.numComp f.numFeat (some x.1) none with
    | .error e => (f, .error e)
    | .ok () => (f.maybeReset reset, .ok ())

/-- `set_constraints` (`finder.py:378-431`). -/
noncomputable def setConstraints (f : Finder G) (constraints : ConsArg) (reset : Bool) (ind : IndArg)
    (kwargs : Dict ℝ) : Finder G × Py Unit :=
  let new := newConstraints f.numPart f.numFeat (f.kwargs.merge kwargs) constraints ind
  let f : Finder G := { f with constraints := new.1 }
  match new.2 with
  | some e => (f, .error e)
  | none =>
    match checkAll f.numComp f.numFeat f.constraints with
    | .error e => (f, .error e)
    | .ok () => (f.reinitConstraint.maybeReset reset, .ok ())

/-- The instances of a finder with their types fixed by the sizes of the finder. Arguments of the
call at `flory/mcmp/finder.py:594-611`. -/
structure Parts (C S M : ℕ) where
  ia : FHCompiled S ℝ
  en : EntropyInst C S
  es : EnsembleInst C
  cons : List (Cons S M ℝ)

/-- The instances, if all of them fit and all constraints are initialized. Arguments of the call at
`flory/mcmp/finder.py:594-611`; in the code the sizes agree because of
`flory/mcmp/finder.py:241-284`. -/
def parts (f : Finder G) : Option (Parts f.numComp f.numFeat f.numPart) := do
  let ia ← unpackInteraction f.interaction f.numFeat
  let en ← unpackEntropy f.entropy f.numComp f.numFeat
  let es ← unpackEnsemble f.ensemble f.numComp
  let cons ← f.constraints.mapM fun c => unpackCons c f.numFeat
  return ⟨ia, en, es, cons⟩

/-- What stays fixed during `run`. Models `flory/mcmp/finder.py:549-611`. -/
noncomputable def runEnv {C S M : ℕ} (env : FinderEnv G) (f : Finder G) (p : Parts C S M) :
    RunEnv C S M ℝ G where
  ia := p.ia.toI M
  en := p.en.toI M
  es := p.es.toI M
  rng := env.rng
  params := f.params
  criterion := f.criterion
  crash := env.crash C S M

/-- The arrays, constraints and generator of a finder. Models `self._Js`, `self._omegas`,
`self._phis_comp`, `self._phis_feat`, `self._constraints`, `self._rng` of
`flory/mcmp/finder.py:188-238`. -/
def state (f : Finder G) (cons : List (Cons f.numFeat f.numPart ℝ)) :
    State f.numComp f.numFeat f.numPart ℝ G where
  omegas := f.omegas
  Js := f.Js
  phisComp := f.phisComp
  phisFeat := f.phisFeat
  cons := cons
  g := f.g

/-- Arrays and generator after compiled code worked on them in place. In-place changes by the call
at `flory/mcmp/finder.py:594-611`. -/
def storeArrays (f : Finder G) (st : State f.numComp f.numFeat f.numPart ℝ G) : Finder G :=
  { f with
    omegas := st.omegas
    Js := st.Js
    phisComp := st.phisComp
    phisFeat := st.phisFeat
    g := st.g }

/-- Everything `run` changes except the diagnostics. Models `flory/mcmp/finder.py:585-648`. -/
def store (f : Finder G) (rs : RunState f.numComp f.numFeat f.numPart ℝ G) : Finder G :=
  { f.storeArrays rs.st with
    constraints := rs.st.cons.map fun c => ⟨f.numFeat, true, c⟩
    reviveLeft := rs.reviveLeft }

/-- `run` (`finder.py:510-686`); `numPart = 0` is possible only for mixtures without components and
is not modelled further than as an exception. -/
noncomputable def run (env : FinderEnv G) (f : Finder G) (maxSteps : Option ℚ) (tolerance : Option ℝ)
    (interval : Option ℤ) : Finder G × Py RunOut :=
  match f.parts with
  | none =>
    (f.storeArrays (env.crash f.numComp f.numFeat f.numPart (f.state [])), .error .outOfBounds)
  | some p =>
    if h : f.numPart = 0 then (f, .error .valueError)
    else
      haveI : NeZero f.numPart := ⟨h⟩
      let res := runImpl (f.runEnv env p) (maxSteps.getD f.maxSteps) (tolerance.getD f.tolerance)
        (interval.getD f.interval) (f.state p.cons) f.reviveLeft
      match res.2 with
      | .error e => (f.store res.1, .error e)
      | .ok (ph, d) => ({ f.store res.1 with diagnostics := some d }, .ok ⟨_, _, ph, d⟩)

/-- `self._num_part` (`finder.py:186`); a negative number of compartments is not modelled. -/
def partNumber (numPart : Option ℕ) (numComp : ℕ) : ℕ :=
  match numPart with
  | none => numComp * 8
  | some n => if n = 0 then numComp * 8 else n

/-- The attributes before the fields are initialized (`finder.py:178-238`). -/
def blank (a : FinderArgs) (ia : AnyInteraction) (en : AnyEntropy) (es : AnyEnsemble) (numPart : ℕ)
    (cons : List (PackedCons numPart)) (g : G) : Finder G where
  numComp := en.numComp
  numFeat := en.numFeat
  numPart := numPart
  maxSteps := a.maxSteps
  criterion := a.criterion
  tolerance := a.tolerance
  interval := a.interval
  randomStd := a.randomStd
  params :=
    { acceptanceJs := a.acceptanceJs
      JsStepUpperBound := a.JsStepUpperBound
      acceptanceOmega := a.acceptanceOmega
      killThreshold := a.killThreshold
      reviveScaler := a.reviveScaler }
  maxRevive := a.maxRevive
  kwargs := a.kwargs
  interaction := ia
  entropy := en
  ensemble := es
  constraints := cons
  omegas := fun _ _ => 0
  Js := fun _ => 0
  phisFeat := fun _ _ => 0
  phisComp := fun _ _ => 0
  reviveLeft := a.maxRevive * numPart
  g := g
  diagnostics := none

/-- `CoexistingPhasesFinder(...)` (`finder.py:64-239`); `g` is the state of the generator.  An empty
tuple or other falsy value for `constraints` is treated as an empty list, as in the code. -/
noncomputable def create (env : FinderEnv G) (g : G) (interaction : InstObj AnyInteraction)
    (entropy : InstObj AnyEntropy) (ensemble : InstObj AnyEnsemble) (constraints : ConsArg)
    (a : FinderArgs) : Py (Finder G) := do
  let ia ← interaction.compiled a.kwargs
  let en ← entropy.compiled a.kwargs
  let es ← ensemble.compiled a.kwargs
  let numPart := partNumber a.numPart en.numComp
  let cons := initConstraints numPart en.numFeat a.kwargs constraints
  match cons.2 with
  | some e => .error e
  | none => do
    checkSizes en.numComp en.numFeat none (some ia.1)
    checkSizes en.numComp en.numFeat (some en.numComp) (some en.numFeat)
    checkSizes en.numComp en.numFeat (some es.1) none
    checkAll en.numComp en.numFeat cons.1
    let f := (blank a ia en es numPart cons.1 g).reinitRandom env
    f.2
    return f.1

end Finder

/-- A call of a public method of a finder. Models `flory/mcmp/finder.py:311-686`. -/
inductive FinderOp where
  | setInteraction (o : InstObj AnyInteraction) (reset : Bool) (kwargs : Dict ℝ)
  | setEntropy (o : InstObj AnyEntropy) (reset : Bool) (kwargs : Dict ℝ)
  | setEnsemble (o : InstObj AnyEnsemble) (reset : Bool) (kwargs : Dict ℝ)
  | setConstraints (constraints : ConsArg) (reset : Bool) (ind : IndArg) (kwargs : Dict ℝ)
  | resetRevive
  | reinitConstraint
  | reinitRandom
  | reinitOmegas (omegas : NDArr ℝ)
  | reinitPhis (phis : NDArr ℝ)
  | run (maxSteps : Option ℚ) (tolerance : Option ℝ) (interval : Option ℤ)

/-- Method call (`finder.py:311-686`): the finder after the call and the result or exception. -/
noncomputable def Finder.step {G : Type} (env : FinderEnv G) (f : Finder G) :
    FinderOp → Finder G × Py (Option RunOut)
  | .setInteraction o reset kw => let r := f.setInteraction o reset kw; (r.1, r.2.map fun _ => none)
  | .setEntropy o reset kw => let r := f.setEntropy o reset kw; (r.1, r.2.map fun _ => none)
  | .setEnsemble o reset kw => let r := f.setEnsemble o reset kw; (r.1, r.2.map fun _ => none)
  | .setConstraints c reset ind kw =>
    let r := f.setConstraints c reset ind kw; (r.1, r.2.map fun _ => none)
  | .resetRevive => (f.resetRevive, .ok none)
  | .reinitConstraint => (f.reinitConstraint, .ok none)
  | .reinitRandom => let r := f.reinitRandom env; (r.1, r.2.map fun _ => none)
  | .reinitOmegas w => let r := f.reinitOmegas w; (r.1, r.2.map fun _ => none)
  | .reinitPhis p => let r := f.reinitPhis p; (r.1, r.2.map fun _ => none)
  | .run ms tol int => let r := f.run env ms tol int; (r.1, r.2.map some)

/-- A history of calls, exceptions being ignored: the finder and all results. User code; the calls
are those of `flory/mcmp/finder.py:311-686`. -/
noncomputable def Finder.steps {G : Type} (env : FinderEnv G) :
    List FinderOp → Finder G → Finder G × List (Py (Option RunOut))
  | [], f => (f, [])
  | op :: ops, f =>
    let r := f.step env op
    let rs := steps env ops r.1
    (rs.1, r.2 :: rs.2)

end Flory
