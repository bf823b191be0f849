import Verif.Model.Finder

/-! # Vocabulary for statements about finders -/

namespace Flory.Spec

variable {G : Type}

/-- Sizes and defaults of `f'` are those of `f`. -/
structure SameSetup (f f' : Finder G) : Prop where
  numComp : f'.numComp = f.numComp
  numFeat : f'.numFeat = f.numFeat
  numPart : f'.numPart = f.numPart
  maxSteps : f'.maxSteps = f.maxSteps
  criterion : f'.criterion = f.criterion
  tolerance : f'.tolerance = f.tolerance
  interval : f'.interval = f.interval
  randomStd : f'.randomStd = f.randomStd
  params : f'.params = f.params
  maxRevive : f'.maxRevive = f.maxRevive
  kwargs : f'.kwargs = f.kwargs

/-- All compiled instances have the sizes of the finder and the constraints are initialized. -/
structure Fits (f : Finder G) : Prop where
  interaction : f.interaction.1 = f.numFeat
  entropyComp : f.entropy.numComp = f.numComp
  entropyFeat : f.entropy.numFeat = f.numFeat
  ensemble : f.ensemble.1 = f.numComp
  constraints : ∀ c ∈ f.constraints, c.numFeat = f.numFeat ∧ c.ready = true

/-- The components of a polydisperse entropy are those listed per feature.  Holds for everything
`IdealGasPolydispersedEntropy` compiles to. -/
def Sized {C S : ℕ} : EntropyInst C S → Prop
  | .ideal _ => True
  | .poly e => C = ∑ r, e.perFeat r

/-- No feature is empty (an empty feature makes the code misassign components, see C22). -/
def NoEmptyFeature {C S : ℕ} : EntropyInst C S → Prop
  | .ideal _ => True
  | .poly e => ∀ r, 1 ≤ e.perFeat r

/-- A compiled constraint contains at least one equation. -/
def NonEmpty {S : ℕ} : ConsNew S → Prop
  | .no => True
  | .loc A _ _ _ _ => A ≠ 0
  | .glob A _ _ _ _ => A ≠ 0

/-- What a compiled constraint enforces: class, coefficients, targets, numerical parameters. -/
def consParams {S M : ℕ} : Cons S M ℝ → ConsNew S
  | .no _ => .no
  | .loc A c => .loc A c.Cs c.Ts c.acceptanceRatio c.elasticity
  | .glob A c => .glob A c.Cs c.Ts c.acceptanceRatio c.elasticity

/-- The same for a constraint in a finder. -/
def PackedCons.enforces {M : ℕ} (c : PackedCons M) : AnyConsNew := ⟨c.numFeat, consParams c.cons⟩

/-- The constraints a finder works with. -/
def enforced (f : Finder G) : List AnyConsNew := f.constraints.map PackedCons.enforces

/-- What a new finder is made of: the sizes of the entropy `en`, the defaults `a`, the instances and
constraints given; all volumes equal to one and a full revive budget. -/
structure Created (a : FinderArgs) (ia : AnyInteraction) (en : AnyEntropy) (es : AnyEnsemble)
    (cs : List AnyConsNew) (f : Finder G) : Prop where
  numComp : f.numComp = en.numComp
  numFeat : f.numFeat = en.numFeat
  numPart : f.numPart = (if a.numPart.getD 0 = 0 then en.numComp * 8 else a.numPart.getD 0)
  maxSteps : f.maxSteps = a.maxSteps
  criterion : f.criterion = a.criterion
  tolerance : f.tolerance = a.tolerance
  interval : f.interval = a.interval
  randomStd : f.randomStd = a.randomStd
  params : f.params = ⟨a.acceptanceJs, a.JsStepUpperBound, a.acceptanceOmega, a.killThreshold,
    a.reviveScaler⟩
  maxRevive : f.maxRevive = a.maxRevive
  kwargs : f.kwargs = a.kwargs
  interaction : f.interaction = ia
  entropy : f.entropy = en
  ensemble : f.ensemble = es
  enforced : enforced f = cs
  Js : ∀ m, f.Js m = 1
  reviveLeft : f.reviveLeft = a.maxRevive * f.numPart
  diagnostics : f.diagnostics = none
  fits : Fits f

/-- `f'` has the sizes, defaults, interaction, entropy and ensemble of `f` and enforces the same
constraints.  Fields, volumes, fractions, multipliers of the constraints, the revive budget, the
generator and the diagnostics may differ. -/
def Akin (f f' : Finder G) : Prop :=
  ∃ (cs : List (PackedCons f.numPart)) (w : Mat f.numFeat f.numPart ℝ) (J : Vec f.numPart ℝ)
    (pf : Mat f.numFeat f.numPart ℝ) (pc : Mat f.numComp f.numPart ℝ) (rl : ℤ) (g : G)
    (d : Option (Diagnostics ℝ)),
    f' = { f with constraints := cs, omegas := w, Js := J, phisFeat := pf, phisComp := pc,
                  reviveLeft := rl, g := g, diagnostics := d } ∧
    cs.map PackedCons.enforces = f.constraints.map PackedCons.enforces

/-- Compiled code that raises leaves the class and the parameters of the constraints alone. -/
def CrashKeeps (env : FinderEnv G) : Prop :=
  ∀ C S M (st : State C S M ℝ G), (env.crash C S M st).cons.map consParams = st.cons.map consParams

/-- Constraint objects of an argument. -/
def consObjs : ConsArg → List (InstObj AnyConsNew)
  | .none => []
  | .single c => [c]
  | .many cs => cs
  | .other => []

/-- A compiled entropy without empty features. -/
def GoodEntropy (x : AnyEntropy) : Prop := Sized x.inst ∧ NoEmptyFeature x.inst

/-- Entropy objects and constraint objects in the call compile to entropies without empty features and
to constraints with at least one equation. -/
def WellMade : FinderOp → Prop
  | .setEntropy o _ _ => ∀ kw x, o.impl kw = .ok x → GoodEntropy x
  | .setConstraints c _ _ _ => ∀ o ∈ consObjs c, ∀ kw x, o.impl kw = .ok x → NonEmpty x.2
  | _ => True

/-- Calls that replace an instance. -/
def IsSet : FinderOp → Prop
  | .setInteraction .. | .setEntropy .. | .setEnsemble .. | .setConstraints .. => True
  | _ => False

/-- No call that replaces an instance raises in the history `ops` of `f`. -/
def SetsAccepted (env : FinderEnv G) (ops : List FinderOp) (f : Finder G) : Prop :=
  ∀ pre op post, ops = pre ++ op :: post → IsSet op →
    ((Finder.steps env pre f).1.step env op).2 = .ok none

/-- Calls that initialize the fields. -/
def IsReinit : FinderOp → Prop
  | .reinitRandom | .reinitOmegas _ | .reinitPhis _ => True
  | _ => False

/-- Calls that reset the revive budget (if they do not raise). -/
def IsReset : FinderOp → Prop
  | .setInteraction _ r _ | .setEntropy _ r _ | .setEnsemble _ r _ | .setConstraints _ r _ _ => r = true
  | .resetRevive | .reinitRandom | .reinitOmegas _ | .reinitPhis _ => True
  | .reinitConstraint | .run .. => False

end Flory.Spec
