import Verif.Spec.Separated
import Verif.Spec.Finder

/-! # Scans of parameters

A scan changes the interaction and the mean composition of a finder step by step and calls `run` after each
change.  Fields, volumes and the random generator are carried over from one run to the next. -/

namespace Flory.Spec

variable {C S M : ℕ}

/-- Settings of the iteration: acceptances with ratio `ρ`, and a threshold that cannot kill all
compartments. -/
structure ParamSetup (M : ℕ) (p : Params ℝ) (ρ : ℝ) : Prop where
  kill : 0 ≤ p.killThreshold
  kill_lt : p.killThreshold < 1
  kill_all : 2 * p.killThreshold * ((M : ℝ) - 1) < 1
  bound : 0 < p.JsStepUpperBound
  omega : 0 < p.acceptanceOmega
  js : p.acceptanceJs = ρ * p.acceptanceOmega

/-- Settings of one run: a canonical mixture of ideal molecules of sizes `l`, with the standard criterion. -/
structure RunSetup [NeZero M] {G : Type} (ia : FHCompiled S ℝ) (es : CanonicalC C ℝ) (feat : Fin C → Fin S) (l : Vec C ℝ)
    (p : Params ℝ) (e : RunEnv C S M ℝ G) : Prop where
  rng : e.rng.Ok
  criterion : e.criterion = "standard"
  interaction : e.ia = ia.toI M
  gas : IsIdealGas e.en l feat
  ensemble : e.es = es.toI M
  params : e.params = p

/-- A continuous family of coexisting phases: at the point `t` the interaction is `chis t` and the mean
composition `x t`, and the phases have volumes `J t` and compositions `phi t`. -/
structure Branch {T : Type} [TopologicalSpace T] (feat : Fin C → Fin S) (l : Vec C ℝ) (chis : T → Mat S S ℝ)
    (x : T → Vec C ℝ) (J : T → Vec M ℝ) (phi : T → Mat C M ℝ) : Prop where
  contChis : ∀ r q, Continuous fun t => chis t r q
  contX : ∀ i, Continuous fun t => x t i
  contJ : ∀ m, Continuous fun t => J t m
  contPhi : ∀ i m, Continuous fun t => phi t i m
  symm : ∀ t r q, chis t r q = chis t q r
  vol : ∀ t m, 0 < J t m
  coexist : ∀ t, Coexistence (chis t) feat l (x t) (J t) (phi t)
  stable : ∀ t m, StablePhase (chis t) feat l fun i => phi t i m
  independent : ∀ t, IndependentPhases (phi t)

/-- The arrays with which run `k` of a scan starts: those that the run before has left behind. -/
noncomputable def scanState [NeZero M] {G : Type} (e : ℕ → RunEnv C S M ℝ G) (maxSteps : ℕ → ℚ) (tol : ℝ)
    (interval b : ℕ → ℤ) (st : State C S M ℝ G) : ℕ → State C S M ℝ G
  | 0 => st
  | k + 1 => (runImpl (e k) (maxSteps k) tol (interval k) (scanState e maxSteps tol interval b st k) (b k)).1.st

/-- Scans follow a family of coexisting phases.  There are a largest step `h`, a largest tolerance `τ` and a
constant `B` such that every scan (of any length) which moves by at most `h` between two runs and starts
near the phases of its first point succeeds: without revivals every run reports errors below the tolerance
and returns the compositions and volumes of the phases at its point up to `B` times the tolerance.  The number of steps that
the runs need is the same for all of them and grows at most like the logarithm of the inverse tolerance. -/
def FollowsBranch {T : Type} [PseudoMetricSpace T] [NeZero M] (G : Type) (feat : Fin C → Fin S) (l : Vec C ℝ)
    (chis : T → Mat S S ℝ) (x : T → Vec C ℝ) (J : T → Vec M ℝ) (phi : T → Mat C M ℝ) (shift : T → ℝ)
    (p : Params ℝ) : Prop :=
  ∃ h > 0, ∃ η > 0, ∃ τ > 0, ∃ B > 0, ∀ offset : Vec S ℝ, ∃ K > 0, ∀ tol, 0 < tol → tol ≤ τ →
    ∃ N : ℕ, LogSteps K tol N ∧
    ∀ ts : ℕ → T, (∀ k, dist (ts k) (ts (k + 1)) ≤ h) →
    ∀ es : ℕ → CanonicalC C ℝ, (∀ k, (es k).phiMeans = x (ts k)) →
    ∀ e : ℕ → RunEnv C S M ℝ G, (∀ k, RunSetup (FHCompiled.new (chis (ts k)) (shift (ts k))) (es k) feat l p (e k)) →
    ∀ st : State C S M ℝ G, ∑ m, st.Js m = M → (∀ m, |st.Js m - J (ts 0) m| ≤ η) →
      (∀ r m, |st.omegas r m -
        (equilibriumField (chis (ts 0)) feat l (fun j => phi (ts 0) j m) r + offset r)| ≤ η) →
      (∀ c ∈ st.cons, c.Trivial) →
    ∀ (maxSteps : ℕ → ℚ) (interval b : ℕ → ℤ), (∀ k, N ≤ maxSteps k) → (∀ k, 0 < interval k) →
    ∀ k, ∃ ph d, (runImpl (e k) (maxSteps k) tol (interval k)
        (scanState e maxSteps tol interval b st k) (b k)).2 = .ok (ph, d) ∧
      d.reviveCountLeft = b k ∧ d.maxAbsIncomp < tol ∧ d.maxAbsOmegaDiff < tol ∧ d.maxAbsJsDiff < tol ∧
      d.maxConstraintResidue = 0 ∧ (∀ m i, |ph.fractions m i - phi (ts k) i m| ≤ B * tol) ∧
      ∀ m, |ph.volumes m - J (ts k) m| ≤ B * tol

/-- Volume of the compartments of phase `k` if compartment `m` belongs to the phase `phase m`. -/
noncomputable def volumeOf {P : ℕ} (J : Vec M ℝ) (phase : Fin M → Fin P) (k : Fin P) : ℝ :=
  ∑ m with phase m = k, J m

/-- A run after a small change of interaction and mean composition.  The compartments are close to phases of
compositions `psi` that coexist in a mixture with interaction `chis` and mean composition `x`; compartment
`m` belongs to the phase `phase m`.  If interaction and mean composition change by at most `η`, then there are
phases that coexist in the changed mixture, within `ε` of the old ones, and each run that
starts within `η` of the old phases ends in the new ones after a number of steps that grows at most like the
logarithm of the inverse tolerance. -/
def WarmStarts [NeZero M] {P : ℕ} (G : Type) (feat : Fin C → Fin S) (l : Vec C ℝ) (chis : Mat S S ℝ) (x : Vec C ℝ)
    (J : Vec M ℝ) (phase : Fin M → Fin P) (psi : Mat C P ℝ) (shift : ℝ) (p : Params ℝ) : Prop :=
  ∀ ε > 0, ∃ η > 0, ∃ B > 0, ∃ q, 0 < q ∧ q < 1 ∧ ∀ offset : Vec S ℝ, ∃ K > 0, ∀ tol, 0 < tol →
    ∃ N : ℕ, LogSteps K tol N ∧
    ∀ (chis' : Mat S S ℝ) (es : CanonicalC C ℝ), (∀ r k, chis' r k = chis' k r) →
      (∀ r k, |chis' r k - chis r k| ≤ η) → (∀ i, |es.phiMeans i - x i| ≤ η) → ∑ i, es.phiMeans i = 1 →
    ∃ (J' : Vec M ℝ) (psi' : Mat C P ℝ), Coexistence chis' feat l es.phiMeans J' (fun i m => psi' i (phase m)) ∧
      (∀ k, StablePhase chis' feat l fun i => psi' i k) ∧ (∀ m, 0 < J' m) ∧ (∀ m, |J' m - J m| ≤ ε) ∧
      (∀ i k, |psi' i k - psi i k| ≤ ε) ∧
    ∀ shift' : ℝ, |shift' - shift| ≤ η →
    ∀ e : RunEnv C S M ℝ G, RunSetup (FHCompiled.new chis' shift') es feat l p e →
    ∀ st : State C S M ℝ G, ∑ m, st.Js m = M → (∀ m, |st.Js m - J m| ≤ η) →
      (∀ r m, |st.omegas r m - (equilibriumField chis feat l (fun j => psi j (phase m)) r + offset r)| ≤ η) →
      (∀ c ∈ st.cons, c.Trivial) →
    ∀ (maxSteps : ℚ) (interval b : ℤ), N ≤ maxSteps → 0 < interval →
    ∃ f ph d, runImpl e maxSteps tol interval st b = (f, .ok (ph, d)) ∧
      d.reviveCountLeft = b ∧ d.maxAbsIncomp < tol ∧ d.maxAbsOmegaDiff < tol ∧ d.maxAbsJsDiff < tol ∧
      d.maxConstraintResidue = 0 ∧
      (∀ m i, |ph.fractions m i - psi' i (phase m)| ≤ B * min tol (q ^ d.steps)) ∧
      (∀ m, |ph.volumes m - J m| ≤ ε) ∧
      (∀ k, |volumeOf ph.volumes phase k - volumeOf J' phase k| ≤ B * min tol (q ^ d.steps)) ∧
      ∀ m i, |ph.fractions m i - psi' i (phase m)| ≤ ε

/-! ## The same for a finder -/

/-- Calls of `set_interaction` and `set_ensemble`. -/
def IsSetter : FinderOp → Prop
  | .setInteraction _ _ _ => True
  | .setEnsemble _ _ _ => True
  | _ => False

/-- Before each run of a scan some methods are called: the finder at the time when run `k` starts, if
`calls k` are the calls between the runs `k - 1` and `k`. -/
noncomputable def scanFinder {G : Type} (env : FinderEnv G) (calls : ℕ → List FinderOp) (maxSteps : ℕ → ℚ)
    (tol : ℝ) (interval : ℕ → ℤ) (f : Finder G) : ℕ → Finder G
  | 0 => (f.steps env (calls 0)).1
  | k + 1 => (((scanFinder env calls maxSteps tol interval f k).run env (some (maxSteps k)) (some tol)
      (some (interval k))).1.steps env (calls (k + 1))).1

/-- A finder whose volumes and fields are close to those of coexisting phases (the fields up to an offset of
each feature), with the given parameters and without constraints that act. -/
structure FinderNear {G : Type} (feat : Fin C → Fin S) (l : Vec C ℝ) (chis : Mat S S ℝ) (J : Vec M ℝ)
    (phi : Mat C M ℝ) (p : Params ℝ) (η : ℝ) (offset : Vec S ℝ) (f : Finder G) : Prop where
  numComp : f.numComp = C
  numFeat : f.numFeat = S
  numPart : f.numPart = M
  params : f.params = p
  criterion : f.criterion = "standard"
  entropy : ∃ en : EntropyInst C S, f.entropy = ⟨C, S, en⟩ ∧ IsIdealGas (en.toI M) l feat
  constraints : ∀ c ∈ f.constraints, c.numFeat = S ∧ c.ready = true ∧ c.cons.Trivial
  volumes : ∑ m, f.Js m = M
  near : ∀ (m : Fin f.numPart) (m' : Fin M), m.1 = m'.1 → |f.Js m - J m'| ≤ η
  fields : ∀ (r : Fin f.numFeat) (r' : Fin S) (m : Fin f.numPart) (m' : Fin M), r.1 = r'.1 → m.1 = m'.1 →
    |f.omegas r m - (equilibriumField chis feat l (fun j => phi j m') r' + offset r')| ≤ η

/-- Scans with a finder follow a family of coexisting phases: as `FollowsBranch`, for any calls of
`set_interaction` and `set_ensemble` between the runs that install the interaction and the mean composition
of the point. -/
def FinderFollows {T : Type} [PseudoMetricSpace T] (G : Type) (feat : Fin C → Fin S) (l : Vec C ℝ)
    (chis : T → Mat S S ℝ) (x : T → Vec C ℝ) (J : T → Vec M ℝ) (phi : T → Mat C M ℝ) (shift : T → ℝ)
    (p : Params ℝ) : Prop :=
  ∃ h > 0, ∃ η > 0, ∃ τ > 0, ∃ B > 0, ∀ offset : Vec S ℝ, ∃ K > 0, ∀ tol, 0 < tol → tol ≤ τ →
    ∃ N : ℕ, LogSteps K tol N ∧
    ∀ ts : ℕ → T, (∀ k, dist (ts k) (ts (k + 1)) ≤ h) →
    ∀ env : FinderEnv G, env.rng.Ok →
    ∀ f : Finder G, FinderNear feat l (chis (ts 0)) (J (ts 0)) (phi (ts 0)) p η offset f →
    ∀ calls : ℕ → List FinderOp, (∀ k, ∀ op ∈ calls k, IsSetter op) →
    ∀ (maxSteps : ℕ → ℚ) (interval : ℕ → ℤ), (∀ k, N ≤ maxSteps k) → (∀ k, 0 < interval k) →
    (∀ k, (scanFinder env calls maxSteps tol interval f k).interaction =
      ⟨S, FHCompiled.new (chis (ts k)) (shift (ts k))⟩) →
    (∀ k, (scanFinder env calls maxSteps tol interval f k).ensemble = ⟨C, .canonical ⟨x (ts k)⟩⟩) →
    ∀ k, ∃ ph d, ((scanFinder env calls maxSteps tol interval f k).run env (some (maxSteps k)) (some tol)
        (some (interval k))).2 = .ok ⟨M, C, ph, d⟩ ∧
      d.reviveCountLeft = (scanFinder env calls maxSteps tol interval f k).reviveLeft ∧
      d.maxAbsIncomp < tol ∧ d.maxAbsOmegaDiff < tol ∧ d.maxAbsJsDiff < tol ∧
      d.maxConstraintResidue = 0 ∧ (∀ m i, |ph.fractions m i - phi (ts k) i m| ≤ B * tol) ∧
      ∀ m, |ph.volumes m - J (ts k) m| ≤ B * tol

end Flory.Spec
