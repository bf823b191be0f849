import Verif.Spec.Initial
import Verif.Props.FinderHistory

/-!
# C44, C78: the state a finder starts from, and constraints that were never initialized
-/

set_option linter.unusedSectionVars false

namespace Flory

open Spec

variable {G : Type}

theorem genAfter_add (rng : Rng G ℝ) (g : G) (a b : ℕ) :
    genAfter rng g (a + b) = genAfter rng (genAfter rng g a) b := by
  induction b with
  | zero => rfl
  | succ b ih => rw [← Nat.add_assoc]; simp only [genAfter, ih]

/-- One row of the array of draws. -/
theorem drawRow (rng : Rng G ℝ) (std : ℝ) {rows cols : ℕ} (r : Fin rows) (A : Mat rows cols ℝ) (g : G) :
    let s := forRange cols (A, g) fun c s =>
      (setAt2 s.1 r c (0 + std * (rng.normal s.2).1), (rng.normal s.2).2)
    (∀ r' m, s.1 r' m = if r' = r then std * normalDraw rng g m else A r' m) ∧
    s.2 = genAfter rng g cols := by
  intro s
  have key := forRange_inv (n := cols) (s := (A, g))
    (body := fun c s => (setAt2 s.1 r c (0 + std * (rng.normal s.2).1), (rng.normal s.2).2))
    (fun k s => (∀ r' m, s.1 r' m = if r' = r ∧ (m : ℕ) < k then std * normalDraw rng g m else A r' m) ∧
      s.2 = genAfter rng g k)
    ⟨fun r' m => by simp, rfl⟩ (fun i s ⟨h1, h2⟩ => by
      refine ⟨fun r' m => ?_, by simp only [h2]; rfl⟩
      simp only [setAt2, h2, h1]
      by_cases hr : r' = r
      · subst hr
        by_cases hm : m = i
        · subst hm; simp [normalDraw]
        · have : (m : ℕ) ≠ i := fun h => hm (Fin.ext h)
          have e : (m : ℕ) < i + 1 ↔ (m : ℕ) < i := by omega
          simp [hm, e]
      · simp [hr])
  refine ⟨fun r' m => ?_, key.2⟩
  rw [show s.1 r' m = _ from key.1 r' m]
  simp

/-- The array of draws is filled row by row. -/
theorem drawNormal_eq (rng : Rng G ℝ) (std : ℝ) (rows cols : ℕ) (g : G) :
    (∀ r m, (Finder.drawNormal rng std rows cols g).1 r m =
      std * normalDraw rng g (r * cols + m)) ∧
    (Finder.drawNormal rng std rows cols g).2 = genAfter rng g (rows * cols) := by
  have key := forRange_inv (n := rows) (s := ((fun _ _ => 0 : Mat rows cols ℝ), g))
    (body := fun r s => forRange cols s fun c s =>
      (setAt2 s.1 r c (0 + std * (rng.normal s.2).1), (rng.normal s.2).2))
    (fun k s => (∀ (r : Fin rows) m, (r : ℕ) < k → s.1 r m = std * normalDraw rng g (r * cols + m)) ∧
      s.2 = genAfter rng g (k * cols))
    ⟨fun _ _ h => absurd h (by omega), by simp [genAfter]⟩ (fun i s ⟨h1, h2⟩ => by
      obtain ⟨s1, s2⟩ := s
      simp only at h1 h2
      subst h2
      obtain ⟨k1, k2⟩ := drawRow rng std i s1 (genAfter rng g (i * cols))
      refine ⟨fun r m hr => ?_, ?_⟩
      · rw [k1]
        by_cases h : r = i
        · subst h
          rw [if_pos rfl]
          simp only [normalDraw, genAfter_add]
        · rw [if_neg h]
          exact h1 r m (by have : (r : ℕ) ≠ i := fun e => h (Fin.ext e)
                           omega)
      · rw [k2, ← genAfter_add, Nat.succ_mul])
  exact ⟨fun r m => key.1 r m r.2, key.2⟩

theorem noForce_reset {S M : ℕ} (c : Cons S M ℝ) : NoForce c.reset := by
  cases c <;> simp [Cons.reset, NoForce, LocalC.reset, GlobalC.reset]

theorem restarted (f : Finder G) (w : Mat f.numFeat f.numPart ℝ) (g : G) :
    Restarted f (({ f with omegas := w, g := g, Js := fun _ => 1 } :
      Finder G).resetRevive.reinitConstraint) w g where
  rest := ⟨_, rfl⟩
  enforced := by
    simp only [enforced, Finder.reinitConstraint, Finder.resetRevive, List.map_map]
    exact List.map_congr_left fun c _ => enforces_reset c
  ready c hc := by
    obtain ⟨c, -, rfl⟩ := List.mem_map.mp
      (show c ∈ f.constraints.map PackedCons.reset from hc)
    exact ⟨rfl, noForce_reset _⟩

/-- **C78**, `reinitialize_random`: the field of feature `r` in compartment `m` is the standard deviation
times draw number `r M + m` of the generator, which has advanced by exactly `N_S M` draws; volumes are
one, the revive budget is full, the constraints exert no force yet; nothing else changes.  A negative
standard deviation is rejected. -/
theorem C78_random (env : FinderEnv G) (f : Finder G) :
    (0 ≤ f.randomStd → (f.reinitRandom env).2 = .ok () ∧
      Restarted f (f.reinitRandom env).1
        (fun r m => f.randomStd * normalDraw env.rng f.g (r * f.numPart + m))
        (genAfter env.rng f.g (f.numFeat * f.numPart))) ∧
    (f.randomStd < 0 → f.reinitRandom env = (f, .error .valueError)) := by
  refine ⟨fun h => ?_, fun h => by simp [Finder.reinitRandom, h]⟩
  obtain ⟨h1, h2⟩ := drawNormal_eq env.rng f.randomStd f.numFeat f.numPart f.g
  unfold Finder.reinitRandom
  rw [if_neg (not_lt.mpr h)]
  refine ⟨rfl, ?_⟩
  dsimp only
  have h1' : (Finder.drawNormal env.rng f.randomStd f.numFeat f.numPart f.g).1 =
      fun (r : Fin f.numFeat) (m : Fin f.numPart) =>
        f.randomStd * normalDraw env.rng f.g (r * f.numPart + m) :=
    funext fun r => funext fun m => h1 r m
  rw [h2, h1']
  exact restarted f _ _

/-- **C78**, `reinitialize_from_omegas`: exactly arrays with one row per feature and one column per
compartment are accepted, and they become the fields. -/
theorem C78_omegas (f : Finder G) (w : NDArr ℝ) :
    (w.shape = [f.numFeat, f.numPart] → (f.reinitOmegas w).2 = .ok () ∧
      Restarted f (f.reinitOmegas w).1 (w.toMat f.numFeat f.numPart) f.g) ∧
    (w.shape ≠ [f.numFeat, f.numPart] → f.reinitOmegas w = (f, .error .valueError)) := by
  refine ⟨fun h => ?_, fun h => by simp [Finder.reinitOmegas, Finder.checkField, h]⟩
  have hc : f.checkField w = .ok (w.toMat f.numFeat f.numPart) := by simp [Finder.checkField, h]
  unfold Finder.reinitOmegas
  rw [hc]
  exact ⟨rfl, restarted f _ _⟩

/-- **C78**, `reinitialize_from_phis`: exactly arrays with one row per feature and one column per
compartment are accepted; the fields become `Σ_s χ_rs φ_s`. -/
theorem C78_phis (f : Finder G) {x : FHCompiled f.numFeat ℝ} (hx : f.interaction = ⟨_, x⟩)
    (p : NDArr ℝ) :
    (p.shape = [f.numFeat, f.numPart] → (f.reinitPhis p).2 = .ok () ∧
      Restarted f (f.reinitPhis p).1
        (fun r m => ∑ s, x.chis r s * p.toMat f.numFeat f.numPart s m) f.g) ∧
    (p.shape ≠ [f.numFeat, f.numPart] → f.reinitPhis p = (f, .error .valueError)) := by
  refine ⟨fun h => ?_, fun h => by simp [Finder.reinitPhis, Finder.checkField, h]⟩
  have hu : Finder.unpackInteraction f.interaction f.numFeat = some x := unpackInteraction_eq.mpr hx
  have hc : f.checkField p = .ok (p.toMat f.numFeat f.numPart) := by simp [Finder.checkField, h]
  unfold Finder.reinitPhis
  rw [hc]
  dsimp only
  rw [hu]
  exact ⟨rfl, restarted f _ _⟩

/-- **C78**, a new finder: fields drawn with the standard deviation given, unit volumes, full budget and
constraints without force; fractions are zero until the first pass. -/
theorem C78_created {env : FinderEnv G} {g : G} {interaction : InstObj AnyInteraction}
    {entropy : InstObj AnyEntropy} {ensemble : InstObj AnyEnsemble} {constraints : ConsArg}
    {a : FinderArgs} {f : Finder G}
    (h : Finder.create env g interaction entropy ensemble constraints a = .ok f) :
    0 ≤ a.randomStd ∧
    (∀ r m, f.omegas r m = a.randomStd * normalDraw env.rng g (r * f.numPart + m)) ∧
    f.g = genAfter env.rng g (f.numFeat * f.numPart) ∧
    (∀ m, f.Js m = 1) ∧ f.reviveLeft = a.maxRevive * f.numPart ∧
    (∀ c ∈ f.constraints, c.ready = true ∧ NoForce c.cons) ∧
    (∀ i m, f.phisComp i m = 0) ∧ (∀ r m, f.phisFeat r m = 0) ∧ f.diagnostics = none := by
  unfold Finder.create at h
  cases h1 : interaction.compiled a.kwargs with
  | error e => simp [h1, bind, Except.bind] at h
  | ok ia =>
  cases h2 : entropy.compiled a.kwargs with
  | error e => simp [h1, h2, bind, Except.bind] at h
  | ok en =>
  cases h3 : ensemble.compiled a.kwargs with
  | error e => simp [h1, h2, h3, bind, Except.bind] at h
  | ok es =>
  simp only [h1, h2, h3, bind, Except.bind] at h
  generalize hc : initConstraints (Finder.partNumber a.numPart en.numComp) en.numFeat a.kwargs
    constraints = cons at h
  split at h
  · cases h
  split at h
  · cases h
  split at h
  · cases h
  split at h
  · cases h
  split at h
  · cases h
  generalize hb : Finder.blank a ia en es (Finder.partNumber a.numPart en.numComp) cons.1 g = b at h
  have hstd : b.randomStd = a.randomStd := by rw [← hb]; rfl
  rcases lt_or_ge b.randomStd 0 with hneg | hpos
  · rw [(C78_random env b).2 hneg] at h
    cases h
  · obtain ⟨k1, ⟨cs, hk⟩, -, k3⟩ := (C78_random env b).1 hpos
    rw [k1] at h
    simp only [pure, Except.pure, Except.ok.injEq] at h
    rw [← h]
    refine ⟨hstd ▸ hpos, ?_, ?_, ?_, ?_, k3, ?_, ?_, ?_⟩
    all_goals rw [hk]
    · intro r m
      rw [← hstd, ← show b.g = g by rw [← hb]; rfl]
    · rw [← show b.g = g by rw [← hb]; rfl]
    · intro m; rfl
    · rw [← show b.maxRevive = a.maxRevive by rw [← hb]; rfl]
    · subst hb; intro i m; rfl
    · subst hb; intro i m; rfl
    · subst hb; rfl

-- The demo finder: fields are drawn with standard deviation 5, and it can be started again in all three
-- ways.
example : ∃ f, Finder.create Demo.fenv () Demo.fhPy.obj Demo.gasObj.obj Demo.canonicalObj.obj
      (.many [Demo.locObj.obj, Demo.globObj.obj]) Demo.args = .ok f ∧ 0 ≤ f.randomStd ∧
    (∃ x : FHCompiled f.numFeat ℝ, f.interaction = ⟨_, x⟩) ∧
    ∃ w : NDArr ℝ, w.shape = [f.numFeat, f.numPart] := by
  obtain ⟨f, ia, cs, hf, hc, -⟩ := Demo.created
  have h := C78_created hf
  refine ⟨f, hf, ?_, ?_, ⟨[_, _], fun _ => 1⟩, rfl⟩
  · rw [hc.randomStd]; exact h.1
  · rw [← hc.fits.interaction]; exact ⟨_, rfl⟩

/-! ## Constraints that were compiled but never initialized -/

theorem compileAll_not_ready {M : ℕ} (l : List (InstObj AnyConsNew × Dict ℝ)) :
    ∀ c ∈ (compileAll (M := M) l).1, c.ready = false := by
  induction l with
  | nil => simp [compileAll]
  | cons q l ih =>
    obtain ⟨o, kw⟩ := q
    simp only [compileAll]
    cases o.compiled kw with
    | error e => simp
    | ok x =>
      intro c hc
      rcases List.mem_cons.mp hc with rfl | hc
      · rfl
      · exact ih c hc

theorem newConstraints_not_ready {M S : ℕ} (base : Dict ℝ) (arg : ConsArg) (ind : IndArg) :
    ∀ c ∈ (newConstraints M S base arg ind).1, c.ready = false := by
  unfold newConstraints
  split
  · simp [PackedCons.ofNew]
  · simp [PackedCons.ofNew]
  · split
    · exact compileAll_not_ready _
    · exact compileAll_not_ready _
    · simp
  · split
    · exact compileAll_not_ready _
    · simp
    · simp
    · exact compileAll_not_ready _
  · simp

/-- **C44**, constraints: if `set_constraints` raises after it has compiled some constraint, `run` raises
as well: constraints that were never initialized are not used.  If it raises before, no constraint is
left, and a finder whose instances fit runs unconstrained. -/
theorem C44_interrupted (env : FinderEnv G) (f : Finder G) {arg : ConsArg} {reset : Bool} {ind : IndArg}
    {kw : Dict ℝ} {e : PyErr} (h : (f.setConstraints arg reset ind kw).2 = .error e) :
    (enforced (f.setConstraints arg reset ind kw).1 ≠ [] → ∀ ms tol int,
      ((f.setConstraints arg reset ind kw).1.run env ms tol int).2 = .error .outOfBounds) ∧
    (enforced (f.setConstraints arg reset ind kw).1 = [] → Fits f →
      Fits (f.setConstraints arg reset ind kw).1) := by
  have key : ∃ cs : List (PackedCons f.numPart), (f.setConstraints arg reset ind kw).1 =
      { f with constraints := cs } ∧ ∀ c ∈ cs, c.ready = false := by
    refine ⟨(newConstraints f.numPart f.numFeat (f.kwargs.merge kw) arg ind).1, ?_,
      newConstraints_not_ready _ _ _⟩
    unfold Finder.setConstraints at h ⊢
    dsimp only at h ⊢
    cases h1 : (newConstraints f.numPart f.numFeat (f.kwargs.merge kw) arg ind).2 with
    | some e' => rfl
    | none =>
      rw [h1] at h
      dsimp only at h ⊢
      cases h2 : Finder.checkAll f.numComp f.numFeat
          (newConstraints f.numPart f.numFeat (f.kwargs.merge kw) arg ind).1 with
      | error e' => rfl
      | ok u => rw [h2] at h; cases h
  obtain ⟨cs, h1, h2⟩ := key
  rw [h1]
  refine ⟨fun hne ms tol int => ?_, fun hemp hfit => ?_⟩
  · have hp : Finder.parts { f with constraints := cs } = none := by
      cases hp : Finder.parts { f with constraints := cs } with
      | none => rfl
      | some p =>
        have hf := (fits_iff.mpr ⟨p, hp⟩).constraints
        cases cs with
        | nil => exact absurd rfl hne
        | cons c cs =>
          have := (hf c List.mem_cons_self).2
          rw [h2 c List.mem_cons_self] at this
          cases this
    rw [run_none hp]
  · have : cs = [] := List.map_eq_nil_iff.mp hemp
    subst this
    exact ⟨hfit.interaction, hfit.entropyComp, hfit.entropyFeat, hfit.ensemble,
      fun c hc => absurd hc (by simp)⟩

/-- A constraint object of some other class that cannot be compiled. -/
def Demo.failing : InstObj AnyConsNew := ⟨[], fun _ => .error .valueError⟩

-- Both cases occur: the second of two constraints cannot be compiled, or the only one.
example (f : Finder G) :
    (f.setConstraints (.many [noConstraintObj f.numFeat, Demo.failing]) true .none []).2 =
      .error .valueError ∧
    enforced (f.setConstraints (.many [noConstraintObj f.numFeat, Demo.failing]) true .none []).1 =
      [⟨f.numFeat, .no⟩] ∧
    (f.setConstraints (.single Demo.failing) true .none []).2 = .error .valueError ∧
    enforced (f.setConstraints (.single Demo.failing) true .none []).1 = [] := by
  have hn : ∀ kw, (noConstraintObj f.numFeat).compiled kw = .ok ⟨f.numFeat, .no⟩ := fun kw => by
    rw [InstObj.compiled_eq]; rfl
  have hx : ∀ kw, Demo.failing.compiled kw = .error .valueError := fun kw => by
    rw [InstObj.compiled_eq]; rfl
  have h1 : newConstraints f.numPart f.numFeat (f.kwargs.merge [])
      (.many [noConstraintObj f.numFeat, Demo.failing]) .none =
      ([PackedCons.ofNew ⟨f.numFeat, .no⟩], some .valueError) := by
    simp [newConstraints, compileAll, hn, hx]
  have h2 : newConstraints f.numPart f.numFeat (f.kwargs.merge []) (.single Demo.failing) .none =
      ([], some .valueError) := by
    simp [newConstraints, compileAll, hx]
  unfold Finder.setConstraints
  simp only [h1, h2]
  exact ⟨trivial, by simp [enforced, PackedCons.ofNew_enforces], trivial, rfl⟩

end Flory
