import Verif.Lemmas.TranscriptCopy
import Verif.Model.GenObjects
import Verif.Model.GenFinder

/-! # The transcribed `run` is that of the model -/

set_option linter.unusedSectionVars false

namespace Flory

variable {G : Type} {C S M : ℕ} [NeZero M]

/-- What stays fixed during a run of the transcribed finder. -/
noncomputable def FinderAttrs.env (a : FinderAttrs C S M) (rng : Rng G ℝ)
    (crash : State C S M ℝ G → State C S M ℝ G) : RunEnv C S M ℝ G where
  ia := a.interaction
  en := a.entropy
  es := a.ensemble
  rng := rng
  params := a.params
  criterion := a.criterion
  crash := crash

/-- The arrays, constraints and generator of the transcribed finder. -/
def FinderAttrs.state (a : FinderAttrs C S M) (g : G) : State C S M ℝ G where
  omegas := a.omegas
  Js := a.Js
  phisComp := a.phisComp
  phisFeat := a.phisFeat
  cons := a.constraints
  g := g

/-- The transcribed finder after the model's run. -/
def FinderAttrs.after (a : FinderAttrs C S M) (s : RunState C S M ℝ G) (d : Diagnostics ℝ) :
    FinderAttrs C S M :=
  { a with
    constraints := s.st.cons
    diagnostics := some d.dict
    omegas := s.st.omegas
    Js := s.st.Js
    phisFeat := s.st.phisFeat
    phisComp := s.st.phisComp
    reviveLeft := s.reviveLeft }

/-- The variables of the transcribed loop. -/
abbrev RunTuple (C S M : ℕ) (G : Type) : Type :=
  Mat S M ℝ × Vec M ℝ × Mat C M ℝ × Mat S M ℝ × List (Cons S M ℝ) × G × ℤ × ℤ ×
    Option ℝ × Option ℝ × Option ℝ × Option ℝ

/-- The state of the model's loop in the order of the transcription. -/
def RunState.tuple (s : RunState C S M ℝ G) : RunTuple C S M G :=
  (s.st.omegas, s.st.Js, s.st.phisComp, s.st.phisFeat, s.st.cons, s.st.g, (s.steps : ℤ), s.reviveLeft,
    s.last.map fun r => r.last.maxAbsIncomp, s.last.map fun r => r.last.maxAbsOmegaDiff,
    s.last.map fun r => r.last.maxAbsJsDiff, s.last.map fun r => r.last.maxConstraintResidue)

/-- The body of the transcribed loop, with the call of the compiled loop as a record. -/
noncomputable def runBody (a : FinderAttrs C S M) (rng : Rng G ℝ) (tolerance : ℝ) (inner : ℤ)
    (s : RunTuple C S M G) : Py (RunTuple C S M G × Bool) := do
  let t ← Gen.callMetastep a.interaction a.entropy a.ensemble rng a.params s.2.2.2.2.2.2.2.1 inner
    ⟨s.1, s.2.1, s.2.2.1, s.2.2.2.1, s.2.2.2.2.1, s.2.2.2.2.2.1⟩
  if a.criterion = "standard" then
    if t.1.2.2.2.2.2 ∧ tolerance > t.1.1 ∧ tolerance > t.1.2.1 ∧ tolerance > t.1.2.2.1 ∧
        tolerance > t.1.2.2.2.1 then
      pure ((t.2.1, t.2.2.1, t.2.2.2.1, t.2.2.2.2.1, t.2.2.2.2.2.1, t.2.2.2.2.2.2,
        s.2.2.2.2.2.2.1 + inner, s.2.2.2.2.2.2.2.1 - t.1.2.2.2.2.1, some t.1.1, some t.1.2.1,
        some t.1.2.2.1, some t.1.2.2.2.1), true)
    else
      pure ((t.2.1, t.2.2.1, t.2.2.2.1, t.2.2.2.2.1, t.2.2.2.2.2.1, t.2.2.2.2.2.2,
        s.2.2.2.2.2.2.1 + inner, s.2.2.2.2.2.2.2.1 - t.1.2.2.2.2.1, some t.1.1, some t.1.2.1,
        some t.1.2.2.1, some t.1.2.2.2.1), false)
  else .error .valueError

/-- Keep the result of a run of the model, dropping the state after an exception. -/
def dropState {σ τ α : Type} (r : σ × Py α) (f : σ → α → τ) : Py τ :=
  match r with
  | (_, .error e) => .error e
  | (s, .ok x) => .ok (f s x)

theorem runLoop_transcript (a : FinderAttrs C S M) (rng : Rng G ℝ)
    (crash : State C S M ℝ G → State C S M ℝ G) (tolerance : ℝ) (inner n : ℕ)
    (s : RunState C S M ℝ G) :
    forBreakM n s.tuple (runBody a rng tolerance (inner : ℤ)) =
      dropState (runLoop (a.env rng crash) tolerance inner n s) fun s _ => s.tuple := by
  induction n generalizing s with
  | zero => rfl
  | succ n ih =>
    unfold forBreakM runLoop
    generalize hk : (fun r : RunTuple C S M G × Bool =>
      if r.2 = true then Except.ok r.1
      else forBreakM n r.1 (runBody a rng tolerance (inner : ℤ))) = k
    unfold runBody
    have h := metastep_transcript (a.env rng crash).ia (a.env rng crash).en (a.env rng crash).es
      (a.env rng crash).rng (a.env rng crash).params s.reviveLeft (inner : ℤ) s.st
    rw [Int.toNat_natCast] at h
    unfold Gen.callMetastep
    dsimp only [RunState.tuple]
    refine (congrArg (fun x => (x >>= _) >>= k) h).trans ?_
    cases metastep (a.env rng crash).ia (a.env rng crash).en (a.env rng crash).es (a.env rng crash).rng
      (a.env rng crash).params s.reviveLeft inner s.st with
    | error e => rfl
    | ok r =>
      simp only [Except.map, bind_ok]
      by_cases hc : a.criterion = "standard"
      · have hc' : (a.env rng crash).criterion = "standard" := hc
        rw [if_pos hc']
        simp only [if_pos hc]
        rw [← hk]
        have hconv : (r.isLastStepSafe = true ∧ tolerance > r.last.maxAbsIncomp ∧
            tolerance > r.last.maxAbsOmegaDiff ∧ tolerance > r.last.maxAbsJsDiff ∧
            tolerance > r.last.maxConstraintResidue) ↔ converged tolerance r = true := by
          unfold converged
          simp only [Bool.and_eq_true, decide_eq_true_eq]
          tauto
        set s' : RunState C S M ℝ G :=
          { st := r.last.state
            reviveLeft := s.reviveLeft - r.last.reviveCount
            steps := s.steps + inner
            last := some r } with hs'
        have ht : s'.tuple = (r.last.omegas, r.last.Js, r.last.phisComp, r.last.phisFeat, r.last.cons,
            r.last.g, (s.steps : ℤ) + (inner : ℤ), s.reviveLeft - (r.last.reviveCount : ℤ),
            some r.last.maxAbsIncomp, some r.last.maxAbsOmegaDiff, some r.last.maxAbsJsDiff,
            some r.last.maxConstraintResidue) := by
          rw [hs']
          unfold RunState.tuple
          push_cast
          rfl
        by_cases hv : converged tolerance r = true
        · rw [if_pos (hconv.2 hv), if_pos hv]
          simp only [pure_eq_ok, bind_ok, if_true]
          rw [← ht]
          rfl
        · rw [if_neg (fun h => hv (hconv.1 h)), if_neg hv]
          simp only [pure_eq_ok, bind_ok]
          rw [← ht]
          exact ih s'
      · have hc' : ¬ (a.env rng crash).criterion = "standard" := hc
        rw [if_neg hc']
        simp only [if_neg hc]
        rfl

/-- **The transcribed `run` is the model's.** -/
theorem run_transcript {rng : Rng G ℝ} (hok : rng.Ok) (a : FinderAttrs C S M)
    (crash : State C S M ℝ G → State C S M ℝ G) (maxSteps : Option ℚ) (tolerance : Option ℝ)
    (interval : Option ℤ) (g : G) :
    Gen.Finder.run a maxSteps tolerance interval rng g =
      dropState (runImpl (a.env rng crash) (maxSteps.getD a.maxSteps) (tolerance.getD a.tolerance)
        (interval.getD a.interval) (a.state g) a.reviveLeft) fun s x => (x.1, a.after s x.2, s.st.g) := by
  have hgen : Gen.Finder.run a maxSteps tolerance interval rng g =
      (pyDiv (maxSteps.getD a.maxSteps) ((interval.getD a.interval : ℤ) : ℚ) >>= fun q =>
      pyFloorDiv ⌈maxSteps.getD a.maxSteps⌉ ⌈q⌉ >>= fun d =>
      forBreakM (⌈q⌉).toNat (a.omegas, a.Js, a.phisComp, a.phisFeat, a.constraints, g, (0 : ℤ),
        a.reviveLeft, none, none, none, none)
        (runBody a rng (tolerance.getD a.tolerance) (max 1 d)) >>= fun s =>
      Gen.revive_compartments_by_copy s.2.1 s.2.2.1 a.params.killThreshold rng s.2.2.2.2.2.1 >>=
        fun t =>
      boundVar s.2.2.2.2.2.2.2.2.1 >>= fun x1 =>
      boundVar s.2.2.2.2.2.2.2.2.2.1 >>= fun x2 =>
      boundVar s.2.2.2.2.2.2.2.2.2.2.1 >>= fun x3 =>
      boundVar s.2.2.2.2.2.2.2.2.2.2.2 >>= fun x4 =>
      pure (⟨t.2.1, fun i j => t.2.2.1 j i⟩,
        { a with
          constraints := s.2.2.2.2.1
          diagnostics := some ⟨s.2.2.2.2.2.2.1, x1, x2, x3, x4, s.2.2.2.2.2.2.2.1⟩
          omegas := s.1
          Js := s.2.1
          phisFeat := s.2.2.2.1
          phisComp := s.2.2.1
          reviveLeft := s.2.2.2.2.2.2.2.1 }, t.2.2.2)) := rfl
  rw [hgen]
  generalize maxSteps.getD a.maxSteps = ms
  generalize tolerance.getD a.tolerance = tol
  generalize interval.getD a.interval = iv
  unfold runImpl stepsTracker pyDiv
  by_cases hi : iv = 0
  · rw [if_pos (by rw [hi]; rfl), if_pos hi]
    rfl
  · rw [if_neg (by exact_mod_cast hi), if_neg hi, bind_ok]
    dsimp only
    generalize ⌈ms / (iv : ℚ)⌉ = tr
    unfold stepsInner pyFloorDiv
    by_cases ht : tr = 0
    · rw [if_pos ht, if_pos ht]
      rfl
    · rw [if_neg ht, if_neg ht, bind_ok]
      dsimp only
      have hin : ((max 1 (Int.fdiv ⌈ms⌉ tr)).toNat : ℤ) = max 1 (Int.fdiv ⌈ms⌉ tr) :=
        Int.toNat_of_nonneg (le_trans zero_le_one (le_max_left _ _))
      rw [← hin]
      generalize (max 1 (Int.fdiv ⌈ms⌉ tr)).toNat = inner
      rw [Int.toNat_natCast]
      have hl := runLoop_transcript a rng crash tol inner tr.toNat ⟨a.state g, a.reviveLeft, 0, none⟩
      have e0 : (⟨a.state g, a.reviveLeft, 0, none⟩ : RunState C S M ℝ G).tuple =
          (a.omegas, a.Js, a.phisComp, a.phisFeat, a.constraints, g, (0 : ℤ),
            a.reviveLeft, none, none, none, none) := rfl
      rw [e0] at hl
      rw [hl]
      generalize runLoop (a.env rng crash) tol inner tr.toNat ⟨a.state g, a.reviveLeft, 0, none⟩ = r
      obtain ⟨s, x⟩ := r
      cases x with
      | error e => rfl
      | ok u =>
        have hcp := copy_transcript hok s.st.Js s.st.phisComp a.params.killThreshold s.st.g
        simp only [dropState, bind_ok, RunState.tuple]
        rw [hcp]
        unfold runFinal
        have hcp' : reviveByCopy (a.env rng crash).rng s.st.Js s.st.phisComp
            (a.env rng crash).params.killThreshold s.st.g =
            reviveByCopy rng s.st.Js s.st.phisComp a.params.killThreshold s.st.g := rfl
        rw [hcp']
        cases reviveByCopy rng s.st.Js s.st.phisComp a.params.killThreshold s.st.g with
        | error e => rfl
        | ok c =>
          obtain ⟨st, rl, steps, last⟩ := s
          cases last with
          | none => rfl
          | some r => rfl

end Flory
